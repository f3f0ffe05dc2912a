import Verif.Model.Regex
import Verif.Model.Ops
import Verif.Model.Join

/-!
Matchers of `/repo/src/matcher.rs`.

Simplifications. Texts are bytes; a `str` is its UTF-8 bytes. What the standard library does with Unicode is left open
(`StrOps`), as are user regular expressions, comparators made from a specification, and the files read (`MEnv`). Matchers
that users of the library register are left out: the table is the one of `init`. Messages on stderr are left out.
-/

namespace Cdx

/-- The Unicode functions of std used by `src/matcher.rs` and `src/text.rs`. -/
structure StrOps where
  /-- `String::from_utf8_lossy` (`src/matcher.rs` 1036) -/
  lossy : Bytes → Bytes
  /-- whether `str::from_utf8` succeeds (`src/matcher.rs` 1574) -/
  valid : Bytes → Bool
  /-- `str::chars` (`src/matcher.rs` 376) -/
  chars : Bytes → List Char
  /-- collecting characters into a `String` (`src/text.rs` 431) -/
  encode : List Char → Bytes
  /-- `char::to_lowercase` (`src/matcher.rs` 377) -/
  low : Char → List Char
  /-- `str::to_lowercase` (`src/matcher.rs` 369) -/
  lowStr : Bytes → Bytes
  /-- `str::trim` (`src/text.rs` 347) -/
  trim : Bytes → Bytes

/-- What the makers of `src/matcher.rs` take from elsewhere. -/
structure MEnv where
  str : StrOps
  /-- `str::parse::<f64>` inside the comparators (`src/comp.rs` 1720) -/
  toF64 : Bytes → F64
  /-- `RegexMatch::new` (`src/matcher.rs` 561-571): pattern and `Case::Insens` to the test on bytes and on strings -/
  regex : Bytes → Bool → Res ((Bytes → Bool) × (Bytes → Bool))
  /-- contents of a file (`Reader::open`, `src/matcher.rs` 612) -/
  file : Bytes → Res Bytes
  /-- `CompMaker::make_comp` (`src/matcher.rs` 976 and `src/util.rs` 2336) -/
  comp : Bytes → Res CompKind
  /-- whether `TransList::new` accepts a specification (`src/column.rs` 792) -/
  transOk : Bytes → Bool
  /-- `Expr::new`, then `lookup` (`src/matcher.rs` 1971-1998): the value for a line -/
  expr : Bytes → Res (List Bytes → Res (TextLine → Res F64))

/-! ## Single tests -/

/-- The implementations of `Match` (`src/matcher.rs` 323-855). -/
inductive MKind
  | pre (p : Bytes) | preC (p : Bytes)
  | suf (p : Bytes) | sufC (p : Bytes)
  | inf (p : Bytes) | infC (p : Bytes)
  | exact (p : Bytes) | exactC (p : Bytes)
  | re (r : RE)
  | regex (u s : Bytes → Bool)
  | file (lines : List Bytes) | fileC (lines : List Bytes)
  | glob (p : Bytes) (insens : Bool)
  | yes | no
  | length (min : Nat) (max : Option Nat)
  | check (c : CheckBuff)

/-- `memmem::find(..).is_some()` of the memchr crate (used at `src/matcher.rs` 522, 543 and 546). -/
def hasInfix (p : Bytes) : Bytes → Bool
  | [] => p == []
  | x :: xs => p.isPrefixOf (x :: xs) || hasInfix p xs

/-- The answer of `glob` as a result (`src/matcher.rs` 729-734). -/
def GlobRes.toRes : GlobRes → Res Bool
  | .yes => .ok true
  | .no => .ok false
  | .panic => .panic
  | .noFuel => .panic

/-- `LengthMatch` (`src/matcher.rs` 830-850) on a length. -/
def lengthOk (min : Nat) (max : Option Nat) (len : Nat) : Bool :=
  if len < min then false
  else match max with
    | none => true
    | some m => len ≤ m

/-- `umatch` of each `Match` (`src/matcher.rs` 327, 352, 445, 469, 495, 521, 545, 577, 601, 648, 703, 732, 760, 775, 790
and 841). The lower case patterns were computed when made. -/
def MKind.umatch (env : MEnv) : MKind → Bytes → Res Bool
  | .pre p, v => .ok (p.isPrefixOf v)
  | .preC p, v => .ok (bcasePrefix v (lower p))
  | .suf p, v => .ok (p.isSuffixOf v)
  | .sufC p, v => match bcaseSuffix v (lower p) with
    | none => .panic
    | some b => .ok b
  | .inf p, v => .ok (hasInfix p v)
  | .infC p, v => .ok (hasInfix (lower p) (lower v))
  | .exact p, v => .ok (p == v)
  | .exactC p, v => .ok (eqIgnoreCase v (lower p))
  | .re r, v => .ok (r.isMatch v)
  | .regex u _, v => .ok (u v)
  | .file ls, v => .ok (ls.contains v)
  | .fileC ls, v => .ok (ls.contains (lower v))
  | .glob p ic, v => (globU8 v p ic).toRes
  | .yes, _ => .ok true
  | .no, _ => .ok false
  | .length mn mx, v => .ok (lengthOk mn mx v.length)
  | .check c, v => c.buffOk env.toF64 v

/-- `chars_equal` for characters (`src/text.rs` 359-370). -/
def charsEqualS (o : StrOps) (insens : Bool) (c1 c2 : Char) : Bool :=
  if c1 = c2 then true
  else if c1 = '?' then true
  else if insens = false then false
  else o.low c1 == o.low c2

/-- `new_lower` of `str` (`src/text.rs` 429-437). -/
def StrOps.newLower (o : StrOps) (s : Bytes) : Bytes := o.encode ((o.chars s).flatMap o.low)

/-- `equal_insens_quick` of `str` (`src/text.rs` 395-402); zipping stops at the shorter of the two. -/
def StrOps.equalInsensQuick (o : StrOps) (self other : Bytes) : Bool :=
  ((o.chars self).zip ((o.chars other).flatMap o.low)).all (fun c => c.1 == c.2) && self.length == other.length

/-- `smatch` of each `Match` (`src/matcher.rs` 324, 349, 442, 466, 492, 518, 542, 574, 598, 645, 700, 729, 757, 772, 787
and 831). -/
def MKind.smatch (env : MEnv) : MKind → Bytes → Res Bool
  | .pre p, s => .ok (p.isPrefixOf s)
  | .preC p, s => .ok (scasePrefix env.str.low (env.str.chars s) (env.str.chars (env.str.lowStr p)))
  | .suf p, s => .ok (p.isSuffixOf s)
  | .sufC p, s => .ok (scaseSuffix env.str.low (env.str.chars s) (env.str.chars (env.str.lowStr p)))
  | .inf p, s => .ok (hasInfix p s)
  | .infC p, s => .ok (hasInfix (env.str.lowStr p) (env.str.lowStr s))
  | .exact p, s => .ok (p == s)
  | .exactC p, s => .ok (env.str.equalInsensQuick s (env.str.newLower p))
  | .re r, s => .ok (r.isMatch s)
  | .regex _ f, s => .ok (f s)
  | .file ls, s => .ok (ls.contains s)
  | .fileC ls, s => .ok (ls.contains (env.str.newLower s))
  | .glob p ic, s => (Cdx.glob (charsEqualS env.str ic) '*' (env.str.chars s) (env.str.chars p)).toRes
  | .yes, _ => .ok true
  | .no, _ => .ok false
  | .length mn mx, s => .ok (lengthOk mn mx (env.str.chars s).length)
  | .check c, s => c.buffOk env.toF64 s

/-! ## Matchers -/

/-- `Combiner` (`src/matcher.rs` 867-873). -/
inductive Combiner | or | and
deriving DecidableEq, Repr

/-- The settings of a `Matcher` (`src/matcher.rs` 1480-1499). -/
structure MFlags where
  ctype : Bytes
  string : Bool
  insens : Bool
  negate : Bool
  trim : Bool
  empty : Bool
  multi : Option Combiner
deriving DecidableEq, Repr

/-- `Matcher::default` (`src/matcher.rs` 1516-1529): `regex`, everything off. -/
def MFlags.default : MFlags := ⟨[114, 101, 103, 101, 120], false, false, false, false, false, none⟩

/-- The `matcher` field (`src/matcher.rs` 1498): one test, or a `MatcherList` of matchers with one test each. -/
inductive MBody
  | one (k : MKind)
  | many (c : Combiner) (ms : List (MFlags × MKind))

/-- `Matcher` (`src/matcher.rs` 1480-1499). -/
structure Matcher where
  flags : MFlags
  body : MBody

/-- `trimw` of bytes (`src/text.rs` 521-528). -/
def trimw (v : Bytes) : Bytes := ((v.dropWhile (· ≤ 32)).reverse.dropWhile (· ≤ 32)).reverse

/-- The start of `smatch` and `umatch` of `Matcher` (`src/matcher.rs` 1549-1570), then the test. -/
def MFlags.apply (f : MFlags) (tr : Bytes → Bytes) (test : Bytes → Res Bool) (v : Bytes) : Res Bool :=
  let w := if f.trim then tr v else v
  if f.empty && w == [] then .ok true else test w

/-- The loops `umatch_and` and `smatch_and` (`src/matcher.rs` 1384-1391 and 1406-1413), given the tests. -/
def andLoop : List (Res Bool) → Res Bool
  | [] => .ok true
  | r :: rs => r.bind fun b => if b then andLoop rs else .ok false

/-- The loops `umatch_or` and `smatch_or` (`src/matcher.rs` 1392-1399 and 1414-1421), given the tests. -/
def orLoop : List (Res Bool) → Res Bool
  | [] => .ok false
  | r :: rs => r.bind fun b => if b then .ok true else orLoop rs

/-- `umatch_tagged`, `smatch_tagged`, `ok_tagged` (`src/matcher.rs` 1378-1383, 1400-1405 and 1228-1233). -/
def Combiner.loop : Combiner → List (Res Bool) → Res Bool
  | .and => andLoop
  | .or => orLoop

/-- `umatch` of `Matcher` (`src/matcher.rs` 1561-1570); `negate` plays no part. -/
def Matcher.umatch (env : MEnv) (m : Matcher) (v : Bytes) : Res Bool :=
  m.flags.apply trimw (fun w => match m.body with
    | .one k => k.umatch env w
    | .many c ms => c.loop (ms.map fun x => x.1.apply trimw (x.2.umatch env) w)) v

/-- `smatch` of `Matcher` (`src/matcher.rs` 1549-1558). -/
def Matcher.smatch (env : MEnv) (m : Matcher) (v : Bytes) : Res Bool :=
  m.flags.apply env.str.trim (fun w => match m.body with
    | .one k => k.smatch env w
    | .many c ms => c.loop (ms.map fun x => x.1.apply env.str.trim (x.2.smatch env) w)) v

/-- `do_match` (`src/matcher.rs` 1572-1578). -/
def Matcher.doMatch (env : MEnv) (m : Matcher) (v : Bytes) : Res Bool :=
  if m.flags.string then (if env.str.valid v then m.smatch env v else .err) else m.umatch env v

/-- `do_match_safe` (`src/matcher.rs` 1583-1593). -/
def Matcher.doMatchSafe (env : MEnv) (m : Matcher) (v : Bytes) : Res Bool :=
  if m.flags.string then (if env.str.valid v then m.smatch env v else .ok false) else m.umatch env v

/-- `umatch` of `MatcherList` (`src/matcher.rs` 1444-1446). -/
def matcherListUmatch (env : MEnv) (c : Combiner) (ms : List Matcher) (v : Bytes) : Res Bool :=
  c.loop (ms.map fun m => m.umatch env v)

/-! ## Making matchers -/

/-- The ASCII text of a string, for names in the code (as at `src/matcher.rs` 1629-1765). -/
def ascii (s : String) : Bytes := s.toList.map fun c => UInt8.ofNat c.toNat

/-- The body of `make2`'s loop over the parts of the method (`src/matcher.rs` 1855-1873). -/
def MFlags.modify (f : MFlags) (x : Bytes) : MFlags :=
  if eqIgnoreCase x (ascii "utf8") then { f with string := true }
  else if eqIgnoreCase x (ascii "not") then { f with negate := true }
  else if eqIgnoreCase x (ascii "trim") then { f with trim := true }
  else if eqIgnoreCase x (ascii "null") then { f with negate := true }
  else if eqIgnoreCase x (ascii "case") then { f with insens := true }
  else if eqIgnoreCase x (ascii "and") then { f with multi := some .and }
  else if eqIgnoreCase x (ascii "or") then { f with multi := some .or }
  else { f with ctype := x }

/-- `resolve_alias` (`src/matcher.rs` 1782-1789) with the aliases of `init` (1629-1631). -/
def matchAlias (name : Bytes) : Bytes :=
  if name = ascii "substr" then ascii "infix"
  else if name = ascii "substring" then ascii "infix"
  else if name = ascii "fileexact" then ascii "file-exact"
  else name

/-- The flags read from a method (`src/matcher.rs` 1853-1875). -/
def MFlags.ofMethod (method : Bytes) : MFlags :=
  if method = [] then .default
  else
    let f := (sliceSplit 46 method).foldl MFlags.modify .default
    { f with ctype := matchAlias f.ctype }

/-- `LengthMatch::new` (`src/matcher.rs` 806-821). -/
def mkLength (data : Bytes) : Res MKind :=
  if data = [] then .err
  else match sliceSplit 44 data with
    | [a] => (toUsizeWhole a).bind fun n => .ok (.length n none)
    | [a, b] => (toUsizeWhole a).bind fun n => (toUsizeWhole b).bind fun m => .ok (.length n (some m))
    | a :: b :: _ => (toUsizeWhole a).bind fun _ => (toUsizeWhole b).bind fun _ => .err
    | [] => .err

/-- `load_hashset` (`src/matcher.rs` 609-626): the lines without their last byte, if longer than it. -/
def loadSet (content : Bytes) : List Bytes :=
  ((openReader content).lines.filter fun l => l.length > 1).map List.dropLast

/-- `load_hashset_c` (`src/matcher.rs` 656-681). -/
def loadSetC (o : StrOps) (unicode : Bool) (content : Bytes) : Res (List Bytes) :=
  let ls := ((openReader content).lines.filter fun l => l.length > 1).map
    fun l => if l.getLast? = some NL then l.dropLast else l
  if unicode then
    if ls.all o.valid then .ok (ls.map o.newLower) else .err
  else .ok (ls.map lower)

/-- The makers of `init` (`src/matcher.rs` 1625-1766), by `ctype`, through `remake` (1951-1960): the flags, changed by
some of them, and the test. -/
def makeKind (env : MEnv) (f : MFlags) (p : Bytes) : Res (MFlags × MKind) :=
  let soft : MFlags := { f with trim := true, empty := true }
  if f.ctype = ascii "prefix" then .ok (f, if f.insens then .preC p else .pre p)
  else if f.ctype = ascii "float" then .ok (f, .re floatRE)
  else if f.ctype = ascii "integer" then .ok (f, .re integerRE)
  else if f.ctype = ascii "number" then .ok (f, .re numberRE)
  else if f.ctype = ascii "ip" then .ok (f, .re ipRE)
  else if f.ctype = ascii "regex" then (env.regex p f.insens).bind fun r => .ok (f, .regex r.1 r.2)
  else if f.ctype = ascii "range" then (CheckBuff.new env.comp p).bind fun c => .ok (f, .check c)
  else if f.ctype = ascii "file-exact" then
    (env.file p).bind fun t =>
      if f.insens then (loadSetC env.str f.string t).bind fun ls => .ok (f, .fileC ls)
      else .ok (f, .file (loadSet t))
  else if f.ctype = ascii "exact" then .ok (f, if f.insens then .exactC p else .exact p)
  else if f.ctype = ascii "length" then (mkLength p).bind fun k => .ok (f, k)
  else if f.ctype = ascii "yes" then .ok (f, .yes)
  else if f.ctype = ascii "suffix" then .ok (f, if f.insens then .sufC p else .suf p)
  else if f.ctype = ascii "infix" then .ok (f, if f.insens then .infC p else .inf p)
  else if f.ctype = ascii "glob" then .ok (f, .glob p f.insens)
  else if f.ctype = ascii "empty" then .ok (f, .length 0 (some 0))
  else if f.ctype = ascii "blank" then .ok (soft, .no)
  else if f.ctype = ascii "comment" then .ok (soft, .pre p)
  else if f.ctype = ascii "hash" then .ok (soft, .pre (ascii "#"))
  else if f.ctype = ascii "slash" then .ok (soft, .pre (ascii "//"))
  else .err

/-- The loop over the patterns of a multi-pattern (`src/matcher.rs` 1881-1886). -/
def makeAll (env : MEnv) (f : MFlags) : List Bytes → Res (List (MFlags × MKind))
  | [] => .ok []
  | p :: ps => (makeKind env { f with multi := none } p).bind fun m => (makeAll env f ps).bind fun ms => .ok (m :: ms)

/-- `make2` (`src/matcher.rs` 1851-1892). The delimiter is taken to be an ASCII character. -/
def Matcher.make2 (env : MEnv) (method pattern : Bytes) : Res Matcher :=
  let f := MFlags.ofMethod method
  match f.multi with
  | some c => match pattern with
    | [] => .panic
    | d :: ps => (makeAll env f (sliceSplit d ps)).bind fun ms => .ok ⟨f, .many c ms⟩
  | none => (makeKind env f pattern).bind fun m => .ok ⟨m.1, .one m.2⟩

/-- `make` (`src/matcher.rs` 1894-1900). -/
def Matcher.make (env : MEnv) (spec : Bytes) : Res Matcher :=
  match splitOnce 44 spec with
  | some (a, b) => Matcher.make2 env a b
  | none => Matcher.make2 env spec []

/-! ## Matching lines -/

/-- `NamedCol` (`src/column.rs` 1430-1437); `from_end` is never set, see `NamedCol.parse`. -/
structure NamedCol where
  name : Bytes
  num : Nat
deriving DecidableEq, Repr

/-- `NamedCol::parse` (`src/column.rs` 1485-1518): the column and the unused text. After a plus sign, `ch` is the plus
sign itself, so that is always an error. -/
def NamedCol.parse (spec : Bytes) : Res (NamedCol × Bytes) :=
  match spec with
  | [] => .err
  | ch :: _ =>
    if isDigit ch ∧ ch ≠ 48 then
      match toUsize spec with
      | none => .panic
      | some (a, b) => if a = 0 then .panic else .ok (⟨[], a - 1⟩, b)
    else if isAlpha ch then
      .ok (⟨spec.take (getColName spec), 0⟩, spec.drop (getColName spec))
    else .err

/-- `NamedCol::new_from` (`src/column.rs` 1459-1467). -/
def NamedCol.newFrom (spec : Bytes) : Res NamedCol :=
  (NamedCol.parse spec).bind fun r => if r.2 = [] then .ok r.1 else .err

/-- `NamedCol::lookup` (`src/column.rs` 1469-1483). -/
def NamedCol.lookup (names : List Bytes) (c : NamedCol) : Res Nat :=
  if c.name ≠ [] then lookupCol names c.name else .ok c.num

/-- The implementations of `LineMatch` before `lookup` (`src/matcher.rs` 945-950, 1018-1020, 1052-1054, 1093-1097, 1148-1151
and 1965-1967). -/
inductive LineMatcher
  | whole (m : Matcher)
  | col (m : Matcher) (c : NamedCol)
  | set (m : Matcher) (cols : ColumnSet) (det : Determiner)
  | count (n : Nat)
  | comp (target : NamedCol) (op : CompareOp) (cols : ColumnSet) (kind : CompKind)
  | expr (e : List Bytes → Res (TextLine → Res F64))

/-- The implementations of `LineMatch` after `lookup` (`src/matcher.rs` 945-950, 1018-1020, 1052-1054, 1093-1097, 1148-1151
and 1965-1967): column numbers instead of names. -/
inductive LineTest
  | whole (m : Matcher)
  | col (m : Matcher) (num : Nat)
  | set (m : Matcher) (nums : List Nat) (det : Determiner)
  | count (n : Nat)
  | comp (target : Nat) (op : CompareOp) (nums : List Nat) (kind : CompKind)
  | expr (e : TextLine → Res F64)

/-- `ColumnSet::from_spec` (`src/column.rs` 741-745). -/
def ColumnSet.fromSpec (env : MEnv) (spec : Bytes) : Res ColumnSet := ColumnSet.empty.add env.transOk spec false

/-- `MatchMaker::make` as used by `match_range` (`src/column.rs` 880-890). A panic inside counts as no match. -/
def nameTest (env : MEnv) (spec : Bytes) : Res (Bytes → Bool) :=
  (Matcher.make env spec).bind fun m => .ok fun s => m.smatch env s == .ok true

/-- `lookup` of each `LineMatch` (`src/matcher.rs` 1003-1006, 1042-1044, 1070-1072, 1138-1140, 1178-1180 and 1995-1997). -/
def LineMatcher.lookup (env : MEnv) (names : List Bytes) : LineMatcher → Res LineTest
  | .whole m => .ok (.whole m)
  | .col m c => (c.lookup names).bind fun n => .ok (.col m n)
  | .set m cols det => (cols.lookup (nameTest env) names).bind fun cs => .ok (.set m (cs.map (·.num)) det)
  | .count n => .ok (.count n)
  | .comp t op cols k => (t.lookup names).bind fun n =>
      (cols.lookup (nameTest env) names).bind fun cs => .ok (.comp n op (cs.map (·.num)) k)
  | .expr e => (e names).bind fun f => .ok (.expr f)

/-- `umatch` or `smatch`, as `string` says (`src/matcher.rs` 1034-1039, 1119-1124 and 1170-1175). -/
def Matcher.lossyMatch (env : MEnv) (m : Matcher) (v : Bytes) : Res Bool :=
  if m.flags.string then m.smatch env (env.str.lossy v) else m.umatch env v

/-- `line_nl` (`src/util.rs` 787-789): all but the last byte; subtracting from the length of an empty line panics. -/
def TextLine.lineNl (l : TextLine) : Res Bytes := if l.line = [] then .panic else .ok l.line.dropLast

/-- The loop over columns with a determiner (`src/matcher.rs` 987-1001 and 1116-1136); a test may panic. -/
def detLoopRes (d : Determiner) : List (Res Bool) → (yes no : Nat) → Res Bool
  | [], yes, no => .ok (d.matchFinal yes no)
  | r :: rs, yes, no => r.bind fun b =>
    let yes' := if b then yes + 1 else yes
    let no' := if b then no else no + 1
    match d.matchMid yes' no' with
    | .maybe => detLoopRes d rs yes' no'
    | .yes => .ok true
    | .no => .ok false

/-- `ok` of each `LineMatch` (`src/matcher.rs` 986-1002, 1032-1040, 1066-1068, 1115-1136, 1168-1176 and 1979-1981). -/
def LineTest.ok (env : MEnv) (line : TextLine) : LineTest → Res Bool
  | .whole m => line.lineNl.bind fun v => (m.lossyMatch env v).bind fun b => .ok (m.flags.negate ^^ b)
  | .col m n => (m.lossyMatch env (line.get n)).bind fun b => .ok (m.flags.negate ^^ b)
  | .set m nums det =>
    (detLoopRes det (nums.map fun n => m.lossyMatch env (line.get n)) 0 0).bind fun b => .ok (m.flags.negate ^^ b)
  | .count n => .ok (line.len == n)
  | .comp t op nums k =>
    .ok (detLoop .some (nums.map fun n => op.ordOk (compK env.toF64 k (line.get t) (line.get n))) 0 0)
  | .expr e => (e line).bind fun v => .ok (!F64.eq v 0)

/-- `ok_verbose_and` (`src/matcher.rs` 1257-1265) on the results: all are asked. -/
def andVerbose (ret : Bool) : List (Res Bool) → Res Bool
  | [] => .ok ret
  | r :: rs => r.bind fun b => andVerbose (if b then ret else false) rs

/-- `ok` of `LineMatcherList` (`src/matcher.rs` 1288-1290). -/
def lineListOk (env : MEnv) (c : Combiner) (ts : List LineTest) (line : TextLine) : Res Bool :=
  c.loop (ts.map (LineTest.ok env line))

/-- `ok_verbose` of `LineMatcherList` (`src/matcher.rs` 1292-1294), as far as its answer goes. -/
def lineListVerbose (env : MEnv) (c : Combiner) (ts : List LineTest) (line : TextLine) : Res Bool :=
  match c with
  | .and => andVerbose true (ts.map (LineTest.ok env line))
  | .or => orLoop (ts.map (LineTest.ok env line))

/-! ## Making line matchers -/

/-- `Determiner::new` (`src/matcher.rs` 246-274). The ones with a threshold are left out: they contain a comma, and
`mkSet`, the only caller, cuts at the first. -/
def Determiner.new (spec : Bytes) : Res Determiner :=
  if eqIgnoreCase spec (ascii "all") then .ok .all
  else if eqIgnoreCase spec (ascii "some") then .ok .some
  else if eqIgnoreCase spec (ascii "none") then .ok .none
  else if eqIgnoreCase spec (ascii "notall") then .ok .notAll
  else if eqIgnoreCase spec (ascii "mixed") then .ok .mixed
  else if eqIgnoreCase spec (ascii "uniform") then .ok .uniform
  else .err

/-- The operator at the start of a `comp` pattern (`src/matcher.rs` 954-974). -/
def compOp (pattern : Bytes) : Res (CompareOp × Bytes) :=
  if pattern.length < 3 then .err
  else if cutsChar pattern 2 then .panic
  else match CompareOp.parse (pattern.take 2) with
    | .ok o => .ok (o, pattern.drop 2)
    | _ => if cutsChar pattern 1 then .panic
      else match CompareOp.parse (pattern.take 1) with
      | .ok o => .ok (o, pattern.drop 1)
      | _ => match splitOnce 46 pattern with
        | some (a, b) => (CompareOp.parse a).bind fun o => .ok (o, b)
        | none => .err

/-- `ColGroup::new_with` (`src/matcher.rs` 901-936). -/
def colGroup (env : MEnv) (spec : Bytes) : Res (ColumnSet × Bytes) :=
  match spec with
  | [] => .ok (.empty, [])
  | 44 :: rest => .ok (.empty, rest)
  | 91 :: _ => match findClose spec with
    | none => .err
    | some len =>
      if spec.length < len + 1 || cutsChar spec (len + 1) then .panic
      else (ColumnSet.fromSpec env ((spec.take len).drop 1)).bind fun c => .ok (c, spec.drop (len + 1))
  | _ => match splitOnce 44 spec with
    | some (a, b) => (ColumnSet.fromSpec env a).bind fun c => .ok (c, b)
    | none => (ColumnSet.fromSpec env spec).bind fun c => .ok (c, [])

/-- `CompMatcher::new` (`src/matcher.rs` 952-983). -/
def mkComp (env : MEnv) (incol pattern : Bytes) : Res LineMatcher :=
  (NamedCol.newFrom incol).bind fun t => (compOp pattern).bind fun o => (colGroup env o.2).bind fun g =>
    (env.comp g.2).bind fun k => .ok (.comp t o.1 g.1 k)

/-- `ColSetMatcher::new` (`src/matcher.rs` 1101-1111). -/
def mkSet (env : MEnv) (cols method pattern : Bytes) : Res LineMatcher :=
  match splitOnce 44 cols with
  | none => .err
  | some (a, b) => (Matcher.make2 env method pattern).bind fun m => (ColumnSet.fromSpec env b).bind fun c =>
      (Determiner.new a).bind fun d => .ok (.set m c d)

/-- `make_line3` (`src/matcher.rs` 1902-1928). -/
def makeLine3 (env : MEnv) (cols method pattern : Bytes) : Res LineMatcher :=
  if method = ascii "expr" then
    if cols ≠ [] then .err else (env.expr pattern).bind fun e => .ok (.expr e)
  else if method = ascii "comp" then mkComp env cols pattern
  else if method = ascii "count" then
    if cols ≠ [] then .err else (toUsizeWhole pattern).bind fun n => .ok (.count n)
  else match cols with
    | [] => (Matcher.make2 env method pattern).bind fun m => .ok (.whole m)
    | 91 :: cs => if cs = [] || cutsChar cs (cs.length - 1) then .panic else mkSet env cs.dropLast method pattern
    | _ => (NamedCol.parse cols).bind fun c => (Matcher.make2 env method pattern).bind fun m => .ok (.col m c.1)

/-- `make_line` (`src/matcher.rs` 1930-1949). -/
def makeLine (env : MEnv) (spec : Bytes) : Res LineMatcher :=
  match spec with
  | 91 :: _ => match findClose spec with
    | none => .err
    | some len =>
      if spec.length < len + 1 || cutsChar spec (len + 1) then .panic
      else match splitOnce 44 (spec.drop (len + 1)) with
        | some (c, d) => makeLine3 env ((spec.take len).drop 1) c d
        | none => makeLine3 env ((spec.take len).drop 1) (spec.drop (len + 1)) []
  | _ => match splitOnce 44 spec with
    | some (a, b) => match splitOnce 44 b with
      | some (c, d) => makeLine3 env a c d
      | none => makeLine3 env a b []
    | none => makeLine3 env spec [] []

end Cdx
