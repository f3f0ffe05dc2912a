import Verif.Model.Settings

/-!
What texts of options mean.
-/

namespace Cdx

/-- The letters for headers. -/
inductive HeadLetter : Char → HeadMode → Prop
  | yes : HeadLetter 'y' .yes
  | no : HeadLetter 'n' .no
  | skip : HeadLetter 's' .skip
  | maybe : HeadLetter 'm' .maybe
  | cdx : HeadLetter 'x' .cdx

/-- The letters for quoting. -/
inductive QuoteLetter : Char → QuoteMode → Prop
  | plain : QuoteLetter 'p' .plain
  | quote : QuoteLetter 'q' .quote
  | backslash : QuoteLetter 'b' .backslash

/-- A character and the byte it stands for: four letters are special, other ASCII characters stand for themselves. -/
inductive CharByte : Char → UInt8 → Prop
  | tab : CharByte 't' 9
  | space : CharByte 's' 32
  | cr : CharByte 'r' 13
  | nl : CharByte 'n' 10
  | self (c : Char) (h : c.toNat < 128) (ht : c ≠ 't') (hs : c ≠ 's') (hr : c ≠ 'r') (hn : c ≠ 'n') :
      CharByte c (UInt8.ofNat c.toNat)

/-- A part of a format: what the letter says, or the default if there is no letter. -/
def PartIs {α : Type} (R : Char → α → Prop) (dflt : α) (c : Option Char) (a : α) : Prop :=
  match c with
  | none => a = dflt
  | some c => R c a

/-- The text of a format: up to five characters. -/
structure Described (dflt : TextMode) (spec : List Char) (m : TextMode) : Prop where
  short : spec.length ≤ 5
  head : PartIs HeadLetter dflt.head spec[0]? m.head
  delim : PartIs CharByte dflt.delim spec[1]? m.delim
  col : PartIs QuoteLetter dflt.col spec[2]? m.col
  repl : PartIs CharByte dflt.repl spec[3]? m.repl
  eol : PartIs CharByte dflt.eol spec[4]? m.eol

/-- The name of an option, flag or argument. -/
def Tok.name : Tok → String
  | .flag n => n
  | .opt n _ => n
  | .pos n _ => n

/-- The value given, if any. -/
def Tok.value : Tok → Bytes
  | .flag _ => []
  | .opt _ v => v
  | .pos _ v => v

/-- The value of the last option with a name. -/
def lastOpt (n : String) (toks : List Tok) : Option Bytes := ((toks.filter fun t => t.name = n).map Tok.value).getLast?

/-- What clap accepts for these tables: flags without and options with a value, positional arguments in their place. -/
def Accepts (spec : List ArgSpec) (t : Tok) : Prop :=
  match t with
  | .flag n => n = "std-help" ∨ ∃ a ∈ spec ++ globalArgs, a.name = n ∧ a.takes = false
  | .opt n v => ∃ a ∈ spec ++ globalArgs, a.name = n ∧ a.takes = true ∧ a.positional = false ∧
      (a.values = [] ∨ ∃ w ∈ a.values, eqIgnoreCase v (ascii w) = true)
  | .pos n _ => n = "input_files" ∨ ∃ a ∈ spec, a.name = n ∧ a.positional = true ∧ a.takes = true

/-- The options on a command line that belong to a table, in order. -/
def wantedArgs (spec : List ArgSpec) (toks : List Tok) : List (String × Bytes) :=
  (toks.filter fun t => spec.any fun a => a.name = t.name).map fun t => (t.name, t.value)

/-- No two options have the same name. -/
def Names (spec : List ArgSpec) : Prop := ((spec ++ globalArgs).map (·.name) ++ ["std-help", "input_files"]).Nodup

/-- Words and their meanings. -/
def triWords : List (Bytes × Tri) :=
  [(ascii "yes", .yes), (ascii "true", .yes), (ascii "1", .yes), (ascii "on", .yes), (ascii "no", .no), (ascii "false", .no),
   (ascii "0", .no), (ascii "off", .no), (ascii "maybe", .maybe), (ascii "sometimes", .maybe)]

/-- Words and their meanings. -/
def dupWords : List (Bytes × DupColHandling) :=
  [(ascii "fail", .fail), (ascii "allow", .allow), (ascii "numeric", .numeric)]

/-- Words and their meanings. -/
def endWords : List (Bytes × EndMode) := [(ascii "exact", .exact), (ascii "early", .early), (ascii "late", .late)]

/-- Words and their meanings. -/
def padWords : List (Bytes × PadMode) := [(ascii "yes", .all), (ascii "no", .none), (ascii "end", .stop)]

/-- One or two numbers. -/
inductive PairText : Bytes → Nat × Nat → Prop
  | one (n : Nat) (h : n < 2 ^ 64) : PairText (decText n) (n, n)
  | two (n k : Nat) (h : n < 2 ^ 64) (hk : k < 2 ^ 64) : PairText (decText n ++ 46 :: decText k) (n, k)

/-- How much context: before and after, for lines found and for none found. -/
inductive ContextText : Bytes → Context → Prop
  | both (t : Bytes) (p : Nat × Nat) (h : PairText t p) : ContextText t ⟨p.1, p.2, p.1, p.2⟩
  | each (t u : Bytes) (p q : Nat × Nat) (h : PairText t p) (h' : PairText u q) :
      ContextText (t ++ 44 :: u) ⟨p.1, p.2, q.1, q.2⟩

/-- The text of output columns: `file.col,col,…,file.col,…`. -/
def outputText (l : List (Nat × Bytes × List Bytes)) : Bytes :=
  List.intercalate [44] (l.flatMap fun p => (decText (p.1 + 1) ++ 46 :: p.2.1) :: p.2.2)

/-- A specification of columns without special characters. -/
def SimpleCol (c : Bytes) : Prop := c ≠ [] ∧ 44 ∉ c ∧ 46 ∉ c ∧ 43 ∉ c ∧ c.head? ≠ some 40 ∧ c.head? ≠ some 126

end Cdx
