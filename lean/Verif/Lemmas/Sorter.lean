import Verif.Lemmas.Merge
import Verif.Props.Reader
import Verif.Props.CompCache
import Verif.Props.Header

/-!
The buffer of the sorter.
-/

namespace Cdx

/-! ## Terminated lines -/

/-- A line with its terminator and no other. -/
def IsLine (l : Bytes) : Prop := ∃ body, l = body ++ [NL] ∧ NL ∉ body

theorem IsLine.ne {l : Bytes} (h : IsLine l) : l ≠ [] := by
  obtain ⟨b, rfl, _⟩ := h
  simp

/-- Complete lines of a text, and the incomplete rest; `cur` is the beginning of the first line. -/
def nlLines : Bytes → Bytes → List Bytes × Bytes
  | cur, [] => ([], cur)
  | cur, x :: xs =>
    if x = NL then ((cur ++ [NL]) :: (nlLines [] xs).1, (nlLines [] xs).2) else nlLines (cur ++ [x]) xs

theorem nlLines_append (cur t : Bytes) : (nlLines cur t).1.flatten ++ (nlLines cur t).2 = cur ++ t := by
  induction t generalizing cur with
  | nil => simp [nlLines]
  | cons x t ih =>
    unfold nlLines
    by_cases hx : x = NL
    · rw [if_pos hx]
      simp only [List.flatten_cons, List.append_assoc, ih]
      simp [hx]
    · rw [if_neg hx, ih]
      simp

theorem nlLines_lines (cur t : Bytes) (hc : NL ∉ cur) :
    (∀ l ∈ (nlLines cur t).1, IsLine l) ∧ NL ∉ (nlLines cur t).2 := by
  induction t generalizing cur with
  | nil => simp [nlLines, hc]
  | cons x t ih =>
    unfold nlLines
    by_cases hx : x = NL
    · rw [if_pos hx]
      have := ih [] (by simp)
      refine ⟨fun l hl => ?_, this.2⟩
      rcases List.mem_cons.1 hl with rfl | hl
      · exact ⟨cur, rfl, hc⟩
      · exact this.1 l hl
    · rw [if_neg hx]
      apply ih
      simp only [List.mem_append, List.mem_singleton, not_or]
      exact ⟨hc, fun e => hx e.symm⟩

theorem line_prefix_unique {a b x y : Bytes} (ha : NL ∉ a) (hb : NL ∉ b) (h : a ++ NL :: x = b ++ NL :: y) :
    a = b ∧ x = y := by
  induction a generalizing b with
  | nil =>
    cases b with
    | nil => simpa using h
    | cons c b => simp at h; simp [← h.1] at hb
  | cons c a ih =>
    cases b with
    | nil => simp at h; simp [h.1] at ha
    | cons d b =>
      simp only [List.cons_append, List.cons.injEq] at h
      simp only [List.mem_cons, not_or] at ha hb
      obtain ⟨h1, h2⟩ := ih ha.2 hb.2 h.2
      exact ⟨by rw [h.1, h1], h2⟩

theorem lines_unique (ls ls' : List Bytes) (p p' : Bytes) (h1 : ∀ l ∈ ls, IsLine l) (h2 : ∀ l ∈ ls', IsLine l)
    (hp : NL ∉ p) (hp' : NL ∉ p') (h : ls.flatten ++ p = ls'.flatten ++ p') : ls = ls' ∧ p = p' := by
  induction ls generalizing ls' with
  | nil =>
    cases ls' with
    | nil => simpa using h
    | cons l ls' =>
      obtain ⟨b, rfl, _⟩ := h2 l (by simp)
      simp at h
      exact absurd (by rw [h]; simp) hp
  | cons l ls ih =>
    cases ls' with
    | nil =>
      obtain ⟨b, rfl, _⟩ := h1 l (by simp)
      simp at h
      exact absurd (by rw [← h]; simp) hp'
    | cons l' ls' =>
      obtain ⟨b, rfl, hb⟩ := h1 l (by simp)
      obtain ⟨b', rfl, hb'⟩ := h2 l' (by simp)
      simp only [List.flatten_cons, List.append_assoc, List.singleton_append] at h
      obtain ⟨e1, e2⟩ := line_prefix_unique hb hb' h
      obtain ⟨e3, e4⟩ := ih ls' (fun l hl => h1 l (by simp [hl])) (fun l hl => h2 l (by simp [hl])) e2
      exact ⟨by rw [e1, e3], e4⟩

theorem flatten_lines_last (ls : List Bytes) (h : ∀ l ∈ ls, IsLine l) (hne : ls ≠ []) : ls.flatten.getLast? = some NL := by
  rw [← List.dropLast_concat_getLast hne]
  obtain ⟨b, hb, _⟩ := h _ (List.getLast_mem hne)
  rw [hb]
  simp

theorem readLines_isLine (t : Bytes) : ∀ l ∈ readLines .plain NL t, IsLine l := by
  intro l hl
  obtain ⟨b, h1, h2⟩ := C09_each_line .plain NL t l hl
  exact ⟨b, h1, h2 (by decide)⟩

/-- Reading back lines that were written. -/
theorem readLines_flatten (ls : List Bytes) (h : ∀ l ∈ ls, IsLine l) : readLines .plain NL ls.flatten = ls := by
  have h1 := C09_lossless .plain NL ls.flatten
  have h2 : withFinalEol NL ls.flatten = ls.flatten := by
    cases ls with
    | nil => rfl
    | cons l ls => simp only [withFinalEol, flatten_lines_last _ h (by simp), or_true, if_true]
  rw [h2] at h1
  exact (lines_unique _ _ [] [] (readLines_isLine _) h (by simp) (by simp) (by simp [h1])).1

theorem readLines_append (ls : List Bytes) (h : ∀ l ∈ ls, IsLine l) (t : Bytes) :
    readLines .plain NL (ls.flatten ++ t) = ls ++ readLines .plain NL t := by
  refine (lines_unique _ _ [] [] (readLines_isLine _) (fun l hl => ?_) (by simp) (by simp) ?_).1
  · rcases List.mem_append.1 hl with hl | hl
    · exact h l hl
    · exact readLines_isLine t l hl
  · simp only [List.append_nil, List.flatten_append, C09_lossless]
    by_cases ht : t = []
    · subst ht
      simp only [List.append_nil]
      cases ls with
      | nil => rfl
      | cons l ls =>
        simp only [withFinalEol, flatten_lines_last _ h (by simp), or_true, if_true]
        simp
    · rw [withFinalEol_append NL _ _ ht]

/-! ## Items -/

/-- What the sort needs of its comparators: on the lines in question, comparing through keys is comparing by `cmp`. -/
structure ItemsAgree (toF64 : Bytes → F64) (cs : List LineComp) (cmp : Bytes → Bytes → Ordering) (L : Bytes → Prop) : Prop where
  comp : ∀ base l r, 8 < base.length → l.complete = false → r.complete = false → L (l.get base) → L (r.get base) →
    compItemsList toF64 cs base (fillCacheList toF64 cs l base) (fillCacheList toF64 cs r base)
      = cmp (l.get base) (r.get base)
  equal : ∀ base l r, 8 < base.length → l.complete = false → r.complete = false → L (l.get base) → L (r.get base) →
    equalItemsList toF64 cs base (fillCacheList toF64 cs l base) (fillCacheList toF64 cs r base)
      = (cmp (l.get base) (r.get base) == .eq)

/-- What the merge needs of its comparators. -/
structure MergeAgree (toF64 : Bytes → F64) (cs : List LineComp) (cmp : Bytes → Bytes → Ordering) (L : Bytes → Prop) : Prop where
  comp : ∀ l r, L l → L r → mergeComp toF64 cs l r = cmp l r
  equal : ∀ l r, L l → L r → mergeEqual toF64 cs l r = (cmp l r == .eq)

theorem fillCacheList_get (toF64 : Bytes → F64) (cs : List LineComp) (i : Item) (base : Bytes) :
    (fillCacheList toF64 cs i base).get base = i.get base := by
  cases cs with
  | nil => rfl
  | cons c cs => exact fillCacheLine_get toF64 c i base

theorem calcLoop_spec (toF64 : Bytes → F64) (cs : List LineComp) (base pre cur t stale : Bytes)
    (hb : base = pre ++ cur ++ t ++ stale) :
    ∃ raw : List Item, (calcLoop toF64 cs base pre.length (pre.length + cur.length) t).1
        = raw.map (fun i => fillCacheList toF64 cs i base) ∧
      (∀ i ∈ raw, i.complete = false) ∧ raw.map (·.get base) = (nlLines cur t).1 ∧
      (calcLoop toF64 cs base pre.length (pre.length + cur.length) t).2 = pre.length + (nlLines cur t).1.flatten.length := by
  induction t generalizing pre cur with
  | nil => exact ⟨[], by simp [calcLoop], by simp, by simp [nlLines], by simp [calcLoop, nlLines]⟩
  | cons x t ih =>
    unfold calcLoop nlLines
    by_cases hx : x = NL
    · rw [if_pos hx, if_pos hx]
      obtain ⟨raw, h1, h2, h3, h4⟩ := ih (pre ++ cur ++ [x]) [] (by simp [hb])
      simp only [List.length_append, List.length_singleton, List.length_nil, Nat.add_zero] at h1 h4
      refine ⟨⟨pre.length, cur.length + 1, false, 0⟩ :: raw, ?_, ?_, ?_, ?_⟩
      · simp only [List.map_cons, List.cons.injEq]
        refine ⟨?_, h1⟩
        congr 2
        omega
      · intro i hi
        rcases List.mem_cons.1 hi with rfl | hi
        · rfl
        · exact h2 i hi
      · simp only [List.map_cons, List.cons.injEq]
        refine ⟨?_, h3⟩
        simp only [Item.get, hb, List.append_assoc, List.drop_left]
        rw [hx]
        have : cur ++ (NL :: t ++ stale) = (cur ++ [NL]) ++ (t ++ stale) := by simp
        rw [this, List.take_append_of_le_length (by simp), List.take_of_length_le (by simp)]
      · rw [h4]
        simp only [List.flatten_cons, List.length_append, List.length_singleton]
        omega
    · rw [if_neg hx, if_neg hx]
      have := ih pre (cur ++ [x]) (by simp [hb])
      simp only [List.length_append, List.length_singleton, ← Nat.add_assoc] at this
      exact this

/-- A block of lines sorted. -/
def sortBlock (cmp : Bytes → Bytes → Ordering) (unique : Bool) (b : List Bytes) : List Bytes :=
  if unique then uniq (fun x y => cmp x y == .eq) (stableSort (leOf cmp) b) else stableSort (leOf cmp) b

theorem dedupBy_map (base : Bytes) (eqi : Item → Item → Bool) (cmp : Bytes → Bytes → Ordering) (hc : TotalPreorder cmp)
    (l : List Item) (h : ∀ a ∈ l, ∀ b ∈ l, eqi a b = (cmp (a.get base) (b.get base) == .eq)) :
    (dedupBy eqi l).map (·.get base) = uniq (fun x y => cmp x y == .eq) (l.map (·.get base)) := by
  have key : ∀ (x : Item) (l : List Item), (∀ a ∈ x :: l, ∀ b ∈ x :: l, eqi a b = (cmp (a.get base) (b.get base) == .eq)) →
      (dedupLoop eqi x l).map (·.get base) = keepNew (fun x y => cmp x y == .eq) (x.get base) (l.map (·.get base)) := by
    intro x l
    induction l generalizing x with
    | nil => intro _; rfl
    | cons y l ih =>
      intro h
      unfold dedupLoop
      simp only [List.map_cons, keepNew]
      have e : eqi y x = (cmp (x.get base) (y.get base) == .eq) := by
        rw [h y (by simp) x (by simp), hc.swap (x.get base) (y.get base)]
        cases cmp (x.get base) (y.get base) <;> rfl
      rw [e]
      split
      · apply ih
        intro a ha b hb
        apply h
        · rcases List.mem_cons.1 ha with rfl | ha <;> simp [*]
        · rcases List.mem_cons.1 hb with rfl | hb <;> simp [*]
      · simp only [List.map_cons, List.cons.injEq, true_and]
        apply ih
        intro a ha b hb
        exact h a (List.mem_cons_of_mem _ ha) b (List.mem_cons_of_mem _ hb)
  cases l with
  | nil => rfl
  | cons x l =>
    simp only [dedupBy, uniq, List.map_cons]
    rw [key x l h]

theorem doSort_lines {toF64 : Bytes → F64} {cs : List LineComp} {cmp : Bytes → Bytes → Ordering} {L : Bytes → Prop}
    (hc : TotalPreorder cmp) (hag : ItemsAgree toF64 cs cmp L) (unique : Bool) (base : Bytes) (hb : 8 < base.length)
    (raw : List Item) (hraw : ∀ i ∈ raw, i.complete = false) (hL : ∀ i ∈ raw, L (i.get base)) :
    (doSort toF64 cs unique base (raw.map fun i => fillCacheList toF64 cs i base)).map (·.get base)
      = sortBlock cmp unique (raw.map (·.get base)) := by
  have hget : (raw.map fun i => fillCacheList toF64 cs i base).map (·.get base) = raw.map (·.get base) := by
    simp [fillCacheList_get]
  have hsort : (stableSort (fun a b => decide (compItemsList toF64 cs base a b ≠ .gt))
        (raw.map fun i => fillCacheList toF64 cs i base)).map (·.get base)
        = stableSort (leOf cmp) (raw.map (·.get base)) := by
    rw [← hget]
    apply stableSort_map
    intro a ha b hb'
    obtain ⟨i, hi, rfl⟩ := List.mem_map.1 ha
    obtain ⟨j, hj, rfl⟩ := List.mem_map.1 hb'
    rw [hag.comp base i j hb (hraw i hi) (hraw j hj) (hL i hi) (hL j hj), fillCacheList_get, fillCacheList_get]
  unfold doSort sortBlock
  cases unique with
  | false => simpa using hsort
  | true =>
    simp only [if_true]
    rw [dedupBy_map base _ cmp hc, hsort]
    intro a ha b hb'
    rw [mem_stableSort] at ha hb'
    obtain ⟨i, hi, rfl⟩ := List.mem_map.1 ha
    obtain ⟨j, hj, rfl⟩ := List.mem_map.1 hb'
    rw [hag.equal base i j hb (hraw i hi) (hraw j hj) (hL i hi) (hL j hj), fillCacheList_get, fillCacheList_get]

theorem calc_text {toF64 : Bytes → F64} {cs : List LineComp} {cmp : Bytes → Bytes → Ordering} {L : Bytes → Prop}
    (hc : TotalPreorder cmp) (hag : ItemsAgree toF64 cs cmp L) (unique : Bool) (buf stale : Bytes)
    (hb : 8 < (buf ++ stale).length) (hL : ∀ l ∈ (nlLines [] buf).1, L l) :
    itemsText (buf ++ stale) (doSort toF64 cs unique (buf ++ stale) (calcLoop toF64 cs (buf ++ stale) 0 0 buf).1)
      = (sortBlock cmp unique (nlLines [] buf).1).flatten ∧
    (calcLoop toF64 cs (buf ++ stale) 0 0 buf).2 = (nlLines [] buf).1.flatten.length := by
  obtain ⟨raw, h1, h2, h3, h4⟩ := calcLoop_spec toF64 cs (buf ++ stale) [] [] buf stale rfl
  simp only [List.length_nil, Nat.add_zero, Nat.zero_add] at h1 h4
  refine ⟨?_, h4⟩
  unfold itemsText
  rw [h1, doSort_lines hc hag unique _ hb raw h2, h3]
  intro i hi
  apply hL
  rw [← h3]
  exact List.mem_map.2 ⟨i, hi, rfl⟩

/-! ## Reading a file into the buffer -/

/-- Relation between the state before and after some input `t` was added: `new` are the blocks spilled meanwhile. -/
structure Added (cmp : Bytes → Bytes → Ordering) (unique : Bool) (cap : Nat) (s s' : Sorter) (t : Bytes)
    (new : List (List Bytes)) : Prop where
  cs : s'.cs = s.cs
  out : s'.out = s.out
  checker : s'.checker = s.checker
  room : s'.buf.length + s'.stale.length ≤ cap
  wide : min 16384 cap ≤ s'.buf.length + s'.stale.length
  lines : ∀ b ∈ new, ∀ l ∈ b, IsLine l
  tmp : s'.tmp = s.tmp ++ new.map fun b => (sortBlock cmp unique b).flatten
  text : new.flatten.flatten ++ s'.buf = withFinalEol NL (s.buf ++ t)
  nospill : (s.buf ++ t).length < cap → new = []

theorem prepare_spec (cap n : Nat) (s : Sorter) (h : s.buf.length + s.stale.length ≤ cap) :
    (s.prepare cap n).1.buf = s.buf ∧ (s.prepare cap n).1.cs = s.cs ∧ (s.prepare cap n).1.out = s.out ∧
    (s.prepare cap n).1.checker = s.checker ∧ (s.prepare cap n).1.tmp = s.tmp ∧
    s.buf.length + (s.prepare cap n).1.stale.length ≤ cap ∧
    min (s.buf.length + n) cap ≤ s.buf.length + (s.prepare cap n).1.stale.length ∧
    (s.prepare cap n).2 ≤ n ∧ (s.prepare cap n).2 ≤ (s.prepare cap n).1.stale.length ∧
    ((s.prepare cap n).2 = 0 ↔ n = 0 ∨ s.buf.length = cap) ∧
    ((s.prepare cap n).2 = n ↔ s.buf.length + n ≤ cap) := by
  simp only [Sorter.prepare, List.length_append, List.length_replicate]
  refine ⟨trivial, trivial, trivial, trivial, trivial, ?_, ?_, ?_, ?_, ?_, ?_⟩ <;> omega

theorem addLoop_added {toF64 : Bytes → F64} {cmp : Bytes → Bytes → Ordering} {L : Bytes → Prop}
    (hc : TotalPreorder cmp) (unique : Bool) (cap : Nat) (hcap : 8 < cap) (rd : Nat → Nat)
    (fuel i : Nat) (s : Sorter) (hag : ItemsAgree toF64 s.cs cmp L) (file : Bytes) (s' : Sorter)
    (hroom : s.buf.length + s.stale.length ≤ cap) (hL : ∀ l ∈ readLines .plain NL (s.buf ++ file), L l)
    (hok : Sorter.addLoop toF64 cap unique rd fuel i s file = .ok s') :
    ∃ new, Added cmp unique cap s s' file new := by
  induction fuel generalizing i s file with
  | zero => simp [Sorter.addLoop] at hok
  | succ fuel ih =>
    unfold Sorter.addLoop at hok
    obtain ⟨p1, p2, p3, p4, p5, p6, p7, p8, p9, p10, p11⟩ := prepare_spec cap (16 * 1024) s hroom
    generalize s.prepare cap (16 * 1024) = p at *
    obtain ⟨q, sz⟩ := p
    simp only at hok p1 p2 p3 p4 p5 p6 p7 p8 p9 p10 p11
    by_cases hsz : sz = 0
    · simp [hsz] at hok
    · rw [if_neg hsz] at hok
      by_cases hfile : file = []
      · subst hfile
        rw [if_pos rfl, p1] at hok
        have e : withFinalEol NL (s.buf ++ []) = if s.buf ≠ [] ∧ s.buf.getLast? ≠ some NL then s.buf ++ [NL] else s.buf := by
          unfold withFinalEol
          simp only [List.append_nil]
          by_cases h1 : s.buf = []
          · simp [h1]
          · by_cases h2 : s.buf.getLast? = some NL
            · simp [h2]
            · simp [h1, h2]
        by_cases hnl : s.buf ≠ [] ∧ s.buf.getLast? ≠ some NL
        · rw [if_pos hnl] at hok e
          have hok := Res.ok.inj hok
          subst hok
          refine ⟨[], ⟨p2, p3, p4, ?_, ?_, by simp, by simp [p5], ?_, by simp⟩⟩
          · simp only [List.length_append, List.length_singleton, List.length_drop]
            omega
          · simp only [List.length_append, List.length_singleton, List.length_drop]
            omega
          · rw [e]
            rfl
        · rw [if_neg hnl] at hok e
          have hok := Res.ok.inj hok
          subst hok
          refine ⟨[], ⟨p2, p3, p4, by rw [p1]; exact p6, by rw [p1]; omega, by simp, by simp [p5], ?_, by simp⟩⟩
          rw [e, p1]
          rfl
      · rw [if_neg hfile] at hok
        have hk1 : 1 ≤ max 1 (min (rd i) (min sz file.length)) := by omega
        have hfl : 0 < file.length := List.length_pos_iff.2 hfile
        have hk2 : max 1 (min (rd i) (min sz file.length)) ≤ sz := by omega
        have hk3 : max 1 (min (rd i) (min sz file.length)) ≤ file.length := by omega
        generalize max 1 (min (rd i) (min sz file.length)) = k at *
        rw [p1] at hok
        have hsplit : s.buf ++ file = (s.buf ++ file.take k) ++ file.drop k := by simp
        have hlk : (file.take k).length = k := by simp; omega
        by_cases hfull : (s.buf ++ file.take k).length ≥ cap
        · rw [if_pos hfull] at hok
          have hst : q.stale.drop k = [] := by
            rw [List.drop_eq_nil_iff]
            simp only [List.length_append, hlk] at hfull
            omega
          have hbl : (s.buf ++ file.take k).length = cap := by
            simp only [List.length_append, hlk] at hfull ⊢
            omega
          have hlines := nlLines_lines [] (s.buf ++ file.take k) (by simp)
          have happ := nlLines_append [] (s.buf ++ file.take k)
          simp only [List.nil_append] at happ
          have hrl : readLines .plain NL (s.buf ++ file) = (nlLines [] (s.buf ++ file.take k)).1 ++
              readLines .plain NL ((nlLines [] (s.buf ++ file.take k)).2 ++ file.drop k) := by
            rw [hsplit, ← happ, List.append_assoc, readLines_append _ hlines.1, happ]
          have hct := calc_text hc hag unique (s.buf ++ file.take k) [] (by simp only [List.append_nil]; omega)
            (fun l hl => hL l (by rw [hrl]; simp [hl]))
          simp only [List.append_nil] at hct
          generalize hls : (nlLines [] (s.buf ++ file.take k)).1 = ls at *
          generalize hlp : (nlLines [] (s.buf ++ file.take k)).2 = lp at *
          have hdrop : (s.buf ++ file.take k).drop ls.flatten.length = lp := by
            rw [← happ, List.drop_left]
          have hplen : ls.flatten.length + lp.length = cap := by
            rw [← hbl, ← happ, List.length_append]
          simp only [Sorter.spill, Sorter.calc, hst, List.append_nil, p2, hct, hdrop, p5] at hok
          rw [hbl] at hok
          obtain ⟨new, hnew⟩ := ih (i + 1)
            { cs := s.cs, checker := q.checker, buf := lp, stale := (s.buf ++ file.take k).drop (cap - ls.flatten.length),
              tmp := s.tmp ++ [(sortBlock cmp unique ls).flatten], out := q.out } hag (file.drop k) (by
            simp only [List.length_drop, hbl]
            omega) (fun l hl => hL l (by rw [hrl]; exact List.mem_append_right _ hl)) hok
          refine ⟨ls :: new, ⟨hnew.cs, hnew.out.trans p3, hnew.checker.trans p4, hnew.room, hnew.wide, ?_, ?_, ?_, ?_⟩⟩
          · intro b hb
            rcases List.mem_cons.1 hb with rfl | hb
            · exact hlines.1
            · exact hnew.lines b hb
          · rw [hnew.tmp]
            simp
          · simp only [List.flatten_cons, List.flatten_append, List.append_assoc, hnew.text]
            rw [hsplit, ← happ, List.append_assoc]
            by_cases hr : lp ++ file.drop k = []
            · rw [hr]
              have : ls ≠ [] := by
                rintro rfl
                simp only [List.append_eq_nil_iff] at hr
                rw [hr.1] at hplen
                simp at hplen
                omega
              simp only [withFinalEol, List.append_nil, flatten_lines_last ls hlines.1 this, or_true, if_true]
              simp
            · rw [withFinalEol_append NL _ _ hr]
          · intro h
            simp only [List.length_append, hlk] at h hfull
            omega
        · rw [if_neg hfull] at hok
          simp only [List.length_append, hlk] at hfull
          obtain ⟨new, hnew⟩ := ih (i + 1) { q with buf := s.buf ++ file.take k, stale := q.stale.drop k }
            (by simpa only [p2] using hag) (file.drop k) (by
            simp only [List.length_append, hlk, List.length_drop]
            omega) (by simpa only [← hsplit] using hL) hok
          refine ⟨new, ⟨hnew.cs.trans p2, hnew.out.trans p3, hnew.checker.trans p4, hnew.room, hnew.wide, hnew.lines, ?_, ?_, ?_⟩⟩
          · rw [hnew.tmp, p5]
          · rw [hnew.text, hsplit]
          · intro h
            apply hnew.nospill
            rw [← hsplit]
            exact h

end Cdx
