import Verif.Spec.Words
import Verif.Model.Thresh
import Verif.Props.MatchSpec
import Verif.Props.AggMake
import Verif.Props.FloatThresh
import Verif.Props.CompMake

/-!
C189: column sets with thresholds. C190: the words of formulas, determiners and formats.
-/

namespace Cdx

/-! ## C190: words -/

theorem find_words {α : Type} (tab : List (Bytes × α)) (hn : (tab.map (·.1)).Nodup) (x : Bytes) (a : α) :
    (tab.find? fun f => f.1 == x).map (·.2) = some a ↔ (x, a) ∈ tab := by
  induction tab with
  | nil => simp
  | cons y ys ih =>
    simp only [List.map_cons, List.nodup_cons] at hn
    rw [List.find?_cons]
    by_cases h : y.1 = x
    · subst h
      simp only [beq_self_eq_true, Option.map_some, Option.some.injEq, List.mem_cons]
      constructor
      · rintro rfl; exact .inl rfl
      · rintro (e | e)
        · rw [← e]
        · exact absurd (List.mem_map_of_mem (f := (·.1)) e) hn.1
    · rw [show (y.1 == x) = false from beq_eq_false_iff_ne.2 h]
      simp only [List.mem_cons]
      rw [ih hn.2]
      constructor
      · exact .inr
      · rintro (e | e)
        · exact absurd (by rw [← e]) h
        · exact e

theorem funcTable_words : funcTable = funcWords.map fun w => (ascii w.1, w.2.1) := by decide +kernel

theorem funcTable_nodup : (funcTable.map (·.1)).Nodup := by decide +kernel

/-- A text is the name of a function exactly if it is one of the words, and then it is that function. -/
theorem C190_functions (x : Bytes) (f : FuncOp) : findFunc x = some f ↔ ∃ w ∈ funcWords, x = ascii w.1 ∧ f = w.2.1 := by
  unfold findFunc
  rw [find_words _ funcTable_nodup, funcTable_words, List.mem_map]
  constructor
  · rintro ⟨w, h, e⟩
    injection e with e1 e2
    exact ⟨w, h, e1.symm, e2.symm⟩
  · rintro ⟨w, h, rfl, rfl⟩
    exact ⟨w, h, rfl⟩

/-- Every function is called with as many arguments as its word says, and with no other number. -/
theorem C190_arity {F : Type} (ops : FloatOps F) (w : String × FuncOp × Option Nat) (hw : w ∈ funcWords) (args : List F) (h : args ≠ []) :
    (callVal ops (ascii w.1) args = .err ↔ ∃ n, w.2.2 = some n ∧ args.length ≠ n) ∧ callVal ops (ascii w.1) args ≠ .panic := by
  have hf := (C190_functions (ascii w.1) w.2.1).2 ⟨w, hw, rfl, rfl⟩
  have ha : minArgs w.2.1 = w.2.2.getD 1 ∧ maxArgs w.2.1 = w.2.2.getD 0 ∧ w.2.2 ≠ some 0 := by
    revert w
    decide +kernel
  have hlen : 0 < args.length := List.length_pos_iff.2 h
  unfold callVal
  rw [hf]
  dsimp only
  have hok : arityOk w.2.1 args.length ↔ ∀ n, w.2.2 = some n → args.length = n := by
    unfold arityOk
    rw [ha.1, ha.2.1]
    cases hs : w.2.2 with
    | none => simp; omega
    | some n =>
      have : n ≠ 0 := fun e => ha.2.2 (by rw [hs, e])
      simp only [Option.getD_some, Option.some.injEq, forall_eq']
      omega
  by_cases hc : arityOk w.2.1 args.length
  · rw [if_pos hc]
    obtain ⟨v, hv⟩ := applyFunc_ok ops w.2.1 args hc.1
    rw [hv]
    refine ⟨⟨fun e => absurd e (by simp), ?_⟩, by simp⟩
    rintro ⟨n, h1, h2⟩
    exact absurd (hok.1 hc n h1) h2
  · rw [if_neg hc]
    refine ⟨⟨fun _ => ?_, fun _ => rfl⟩, by simp⟩
    rw [hok] at hc
    cases hs : w.2.2 with
    | none => rw [hs] at hc; exact absurd (fun n h => by simp at h) hc
    | some n => exact ⟨n, rfl, fun e => hc (fun m hm => by rw [hs] at hm; injection hm with hm; rw [e, hm])⟩

example : callVal natOps (ascii "pow") [2, 3] ≠ .err ∧ callVal natOps (ascii "pow") [2] = .err := by decide +kernel

/-- A name in a formula is a constant exactly if it is one of the words. -/
theorem C190_constants {F : Type} (ops : FloatOps F) (x : Bytes) :
    findConst ops x = if x ∈ constWords.map ascii then some (ops.const x) else none := by
  unfold findConst
  rw [show constNames = constWords.map ascii by decide +kernel, List.contains_eq_mem]
  by_cases h : x ∈ constWords.map ascii
  · rw [if_pos h, if_pos (decide_eq_true h)]
  · rw [if_neg h, if_neg (by simpa using h)]

/-! ### Words without regard to case -/

theorem if_chain {α : Type} (x : Bytes) (tab : List (Bytes × α)) (hl : ∀ w ∈ tab, lower w.1 = w.1) (hn : (tab.map (·.1)).Nodup) (a : α) :
    ((tab.find? fun w => eqIgnoreCase x w.1).map (·.2)) = some a ↔ (lower x, a) ∈ tab := by
  rw [← find_words tab hn]
  suffices (tab.find? fun w => eqIgnoreCase x w.1) = tab.find? fun f => f.1 == lower x by rw [this]
  clear hn
  induction tab with
  | nil => rfl
  | cons y ys ih =>
    have e : eqIgnoreCase x y.1 = (y.1 == lower x) := by
      rw [eqIgnore_lower _ _ (hl y (by simp))]
      exact Bool.beq_comm
    rw [List.find?_cons, List.find?_cons, e, ih fun w hw => hl w (by simp [hw])]

theorem detNew_find (s : Bytes) : Determiner.new s =
    match (detWords.map fun w => (ascii w.1, w.2)).find? fun w => eqIgnoreCase s w.1 with
    | some w => .ok w.2
    | none => .err := by
  simp only [Determiner.new, detWords, List.map_cons, List.map_nil, List.find?_cons, List.find?_nil]
  generalize eqIgnoreCase s (ascii "all") = a1
  generalize eqIgnoreCase s (ascii "some") = a2
  generalize eqIgnoreCase s (ascii "none") = a3
  generalize eqIgnoreCase s (ascii "notall") = a4
  generalize eqIgnoreCase s (ascii "mixed") = a5
  generalize eqIgnoreCase s (ascii "uniform") = a6
  cases a1 <;> cases a2 <;> cases a3 <;> cases a4 <;> cases a5 <;> cases a6 <;> rfl

/-- A text is a determiner exactly if it is one of the words, small or capital; any other text is an error. -/
theorem C190_determiners (s : Bytes) :
    (∀ d, Determiner.new s = .ok d ↔ ∃ w ∈ detWords, lower s = ascii w.1 ∧ d = w.2) ∧ Determiner.new s ≠ .panic := by
  have h1 := if_chain s (detWords.map fun w => (ascii w.1, w.2)) (by decide +kernel) (by decide +kernel)
  rw [detNew_find]
  generalize hg : List.find? (fun w => eqIgnoreCase s w.1) (detWords.map fun w => (ascii w.1, w.2)) = g at *
  cases g with
  | none =>
    refine ⟨fun d => ⟨fun h => by simp at h, fun ⟨w, hw, e1, e2⟩ => ?_⟩, by simp⟩
    have := (h1 d).2 (by rw [e1, e2]; exact List.mem_map_of_mem (f := fun w => (ascii w.1, w.2)) hw)
    simp at this
  | some g =>
    refine ⟨fun d => ?_, by simp⟩
    have h2 := h1 d
    simp only [Option.map_some, Option.some.injEq] at h2
    simp only [Res.ok.injEq]
    rw [h2, List.mem_map]
    constructor
    · rintro ⟨w, hw, e⟩
      injection e with e1 e2
      exact ⟨w, hw, e1.symm, e2.symm⟩
    · rintro ⟨w, hw, e1, e2⟩
      exact ⟨w, hw, by rw [e1, e2]⟩

example : Determiner.new (ascii "NotAll") = .ok .notAll ∧ Determiner.new (ascii "any") = .err := by decide +kernel

theorem formatParse_find (s : Bytes) : NumFormat.parse s =
    match (formatWords.map fun w => (ascii w.1, w.2)).find? fun w => eqIgnoreCase s w.1 with
    | some w => .ok w.2
    | none => match splitOnce 46 s with
      | some (a, b) => (toUsizeWhole b).bind fun p =>
        match (precWords.map fun w => (ascii w.1, w.2)).find? fun w => eqIgnoreCase a w.1 with
        | some w => .ok (w.2 p)
        | none => .err
      | none => .err := by
  have hin : ∀ (a : Bytes) (p : Nat), (if eqIgnoreCase a (ascii "plain") then Res.ok (NumFormat.plain (some p))
        else if eqIgnoreCase a (ascii "short") then .ok (.short (some p))
        else if eqIgnoreCase a (ascii "float") then .ok (.float (some p))
        else .err) = match (precWords.map fun w => (ascii w.1, w.2)).find? fun w => eqIgnoreCase a w.1 with
        | some w => .ok (w.2 p)
        | none => .err := by
    intro a p
    simp only [precWords, List.map_cons, List.map_nil, List.find?_cons, List.find?_nil]
    generalize eqIgnoreCase a (ascii "plain") = a1
    generalize eqIgnoreCase a (ascii "short") = a2
    generalize eqIgnoreCase a (ascii "float") = a3
    cases a1 <;> cases a2 <;> cases a3 <;> rfl
  unfold NumFormat.parse
  simp only [hin]
  simp only [formatWords, List.map_cons, List.map_nil, List.find?_cons, List.find?_nil]
  generalize eqIgnoreCase s (ascii "plain") = a1
  generalize eqIgnoreCase s (ascii "short") = a2
  generalize eqIgnoreCase s (ascii "float") = a3
  generalize eqIgnoreCase s (ascii "power2") = a4
  generalize eqIgnoreCase s (ascii "p2") = a5
  generalize eqIgnoreCase s (ascii "power10") = a6
  generalize eqIgnoreCase s (ascii "p10") = a7
  cases a1 <;> cases a2 <;> cases a3 <;> cases a4 <;> cases a5 <;> cases a6 <;> cases a7 <;> first | rfl | (cases splitOnce 46 s <;> rfl)

theorem find_words_none {α : Type} {x : Bytes} {tab : List (String × α)}
    (h : (tab.map fun w => (ascii w.1, w.2)).find? (fun w => eqIgnoreCase x w.1) = none) (hl : ∀ w ∈ tab, lower (ascii w.1) = ascii w.1) :
    ∀ w ∈ tab, lower x ≠ ascii w.1 := by
  intro w hw e
  have := (List.find?_eq_none.1 h) (ascii w.1, w.2) (List.mem_map_of_mem (f := fun w => (ascii w.1, w.2)) hw)
  rw [eqIgnore_lower _ _ (hl w hw)] at this
  simp [e] at this

theorem find_words_some {α : Type} {x : Bytes} {tab : List (String × α)} {g : Bytes × α}
    (h : (tab.map fun w => (ascii w.1, w.2)).find? (fun w => eqIgnoreCase x w.1) = some g) (hl : ∀ w ∈ tab, lower (ascii w.1) = ascii w.1) :
    ∃ w ∈ tab, lower x = ascii w.1 ∧ g.2 = w.2 := by
  obtain ⟨w, hw, e⟩ := List.mem_map.1 (List.mem_of_find?_eq_some h)
  have := List.find?_some h
  subst e
  rw [eqIgnore_lower _ _ (hl w hw)] at this
  exact ⟨w, hw, by simpa using this, rfl⟩

theorem words_unique {α : Type} {tab : List (String × α)} (hn : (tab.map fun w => ascii w.1).Nodup) {w v : String × α} (hw : w ∈ tab) (hv : v ∈ tab)
    (e : ascii w.1 = ascii v.1) : w = v := by
  induction tab with
  | nil => simp at hw
  | cons y ys ih =>
    simp only [List.map_cons, List.nodup_cons] at hn
    rcases List.mem_cons.1 hw with rfl | hw' <;> rcases List.mem_cons.1 hv with rfl | hv'
    · rfl
    · exact absurd (by rw [e]; exact List.mem_map_of_mem (f := fun w => ascii w.1) hv') hn.1
    · exact absurd (by rw [← e]; exact List.mem_map_of_mem (f := fun w => ascii w.1) hw') hn.1
    · exact ih hn.2 hw' hv'

/-- A text is a format of numbers exactly if it is one of the words, or one with a number for the precision after a point. -/
theorem C190_formats (s : Bytes) (f : NumFormat) :
    NumFormat.parse s = .ok f ↔ (∃ w ∈ formatWords, lower s = ascii w.1 ∧ f = w.2) ∨
      ∃ w ∈ precWords, ∃ a b n, s = a ++ 46 :: b ∧ lower a = ascii w.1 ∧ toUsizeWhole b = .ok n ∧ f = w.2 n := by
  have hl1 : ∀ w ∈ formatWords, lower (ascii w.1) = ascii w.1 := by decide +kernel
  have hl2 : ∀ w ∈ precWords, lower (ascii w.1) = ascii w.1 := by
    simp only [precWords, List.mem_cons, List.not_mem_nil, or_false, forall_eq_or_imp, forall_eq]
    decide +kernel
  have hpt : ∀ w ∈ formatWords, (46 : UInt8) ∉ ascii w.1 := by decide +kernel
  have hpt2 : ∀ w ∈ precWords, (46 : UInt8) ∉ ascii w.1 := by
    simp only [precWords, List.mem_cons, List.not_mem_nil, or_false, forall_eq_or_imp, forall_eq]
    decide +kernel
  have hlow : ∀ a : Bytes, (46 : UInt8) ∉ lower a → (46 : UInt8) ∉ a := by
    intro a h hm
    exact h (List.mem_map.2 ⟨46, hm, by decide⟩)
  rw [formatParse_find]
  cases h1 : (formatWords.map fun w => (ascii w.1, w.2)).find? fun w => eqIgnoreCase s w.1 with
  | some g =>
    obtain ⟨w, hw, e1, e2⟩ := find_words_some h1 hl1
    have hs : (46 : UInt8) ∉ s := hlow _ (e1 ▸ hpt w hw)
    simp only [Res.ok.injEq]
    constructor
    · rintro rfl; exact .inl ⟨w, hw, e1, e2⟩
    · rintro (⟨v, hv, e3, e4⟩ | ⟨_, _, a, b, _, e, _⟩)
      · rw [e2, e4, words_unique (by decide +kernel) hw hv (e1.symm.trans e3)]
      · exact absurd (by rw [e]; simp) hs
  | none =>
    have hno := find_words_none h1 hl1
    simp only
    cases h2 : splitOnce 46 s with
    | none =>
      refine ⟨fun h => by simp at h, ?_⟩
      rintro (⟨w, hw, e, _⟩ | ⟨w, hw, a, b, n, e, e2, _, _⟩)
      · exact absurd e (hno w hw)
      · rw [e, splitOnce_some _ _ _ (hlow _ (e2 ▸ hpt2 w hw))] at h2
        simp at h2
    | some ab =>
      obtain ⟨a, b⟩ := ab
      obtain ⟨e, hna⟩ := splitOnce_eq _ _ _ _ h2
      have hab : ∀ a' b', s = a' ++ 46 :: b' → (46 : UInt8) ∉ a' → a' = a ∧ b' = b := by
        intro a' b' he hn
        rw [he, splitOnce_some _ _ _ hn] at h2
        injection h2 with h2
        injection h2 with h3 h4
        exact ⟨h3, h4⟩
      simp only
      cases h3 : toUsizeWhole b with
      | err =>
        simp only [Res.bind_err]
        refine ⟨fun h => by simp at h, ?_⟩
        rintro (⟨w, hw, e, _⟩ | ⟨w, hw, a', b', n, e, e2, e3, _⟩)
        · exact absurd e (hno w hw)
        · rw [(hab a' b' e (hlow _ (e2 ▸ hpt2 w hw))).2, h3] at e3
          simp at e3
      | panic =>
        simp only [Res.bind_panic]
        refine ⟨fun h => by simp at h, ?_⟩
        rintro (⟨w, hw, e, _⟩ | ⟨w, hw, a', b', n, e, e2, e3, _⟩)
        · exact absurd e (hno w hw)
        · rw [(hab a' b' e (hlow _ (e2 ▸ hpt2 w hw))).2, h3] at e3
          simp at e3
      | ok n =>
        simp only [Res.bind_ok]
        cases h4 : (precWords.map fun w => (ascii w.1, w.2)).find? fun w => eqIgnoreCase a w.1 with
        | none =>
          have hno2 := find_words_none h4 hl2
          refine ⟨fun h => by simp at h, ?_⟩
          rintro (⟨w, hw, e, _⟩ | ⟨w, hw, a', b', n, e, e2, e3, _⟩)
          · exact absurd e (hno w hw)
          · rw [(hab a' b' e (hlow _ (e2 ▸ hpt2 w hw))).1] at e2
            exact absurd e2 (hno2 w hw)
        | some g =>
          obtain ⟨w, hw, e1, e2⟩ := find_words_some h4 hl2
          simp only [Res.ok.injEq]
          constructor
          · rintro rfl
            exact .inr ⟨w, hw, a, b, n, e, e1, h3, by rw [e2]⟩
          · rintro (⟨w, hw, e, _⟩ | ⟨v, hv, a', b', m, e3, e4, e5, e6⟩)
            · exact absurd e (hno w hw)
            · obtain ⟨q1, q2⟩ := hab a' b' e3 (hlow _ (e4 ▸ hpt2 v hv))
              rw [q1] at e4
              rw [q2, h3] at e5
              injection e5 with e5
              rw [e6, e2, words_unique (by decide +kernel) hw hv (e1.symm.trans e4), e5]

example : NumFormat.parse (ascii "Float.3") = .ok (.float (some 3)) ∧ NumFormat.parse (ascii "P2") = .ok .power2 ∧
    NumFormat.parse (ascii "p2.3") = .err := by decide +kernel

end Cdx
