import Verif.Lemmas.SortList
import Verif.Props.CompNum

/-!
Comparisons that are orderings on the values that occur.
-/

namespace Cdx

variable {α β : Type}

theorem TotalPreorder.on {cmp : α → α → Ordering} (h : TotalPreorder cmp) (S : α → Prop) : PreorderOn S cmp :=
  ⟨fun a _ => h.refl a, fun a b _ _ => h.swap a b, fun a b c _ _ _ => h.trans a b c⟩

theorem PreorderOn.mono {S T : α → Prop} {cmp : α → α → Ordering} (h : PreorderOn S cmp) (hs : ∀ a, T a → S a) :
    PreorderOn T cmp :=
  ⟨fun a ha => h.refl a (hs a ha), fun a b ha hb => h.swap a b (hs a ha) (hs b hb),
    fun a b c ha hb hc => h.trans a b c (hs a ha) (hs b hb) (hs c hc)⟩

theorem PreorderOn.congr {S : α → Prop} {cmp cmp' : α → α → Ordering} (h : PreorderOn S cmp)
    (he : ∀ a b, S a → S b → cmp' a b = cmp a b) : PreorderOn S cmp' := by
  refine ⟨fun a ha => by rw [he a a ha ha, h.refl a ha], fun a b ha hb => ?_, fun a b c ha hb hc => ?_⟩
  · rw [he a b ha hb, he b a hb ha, h.swap a b ha hb]
  · rw [he a b ha hb, he b c hb hc, he a c ha hc]
    exact h.trans a b c ha hb hc

theorem PreorderOn.comap {S : β → Prop} {cmp : β → β → Ordering} (h : PreorderOn S cmp) (f : α → β) :
    PreorderOn (fun a => S (f a)) fun a b => cmp (f a) (f b) :=
  ⟨fun a => h.refl _, fun a b => h.swap _ _, fun a b c => h.trans _ _ _⟩

theorem PreorderOn.subtype {S : α → Prop} {cmp : α → α → Ordering} (h : PreorderOn S cmp) :
    TotalPreorder fun a b : { x // S x } => cmp a.1 b.1 :=
  ⟨fun a => h.refl _ a.2, fun a b => h.swap _ _ a.2 b.2, fun a b c => h.trans _ _ _ a.2 b.2 c.2⟩

theorem PreorderOn.ofSubtype {S : α → Prop} {cmp : α → α → Ordering}
    (h : TotalPreorder fun a b : { x // S x } => cmp a.1 b.1) : PreorderOn S cmp :=
  ⟨fun a ha => h.refl ⟨a, ha⟩, fun a b ha hb => h.swap ⟨a, ha⟩ ⟨b, hb⟩,
    fun a b c ha hb hc => h.trans ⟨a, ha⟩ ⟨b, hb⟩ ⟨c, hc⟩⟩

theorem PreorderOn.rev {S : α → Prop} {cmp : α → α → Ordering} (h : PreorderOn S cmp) (r : Bool) :
    PreorderOn S fun a b => rev r (cmp a b) :=
  PreorderOn.ofSubtype (rev_preorder h.subtype r)

theorem PreorderOn.then {S : α → Prop} {c1 c2 : α → α → Ordering} (h1 : PreorderOn S c1) (h2 : PreorderOn S c2) :
    PreorderOn S fun a b => (c1 a b).then (c2 a b) :=
  PreorderOn.ofSubtype (h1.subtype.then h2.subtype)

/-- There is an ordering of everything that agrees with it. -/
theorem PreorderOn.extend {S : α → Prop} {cmp : α → α → Ordering} (h : PreorderOn S cmp) :
    ∃ cmp' : α → α → Ordering, TotalPreorder cmp' ∧ ∀ a b, S a → S b → cmp' a b = cmp a b := by
  classical
  by_cases hs : ∃ s, S s
  · obtain ⟨s, hs⟩ := hs
    let r : α → { x // S x } := fun a => if h : S a then ⟨a, h⟩ else ⟨s, hs⟩
    refine ⟨fun a b => cmp (r a).1 (r b).1, h.subtype.comap r, ?_⟩
    intro a b ha hb
    simp [r, ha, hb]
  · exact ⟨fun _ _ => .eq, ⟨fun _ => rfl, fun _ _ => rfl, fun _ _ _ _ h => h⟩, fun a _ ha => absurd ⟨a, ha⟩ hs⟩

/-- Keys on which a comparison method is an ordering: for `numeric`, whole numbers without a negative zero; for `float`,
anything but NaN; for the others, everything. -/
def KeyOk (toF64 : Bytes → F64) (k : CompKind) (v : Bytes) : Prop :=
  (k = .numeric → ∃ t : IntText, t.WF ∧ (t.neg = true → t.value ≠ 0) ∧ v = t.text) ∧
  (k = .float → (toF64 v).isNaN = false)

theorem compK_on (toF64 : Bytes → F64) (k : CompKind) : PreorderOn (KeyOk toF64 k) (compK toF64 k) := by
  by_cases hk : k = .numeric
  · subst hk
    have key : ∀ a b : IntText, a.WF → b.WF → (a.neg = true → a.value ≠ 0) → (b.neg = true → b.value ≠ 0) →
        compK toF64 .numeric a.text b.text = compare a.value b.value := by
      intro a b ha hb na nb
      refine C23_integers_partial a b ha hb ?_
      rintro ⟨h1, h2, h3⟩
      cases h4 : a.neg <;> cases h5 : b.neg <;> simp_all
    refine ⟨?_, ?_, ?_⟩
    · intro a ha
      obtain ⟨t, ht, hn, rfl⟩ := ha.1 rfl
      rw [key t t ht ht hn hn]
      exact preorder_int.refl _
    · intro a b ha hb
      obtain ⟨t, ht, hn, rfl⟩ := ha.1 rfl
      obtain ⟨u, hu, hm, rfl⟩ := hb.1 rfl
      rw [key t u ht hu hn hm, key u t hu ht hm hn]
      exact preorder_int.swap _ _
    · intro a b c ha hb hc
      obtain ⟨t, ht, hn, rfl⟩ := ha.1 rfl
      obtain ⟨u, hu, hm, rfl⟩ := hb.1 rfl
      obtain ⟨v, hv, hk, rfl⟩ := hc.1 rfl
      rw [key t u ht hu hn hm, key u v hu hv hm hk, key t v ht hv hn hk]
      exact preorder_int.trans _ _ _
  · by_cases hf : k = .float
    · subst hf
      have := (preorder_int.comap fun x : Bytes => (toF64 x).scaled).on (KeyOk toF64 .float)
      refine this.congr ?_
      intro a b ha hb
      exact fcmp_eq (ha.2 rfl) (hb.2 rfl)
    · exact (C22_preorder_partial toF64 k false hk (fun e => absurd e hf)).on _

end Cdx
