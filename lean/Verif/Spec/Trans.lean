import Verif.Model.Column

/-! Specifications for transforms, independent of the model. -/

namespace Cdx

/-- `Laid sp ws xs`: `xs` is the words `ws`, starting with the first, with at least one blank between two of them and any
number of blanks after the last. -/
inductive Laid {α : Type} (sp : α → Bool) : List (List α) → List α → Prop
  | last (w s : List α) : w ≠ [] → (∀ x ∈ w, sp x = false) → (∀ x ∈ s, sp x = true) → Laid sp [w] (w ++ s)
  | cons (w s : List α) (ws : List (List α)) (xs : List α) : w ≠ [] → (∀ x ∈ w, sp x = false) → s ≠ [] →
      (∀ x ∈ s, sp x = true) → Laid sp ws xs → Laid sp (w :: ws) (w ++ s ++ xs)

/-- Words with one blank between any two. -/
def spaced {α : Type} (blank : α) : List (List α) → List α
  | [] => []
  | [w] => w
  | w :: ws => w ++ [blank] ++ spaced blank ws

/-- The first word cut in two after its first element, if there is anything after that. -/
def cutFirst {α : Type} : List (List α) → List (List α)
  | (x :: y :: w) :: ws => [x] :: (y :: w) :: ws
  | ws => ws

/-- One function after another, from left to right. -/
def pipeline {α : Type} : List (α → Res α) → α → Res α
  | [], a => .ok a
  | f :: fs, a => (f a).bind (pipeline fs)

end Cdx
