import Verif.Model.Basic

/-!
Specifications for text functions, independent of the model.
-/

namespace Cdx

/-- The language of a glob pattern: `star` stands for any sequence, any other pattern character for one
character it is equivalent to. -/
inductive GlobMatch {α : Type} (ce : α → α → Bool) (star : α) : List α → List α → Prop
  | nil : GlobMatch ce star [] []
  | starSkip (ps ts : List α) : GlobMatch ce star ps ts → GlobMatch ce star (star :: ps) ts
  | starEat (ps : List α) (t : α) (ts : List α) :
      GlobMatch ce star (star :: ps) ts → GlobMatch ce star (star :: ps) (t :: ts)
  | char (p : α) (ps : List α) (t : α) (ts : List α) :
      p ≠ star → ce p t = true → GlobMatch ce star ps ts → GlobMatch ce star (p :: ps) (t :: ts)

/-- Decimal value of a digit string, most significant digit first. -/
def decVal : Bytes → Nat
  | [] => 0
  | d :: ds => (d.toNat - 48) * 10 ^ ds.length + decVal ds

end Cdx
