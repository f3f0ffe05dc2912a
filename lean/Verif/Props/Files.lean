import Verif.Model.Files
import Verif.Model.Match
import Verif.Props.TextLine

/-!
C61: a file after it was written. C104: what was written under a name is read under that name.
-/

namespace Cdx

theorem overwrite_append (old a b : Bytes) (pos : Nat) (h : pos ≤ old.length) :
    overwrite (overwrite old pos a) (pos + a.length) b = overwrite old pos (a ++ b) := by
  unfold overwrite
  have hl : (old.take pos).length = pos := by simp; omega
  have h1 : (old.take pos ++ a ++ old.drop (pos + a.length)).take (pos + a.length) = old.take pos ++ a := by
    rw [List.take_append_of_le_length (by simp; omega), List.take_of_length_le (by simp; omega)]
  have h2 : (old.take pos ++ a ++ old.drop (pos + a.length)).drop (pos + a.length + b.length) =
      old.drop (pos + (a ++ b).length) := by
    have : (old.take pos ++ a).length = pos + a.length := by simp; omega
    rw [List.drop_append, List.drop_of_length_le (by omega), List.nil_append, this, List.drop_drop]
    congr 1
    simp
    omega
  rw [h1, h2]
  simp

theorem overwrite_length (old a : Bytes) (pos : Nat) (h : pos ≤ old.length) : pos + a.length ≤ (overwrite old pos a).length := by
  unfold overwrite
  simp
  omega

theorem overwrite_nil (old : Bytes) (pos : Nat) : overwrite old pos [] = old := by simp [overwrite]

theorem writeAll_file (name : Bytes) (bs : List Bytes) : ∀ (s : Sys) (pos : Nat) (old : Bytes), s.files name = some old →
    pos ≤ old.length → (s.writeAll (.file name pos) bs).1 =
      { s with files := fun n => if n = name then some (overwrite old pos bs.flatten) else s.files n } := by
  induction bs with
  | nil =>
    intro s pos old h _
    rw [Sys.writeAll, List.flatten_nil, overwrite_nil]
    obtain ⟨f, a, b, c⟩ := s
    simp only [Sys.mk.injEq, and_self, and_true]
    funext n
    by_cases hn : n = name
    · simp only [hn, if_true]; exact h
    · simp [hn]
  | cons b bs ih =>
    intro s pos old h hp
    rw [Sys.writeAll]
    simp only [Sys.write]
    rw [ih _ (pos + b.length) (overwrite old pos b) (by simp [h]) (overwrite_length old b pos hp), overwrite_append old b _ pos hp]
    simp only [Sys.mk.injEq, and_self, and_true]
    funext n
    by_cases hn : n = name <;> simp [hn]

/-- Full statement: after output was written to a file, the file is that output. -/
def C61_statement : Prop :=
  ∀ (s : Sys) (name : Bytes) (bs : List Bytes), name ≠ ascii "-" → name ≠ ascii "--" →
    (putFile s name bs).files name = some bs.flatten

/-- What is really there, and that nothing else is changed, however the output is cut into pieces. -/
theorem C61_content (s : Sys) (name : Bytes) (bs : List Bytes) (h1 : name ≠ ascii "-") (h2 : name ≠ ascii "--") :
    (putFile s name bs).files name = some (bs.flatten ++ ((s.files name).getD []).drop bs.flatten.length) ∧
      (∀ n, n ≠ name → (putFile s name bs).files n = s.files n) ∧ (putFile s name bs).stdin = s.stdin ∧
      (putFile s name bs).stdout = s.stdout ∧ (putFile s name bs).stderr = s.stderr := by
  have e1 : ¬ name = [45] := h1
  have e2 : ¬ name = [45, 45] := h2
  unfold putFile getWriter
  simp only [e1, e2, if_false]
  rw [writeAll_file name bs _ 0 ((s.files name).getD []) (by simp) (by omega)]
  refine ⟨by simp [overwrite], ?_, rfl, rfl, rfl⟩
  intro n hn
  simp [hn]

/-- Holds if the file was not longer before. -/
theorem C61_file_partial (s : Sys) (name : Bytes) (bs : List Bytes) (h1 : name ≠ ascii "-") (h2 : name ≠ ascii "--")
    (h : ((s.files name).getD []).length ≤ bs.flatten.length) : (putFile s name bs).files name = some bs.flatten := by
  rw [(C61_content s name bs h1 h2).1, List.drop_of_length_le h, List.append_nil]

/-- It holds only then. -/
theorem C61_only_then (s : Sys) (name : Bytes) (bs : List Bytes) (h1 : name ≠ ascii "-") (h2 : name ≠ ascii "--") :
    (putFile s name bs).files name = some bs.flatten ↔ ((s.files name).getD []).length ≤ bs.flatten.length := by
  refine ⟨fun h => ?_, C61_file_partial s name bs h1 h2⟩
  rw [(C61_content s name bs h1 h2).1, Option.some.injEq] at h
  have := congrArg List.length h
  rw [List.length_append, List.length_drop] at this
  omega

/-- A longer file keeps its end. -/
theorem C61_refuted : ¬ C61_statement := by
  intro h
  have := h ⟨fun _ => some (ascii "old text"), [], [], []⟩ (ascii "f") [ascii "new"] (by decide) (by decide)
  rw [(C61_only_then _ _ _ (by decide) (by decide))] at this
  exact absurd this (by decide)

/-- The output of the standard streams. -/
theorem C61_streams (s : Sys) (bs : List Bytes) :
    putFile s (ascii "-") bs = { s with stdout := s.stdout ++ bs.flatten } ∧
      putFile s (ascii "--") bs = { s with stderr := s.stderr ++ bs.flatten } := by
  have h1 : ∀ (bs : List Bytes) (s : Sys), (s.writeAll .stdout bs).1 = { s with stdout := s.stdout ++ bs.flatten } := by
    intro bs
    induction bs with
    | nil => intro s; simp [Sys.writeAll]
    | cons b bs ih => intro s; rw [Sys.writeAll]; simp only [Sys.write]; rw [ih]; simp
  have h2 : ∀ (bs : List Bytes) (s : Sys), (s.writeAll .stderr bs).1 = { s with stderr := s.stderr ++ bs.flatten } := by
    intro bs
    induction bs with
    | nil => intro s; simp [Sys.writeAll]
    | cons b bs ih => intro s; rw [Sys.writeAll]; simp only [Sys.write]; rw [ih]; simp
  exact ⟨h1 bs s, h2 bs s⟩

example : (putFile ⟨fun _ => some (ascii "old text"), [], [], []⟩ (ascii "f") [ascii "n", ascii "ew"]).files (ascii "f") =
    some (ascii "new text") := by decide +kernel
example : (putFile ⟨fun _ => none, [], [], []⟩ (ascii "f") [ascii "n", ascii "ew"]).files (ascii "f") = some (ascii "new") := by
  decide +kernel

/-! ## Reading back -/

/-- Full statement: what was written under the name of a new file can be read under that name. -/
def C104_statement : Prop :=
  ∀ (s3 : Bytes → Option Bytes) (gunzip : Bytes → Bytes) (s : Sys) (name : Bytes) (bs : List Bytes),
    name ≠ ascii "-" → s.files name = none → getReader s3 gunzip (putFile s name bs) name = some bs.flatten

/-- The name is that of a file for reading and for writing. -/
def PlainName (name : Bytes) : Prop :=
  name ≠ ascii "-" ∧ name ≠ ascii "--" ∧ ¬ s3Tag <+: name ∧ ¬ ascii "<<" <+: name

theorem startsWith_iff (t p : Bytes) : startsWith t p = true ↔ p <+: t := by
  unfold startsWith
  rw [beq_iff_eq, List.prefix_iff_eq_take]
  exact eq_comm

/-- Holds for plain names, if the output does not begin like a compressed file. -/
theorem C104_read_back_partial (s3 : Bytes → Option Bytes) (gunzip : Bytes → Bytes) (s : Sys) (name : Bytes) (bs : List Bytes)
    (hn : PlainName name) (hs : ((s.files name).getD []).length ≤ bs.flatten.length) (hg : ¬ gzMagic <+: bs.flatten) :
    getReader s3 gunzip (putFile s name bs) name = some bs.flatten := by
  obtain ⟨h1, h2, h3, h4⟩ := hn
  unfold getReader
  have e1 : ¬ name = [45] := h1
  have e3 : startsWith name s3Tag = false := by rw [← Bool.not_eq_true, startsWith_iff]; exact h3
  have e4 : startsWith name [60, 60] = false := by rw [← Bool.not_eq_true, startsWith_iff]; exact h4
  have e5 : startsWith bs.flatten gzMagic = false := by rw [← Bool.not_eq_true, startsWith_iff]; exact hg
  simp [e1, e3, e4, C61_file_partial s name bs h1 h2 hs, e5]

/-- A file whose name begins with `<<`. -/
theorem C104_refuted : ¬ C104_statement := by
  intro h
  have := h (fun _ => none) id ⟨fun _ => none, [], [], []⟩ (ascii "<<f") [ascii "new"] (by decide) rfl
  exact absurd this (by decide +kernel)

/-- The standard error is not read. -/
theorem C104_refuted_stderr : getReader (fun _ => none) id (putFile ⟨fun _ => none, [], [], []⟩ (ascii "--") [ascii "new"]) (ascii "--") =
    none := by decide +kernel

/-- Any text can be given in place of a file, unless it begins like a compressed file. -/
theorem C104_literal (s3 : Bytes → Option Bytes) (gunzip : Bytes → Bytes) (s : Sys) (text : Bytes) (hg : ¬ gzMagic <+: text) :
    ∃ e, NL ∉ e ∧ TAB ∉ e ∧ SP ∉ e ∧ getReader s3 gunzip s (ascii "<<" ++ e) = some text := by
  obtain ⟨e, he, h1, h2, h3⟩ := C16_every_text_has_an_encoding text
  refine ⟨e, h1, h2, h3, ?_⟩
  have e5 : startsWith text gzMagic = false := by rw [← Bool.not_eq_true, startsWith_iff]; exact hg
  have e0 : ascii "<<" ++ e = 60 :: 60 :: e := rfl
  unfold getReader
  rw [e0]
  have e3 : startsWith (60 :: 60 :: e) s3Tag = false := by simp [startsWith, s3Tag]
  have e4 : startsWith (60 :: 60 :: e) [60, 60] = true := by simp [startsWith]
  simp [e3, e4, he, e5]

example : PlainName (ascii "out.txt") := by unfold PlainName; decide
example : ¬ gzMagic <+: ascii "a\nb\n" := by decide

end Cdx
