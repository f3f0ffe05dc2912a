import Verif.Props.SampleMain

/-!
C203: the full statement, and why it does not hold.
-/

namespace Cdx

/-- Full statement: the lines an option asks for, counted from 1 as the help text says, are written after one header, in any text format. -/
def C203_statement : Prop :=
  ∀ (nameOk : Bytes → Bool) (height : Nat) (m : TextMode) (o : Bytes × Bytes) (mode : SampleMode) (H : Bytes) (files : List Bytes), SampleMeans o mode →
    FirstLineOk nameOk .matching (headLine H) → (∀ f ∈ nonEmpty files, ∃ rest, readHeader m f = some (H, rest)) →
    match mode with
    | .sample n => ∃ S : Bytes → List Bytes, (∀ f ∈ nonEmpty files, EvenSample n (dataOf m f) (S f)) ∧
        sampleMain nameOk height m [o] files =
          .ok ((if nonEmpty files ≠ [] then H else []) ++ ((nonEmpty files).map fun f => (S f).flatten).flatten)
    | mode => ∃ out, sampleMain nameOk height m [o] files = .ok out ∧ sampled m mode 1 H files out

/-- `cdx sample --range 1-1` writes the second line. -/
theorem C203_refuted : ¬ C203_statement := by
  intro h
  have hm : SampleMeans (ascii "range", ascii "1-1") (.range [(1, 1)]) := by
    rcases (C203_options [(ascii "range", ascii "1-1")] (some (.range [(1, 1)]))).1 (by rfl) with ⟨h, _⟩ | ⟨o, mode, h1, h2, h3⟩
    · cases h
    · cases h1
      cases h2
      exact h3
  obtain ⟨out, h1, S, h2, h3⟩ := h (fun _ => true) 10 .default (ascii "range", ascii "1-1") (.range [(1, 1)]) [] [ascii "a\nb\n"] hm
    (by unfold FirstLineOk; decide +kernel)
    (by intro f hf
        have : f = ascii "a\nb\n" := by
          have hx : f ∈ nonEmpty [ascii "a\nb\n"] := hf
          revert hx
          simp +decide [nonEmpty]
        subst this
        exact ⟨_, rfl⟩)
  have e1 : sampleMain (fun _ => true) 10 .default [(ascii "range", ascii "1-1")] [ascii "a\nb\n"] = .ok (ascii "b\n") := by decide +kernel
  rw [e1] at h1
  have hne : nonEmpty [ascii "a\nb\n"] = [ascii "a\nb\n"] := by decide +kernel
  rw [hne] at h2 h3
  have := h2 _ (List.mem_singleton.2 rfl)
  have e2 : wanted (.range [(1, 1)]) 1 (dataOf .default (ascii "a\nb\n")) = .ok [ascii "a\n"] := by decide +kernel
  rw [e2] at this
  have hS : S (ascii "a\nb\n") = [ascii "a\n"] := (Res.ok.inj this).symm
  rw [← Res.ok.inj h1] at h3
  simp only [List.map_cons, List.map_nil, hS] at h3
  exact absurd h3 (by decide +kernel)

end Cdx
