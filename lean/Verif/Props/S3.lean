import Verif.Props.Files
import Verif.Props.GrepMain
import Verif.Model.S3

/-!
Properties of reading from S3: C158 to C160.
-/

namespace Cdx

/-! ## C158: all pieces are delivered -/

/-- What is still to be delivered. -/
def S3.todo (s : S3) : Bytes := s.left.getD [] ++ (s.body.flatMap fun p => p.getD [])

/-- The full claim: reading with buffers of any size, often enough, gives the object. -/
def C158_statement : Prop :=
  ∀ (pieces : List Bytes) (sizes : List Nat), (∀ n ∈ sizes, 0 < n) → pieces.flatten.length < sizes.length →
    (S3.drain sizes ⟨none, pieces.map some⟩) = (pieces.flatten, false)

/-- An empty piece is taken for the end. -/
theorem C158_refuted : ¬ C158_statement := by
  intro h
  have := h [[1], [], [2]] [4, 4, 4] (by decide) (by decide)
  revert this
  decide +kernel

theorem s3Fill_spec (b : Bytes) (n : Nat) (hn : 0 < n) (hb : b ≠ []) (body : List (Option Bytes)) :
    ∃ x r, s3Fill b n body = (x, ⟨r, body⟩) ∧ x ≠ [] ∧ x ++ r.getD [] = b ∧ x.length ≤ n ∧ r ≠ some [] := by
  unfold s3Fill
  split
  · rename_i h
    refine ⟨b.take n, some (b.drop n), rfl, ?_, by simp, by simp; omega, ?_⟩
    · intro e
      have := congrArg List.length e
      simp at this
      rcases this with h1 | h1
      · omega
      · exact hb h1
    · intro e
      have := congrArg List.length (Option.some.inj e)
      simp at this
      omega
  · rename_i h
    exact ⟨b, none, rfl, hb, by simp, by omega, by simp⟩

/-- Pieces that are not empty are all delivered; an error is told after everything before it. -/
theorem C158_pieces_partial (pieces : List Bytes) (hne : ∀ p ∈ pieces, p ≠ []) (more : List (Option Bytes))
    (hmore : more = [] ∨ more.head? = some none) (sizes : List Nat) (hs : ∀ n ∈ sizes, 0 < n)
    (hlen : pieces.flatten.length < sizes.length) :
    S3.drain sizes ⟨none, pieces.map some ++ more⟩ = (pieces.flatten, decide (more ≠ [])) := by
  have key : ∀ (sizes : List Nat) (left : Option Bytes) (pieces : List Bytes), left ≠ some [] → (∀ p ∈ pieces, p ≠ []) →
      (∀ n ∈ sizes, 0 < n) → (left.getD [] ++ pieces.flatten).length < sizes.length →
      S3.drain sizes ⟨left, pieces.map some ++ more⟩ = (left.getD [] ++ pieces.flatten, decide (more ≠ [])) := by
    intro sizes
    induction sizes with
    | nil => intro _ _ _ _ _ h; simp at h
    | cons n ns ih =>
      intro left pieces hl hp hs hlen
      have step : ∀ (s : S3) (b : Bytes) (ps : List Bytes), s.read n = some (s3Fill b n (ps.map some ++ more)) → b ≠ [] →
          (∀ p ∈ ps, p ≠ []) → (b ++ ps.flatten).length < ns.length + 1 →
          S3.drain (n :: ns) s = (b ++ ps.flatten, decide (more ≠ [])) := by
        intro s b ps hr hb hps hlen
        obtain ⟨x, r, e1, e2, e3, _, e4⟩ := s3Fill_spec b n (hs n (by simp)) hb (ps.map some ++ more)
        rw [S3.drain, hr, e1]
        cases x with
        | nil => exact absurd rfl e2
        | cons c x =>
          simp only
          rw [ih r ps e4 hps (fun m hm => hs m (by simp [hm])) (by
            rw [← e3] at hlen
            simp only [List.length_append, List.length_cons] at hlen ⊢
            omega)]
          rw [← e3]
          simp
      cases left with
      | some b => exact step _ b pieces rfl (by rintro rfl; exact hl rfl) hp (by simpa using hlen)
      | none =>
        cases pieces with
        | nil =>
          rw [S3.drain, S3.read]
          simp only [List.map_nil, List.nil_append]
          rcases hmore with rfl | hm
          · simp
          · cases more with
            | nil => simp at hm
            | cons y ys => simp at hm; subst hm; simp
        | cons p ps =>
          exact step _ p ps rfl (hp p (by simp)) (fun q hq => hp q (by simp [hq])) (by simpa using hlen)
  have := key sizes none pieces (by simp) hne hs (by simpa using hlen)
  simpa using this

example : S3.drain [2, 1, 9, 9, 9, 9] ⟨none, [some [1, 2, 3], some [4]]⟩ = ([1, 2, 3, 4], false) := by decide +kernel
example : S3.drain [2, 1, 9, 9, 9] ⟨none, [some [1, 2, 3], none, some [4]]⟩ = ([1, 2, 3], true) := by decide +kernel

/-! ## C159: names of objects -/

/-- Exactly the texts `s3://bucket/key` are names of objects, the bucket without a slash, the key anything. -/
theorem C159_path (spec bucket key : Bytes) :
    s3Path spec = some (bucket, key) ↔ spec = ascii "s3://" ++ bucket ++ ascii "/" ++ key ∧ 47 ∉ bucket := by
  have htag : ascii "s3://" = s3Tag := by decide +kernel
  have hsl : ascii "/" = [47] := by decide +kernel
  rw [htag, hsl]
  constructor
  · intro h
    unfold s3Path startsWith at h
    split at h
    · rename_i h1
      obtain ⟨h2, h3⟩ := splitOnce_eq 47 _ _ _ h
      refine ⟨?_, h3⟩
      have h1 : spec.take s3Tag.length = s3Tag := by simpa using h1
      rw [← List.take_append_drop s3Tag.length spec, h1, h2]
      simp
    · simp at h
  · rintro ⟨rfl, h2⟩
    unfold s3Path startsWith
    have e : s3Tag ++ bucket ++ [47] ++ key = s3Tag ++ (bucket ++ 47 :: key) := by simp
    rw [e, List.take_left, List.drop_left]
    simp [splitOnce_some 47 bucket key h2]

/-- Every other text is refused. -/
theorem C159_other (spec : Bytes) (h : ∀ bucket key, spec ≠ ascii "s3://" ++ bucket ++ ascii "/" ++ key) : s3Path spec = none := by
  cases hp : s3Path spec with
  | none => rfl
  | some p => exact absurd ((C159_path spec p.1 p.2).1 hp).1 (h _ _)

example : s3Path (ascii "s3://b/k/x") = some (ascii "b", ascii "k/x") := by decide +kernel
example : s3Path (ascii "s3://b") = none := by decide +kernel

/-! ## C160: compressed objects -/

/-- The full claim: an object that begins like a compressed file is decompressed, any other is not, however it arrives. -/
def C160_statement : Prop :=
  ∀ (gunzip : Bytes → Bytes) (size : Nat) (sizes : List Nat) (pieces : List Bytes), 3 ≤ size → (∀ n ∈ sizes, 0 < n) →
    (∀ p ∈ pieces, p ≠ []) → pieces.flatten.length < sizes.length →
    s3Reader gunzip size sizes ⟨none, pieces.map some⟩ =
      some (if [0x1f, 0x8b, 0x08] <+: pieces.flatten then gunzip pieces.flatten else pieces.flatten, false)

/-- If the first piece has only one byte, the beginning is not recognised. -/
theorem C160_refuted : ¬ C160_statement := by
  intro h
  have := h (fun _ => []) 8 [8, 8, 8, 8, 8] [[0x1f], [0x8b, 0x08]] (by decide) (by decide) (by decide) (by decide)
  revert this
  decide +kernel

/-- If the first piece has three bytes, it is. -/
theorem C160_gzip_partial (gunzip : Bytes → Bytes) (size : Nat) (sizes : List Nat) (p : Bytes) (pieces : List Bytes) (hsize : 3 ≤ size)
    (hs : ∀ n ∈ sizes, 0 < n) (hne : ∀ q ∈ pieces, q ≠ []) (hlen : (p :: pieces).flatten.length < sizes.length) (hp : 3 ≤ p.length) :
    s3Reader gunzip size sizes ⟨none, (p :: pieces).map some⟩ =
      some (if [0x1f, 0x8b, 0x08] <+: (p :: pieces).flatten then gunzip (p :: pieces).flatten else (p :: pieces).flatten, false) := by
  have hpne : p ≠ [] := by rintro rfl; simp at hp
  unfold s3Reader
  rw [S3.read]
  simp only [List.map_cons, Option.map_some]
  -- the rest after the first read
  have hrest : ∀ (b : Bytes) (sizes' : List Nat), (∀ n ∈ sizes', 0 < n) → (b ++ pieces.flatten).length < sizes'.length → b ≠ [] →
      S3.drain sizes' ⟨some b, pieces.map some⟩ = (b ++ pieces.flatten, false) := by
    intro b sizes' h1 h2 h3
    have := C158_pieces_partial (b :: pieces) (by simpa [h3] using hne) [] (.inl rfl) sizes' h1 (by simpa using h2)
    cases sizes' with
    | nil => simp at h2
    | cons n ns =>
      rw [S3.drain, S3.read] at this ⊢
      simpa using this
  have hpre : ∀ x r : Bytes, x ++ r = p → 3 ≤ x.length → (startsWith x gzMagic = true ↔ [0x1f, 0x8b, 0x08] <+: (p :: pieces).flatten) := by
    intro x r h1 h2
    unfold startsWith
    rw [beq_iff_eq]
    have e : (p :: pieces).flatten = x ++ (r ++ pieces.flatten) := by rw [List.flatten_cons, ← h1]; simp
    rw [e]
    constructor
    · intro h
      refine ⟨x.drop 3 ++ (r ++ pieces.flatten), ?_⟩
      have h : x.take 3 = [0x1f, 0x8b, 0x08] := h
      rw [← List.append_assoc, ← h, List.take_append_drop]
    · rintro ⟨t, ht⟩
      have := congrArg (List.take 3) ht
      rw [List.take_append_of_le_length h2] at this
      show x.take 3 = _
      rw [← this]
      rfl
  by_cases hbig : p.length > size
  · rw [s3Fill, if_pos hbig]
    simp only
    have hd : p.drop size ≠ [] := by
      intro e
      have := congrArg List.length e
      simp at this
      omega
    rw [hrest (p.drop size) sizes hs (by
      simp only [List.flatten_cons, List.length_append, List.length_drop] at hlen ⊢
      omega) hd]
    have hiff := hpre (p.take size) (p.drop size) (List.take_append_drop _ _) (by simp; omega)
    have e : p.take size ++ (p.drop size ++ pieces.flatten) = (p :: pieces).flatten := by
      rw [← List.append_assoc, List.take_append_drop]; rfl
    by_cases h : [0x1f, 0x8b, 0x08] <+: (p :: pieces).flatten
    · rw [if_pos (hiff.2 h), if_pos h, e]
    · rw [if_neg (fun h' => h (hiff.1 h')), if_neg h, e]
  · rw [s3Fill, if_neg hbig]
    simp only
    have := C158_pieces_partial pieces hne [] (.inl rfl) sizes hs (by
      simp only [List.flatten_cons, List.length_append] at hlen
      omega)
    rw [List.append_nil] at this
    rw [this]
    have hiff := hpre p [] (by simp) hp
    have e : p ++ pieces.flatten = (p :: pieces).flatten := rfl
    by_cases h : [0x1f, 0x8b, 0x08] <+: (p :: pieces).flatten
    · simp only [if_pos (hiff.2 h), if_pos h, e, ne_eq, not_true_eq_false, decide_false]
    · simp only [if_neg (fun h' => h (hiff.1 h')), if_neg h, e, ne_eq, not_true_eq_false, decide_false]

example : s3Reader (fun b => b.drop 3) 3 [2, 2, 2, 2, 2, 2, 2] ⟨none, [some [0x1f, 0x8b, 0x08, 7], some [9]]⟩ = some ([7, 9], false) := by
  decide +kernel

end Cdx
