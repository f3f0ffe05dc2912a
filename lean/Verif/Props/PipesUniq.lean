import Verif.Props.Pipes
import Verif.Props.Num

/-!
C208: `uniq` on tables. C209: `sort` and then `uniq`.
-/

namespace Cdx

variable {F : Type}

/-! ## Specification -/

/-- One element before a list that begins with `next`, whose runs are known. -/
def addRun {α : Type} (eq : α → α → Bool) (x : α) : (next : Option α) → List (α × Nat) → List (α × Nat)
  | some y, (z, n) :: r => if eq x y then (x, n + 1) :: r else (x, 1) :: (z, n) :: r
  | _, _ => [(x, 1)]

/-- The runs of adjacent equal elements: the first of each, and how many they are. -/
def runCounts {α : Type} (eq : α → α → Bool) : List α → List (α × Nat)
  | [] => []
  | x :: l => addRun eq x l.head? (runCounts eq l)

/-- Options of `uniq` that ask for these keys, and for a count with this name in this place. -/
structure UniqFits (names : List Bytes) (ks : List TabKey) (name : Bytes) (pos : CountPos) (os : List (Bytes × Bytes)) : Prop where
  suits : ∀ k ∈ ks, k.Suits names
  known : ∀ o ∈ os, o.1 = ascii "key" ∨ o.1 = ascii "count"
  keys : (optVals "key" os).length = ks.length ∧ ∀ x ∈ ks.zip (optVals "key" os), x.1.Text names x.2
  count : LastMeans CountMeans (optVals "count" os) ([], .none) (name, pos)
  fresh : pos ≠ .none → IsName name ∧ name ∉ names

/-! ## Runs -/

theorem isRuns_counts {α : Type} {eq : α → α → Bool} (D : List α) :
    ∀ R : List (List α), IsRuns eq D R → runCounts eq D = R.filterMap fun g => g.head?.map fun x => (x, g.length) := by
  induction D with
  | nil =>
    intro R h
    have : R = [] := by
      cases R with
      | nil => rfl
      | cons g R =>
        have h1 := h.join
        have h2 := h.nonempty g (by simp)
        rw [List.flatten_cons] at h1
        exact absurd (List.append_eq_nil_iff.1 h1).1 h2
    subst this
    rfl
  | cons x D ih =>
    intro R h
    cases R with
    | nil => exact absurd h.join (by simp)
    | cons g R =>
      cases g with
      | nil => exact absurd rfl (h.nonempty [] (by simp))
      | cons x' g =>
        have hj := h.join
        rw [List.flatten_cons, List.cons_append, List.cons.injEq] at hj
        obtain ⟨rfl, hj⟩ := hj
        cases g with
        | nil =>
          rw [List.nil_append] at hj
          have hR : IsRuns eq D R := ⟨hj, fun g hg => h.nonempty g (by simp [hg]), fun g hg => h.inside g (by simp [hg]),
            fun A B g k u v e => h.between ([x'] :: A) B g k u v (by rw [e]; rfl)⟩
          have ih := ih R hR
          cases R with
          | nil =>
            simp only [List.flatten_nil] at hj
            subst hj
            rfl
          | cons g R =>
            cases g with
            | nil => exact absurd rfl (hR.nonempty [] (by simp))
            | cons y g =>
              have hb := h.between [] R [x'] (y :: g) x' y rfl rfl rfl
              rw [List.flatten_cons, List.cons_append] at hj
              subst hj
              rw [runCounts, ih]
              simp only [addRun, List.filterMap_cons, List.head?_cons, Option.map_some, hb, Bool.false_eq_true, if_false, List.length_cons, List.length_nil]
        | cons y g =>
          have hin := h.inside (x' :: y :: g) (by simp) [] g x' y rfl
          have hR : IsRuns eq D ((y :: g) :: R) := by
            refine ⟨by rw [List.flatten_cons]; exact hj, ?_, ?_, ?_⟩
            · intro k hk
              rcases List.mem_cons.1 hk with rfl | hk
              · simp
              · exact h.nonempty k (by simp [hk])
            · intro k hk a b u v e
              rcases List.mem_cons.1 hk with rfl | hk
              · exact h.inside (x' :: y :: g) (by simp) (x' :: a) b u v (by rw [e]; rfl)
              · exact h.inside k (by simp [hk]) a b u v e
            · intro A B k k' u v e hu hv
              cases A with
              | nil =>
                rw [List.nil_append, List.cons.injEq] at e
                obtain ⟨rfl, e⟩ := e
                exact h.between [] B (x' :: y :: g) k' u v (by rw [e]; rfl) (by rw [List.getLast?_cons_cons]; exact hu) hv
              | cons a A =>
                rw [List.cons_append, List.cons.injEq] at e
                exact h.between ((x' :: y :: g) :: A) B k k' u v (by rw [e.2]; rfl) hu hv
          have ih := ih _ hR
          rw [List.cons_append] at hj
          subst hj
          rw [runCounts, ih]
          simp only [addRun, List.filterMap_cons, List.head?_cons, Option.map_some, hin, if_true, List.length_cons]

theorem runCounts_map {α β : Type} (f : α → β) (eq : α → α → Bool) (eq' : β → β → Bool) (l : List α)
    (h : ∀ a ∈ l, ∀ b ∈ l, eq' (f a) (f b) = eq a b) : runCounts eq' (l.map f) = (runCounts eq l).map fun p => (f p.1, p.2) := by
  induction l with
  | nil => rfl
  | cons x l ih =>
    have ih := ih fun a ha b hb => h a (by simp [ha]) b (by simp [hb])
    rw [List.map_cons, runCounts, ih, runCounts]
    cases l with
    | nil => rfl
    | cons y l =>
      rw [List.map_cons, List.head?_cons, List.head?_cons]
      cases hr : runCounts eq (y :: l) with
      | nil => rfl
      | cons p r =>
        simp only [addRun, List.map_cons, h x (by simp) y (by simp)]
        split <;> rfl

theorem keepNew_same {α : Type} {cmp : α → α → Ordering} (hc : TotalPreorder cmp) {x y : α} (e : cmp x y = .eq) (l : List α) :
    keepNew (fun a b => cmp a b == .eq) x l = keepNew (fun a b => cmp a b == .eq) y l := by
  induction l with
  | nil => rfl
  | cons z l ih => simp only [keepNew, hc.eq_left e z, ih]

theorem runCounts_sorted {α : Type} {cmp : α → α → Ordering} (hc : TotalPreorder cmp) (l : List α) (hs : SortedBy cmp l) :
    runCounts (fun a b => cmp a b == .eq) l = (uniq (fun a b => cmp a b == .eq) l).map fun u => (u, (classOf cmp u l).length) := by
  induction l with
  | nil => rfl
  | cons x l ih =>
    have ih := ih hs.tail
    rw [runCounts, ih]
    cases l with
    | nil => simp [addRun, uniq, keepNew, classOf_cons, classOf, hc.refl]
    | cons y l =>
      have huni := keepNew_spec hc y l hs.tail
      have hgt := (List.pairwise_cons.1 huni.strict).1
      have hx := hs.head y (by simp)
      simp only [uniq, List.map_cons, addRun, List.head?_cons]
      by_cases e : cmp x y = .eq
      · rw [if_pos (by simp [e])]
        simp only [keepNew, e, beq_self_eq_true, if_true, keepNew_same hc e]
        congr 1
        · rw [classOf_cons x x, if_pos (hc.refl x), List.length_cons]
          have : classOf cmp x (y :: l) = classOf cmp y (y :: l) := by
            unfold classOf
            congr 1
            funext z
            rw [hc.eq_left e]
          rw [this]
        · apply List.map_congr_left
          intro u hu
          have h1 : cmp x u = .lt := by rw [hc.eq_left e]; exact hgt u hu
          rw [classOf_cons u x, if_neg]
          intro h2
          rw [hc.eq_symm h2] at h1
          cases h1
      · have e' : cmp x y = .lt := by
          revert hx e
          cases cmp x y <;> simp
        rw [if_neg (by simp [e'])]
        simp only [keepNew, e', show (Ordering.lt == Ordering.eq) = false from rfl, Bool.false_eq_true, if_false, List.map_cons]
        congr 1
        · rw [classOf_cons x x, if_pos (hc.refl x), classOf_eq_nil_of_lt hc hs.tail e']
          rfl
        · have key : ∀ u, cmp x u = .lt → classOf cmp u (x :: y :: l) = classOf cmp u (y :: l) := by
            intro u hu
            rw [classOf_cons u x, if_neg]
            intro h2
            rw [hc.eq_symm h2] at hu
            cases hu
          congr 1
          · rw [key y e']
          · apply List.map_congr_left
            intro u hu
            rw [key u (hc.lt_of_lt_of_le e' (by rw [hgt u hu]; simp))]

theorem uniqueSort_unique {α : Type} {cmp : α → α → Ordering} (hc : TotalPreorder cmp) {inp a b : List α}
    (ha : UniqueSort cmp inp a) (hb : UniqueSort cmp inp b) : a = b := by
  have mem : ∀ {l : List α}, UniqueSort cmp inp l → ∀ x, x ∈ l ↔ x ∈ (classOf cmp x inp).take 1 := by
    intro l h x
    rw [← h.first x]
    simp [classOf, hc.refl]
  have nd : ∀ l : List α, l.Pairwise (fun x y => cmp x y = .lt) → l.Nodup := by
    intro l h
    refine h.imp ?_
    rintro x y h rfl
    rw [hc.refl] at h
    cases h
  have hp : a.Perm b := by
    rw [List.perm_ext_iff_of_nodup (nd a ha.strict) (nd b hb.strict)]
    intro x
    rw [mem ha, mem hb]
  refine hp.eq_of_pairwise (le := fun x y => cmp x y ≠ .gt) ?_ (ha.strict.imp fun h => by simp [h]) (hb.strict.imp fun h => by simp [h])
  intro x y hx hy h1 h2
  have e := hc.eq_iff.2 ⟨h1, h2⟩
  have hx := (mem ha x).1 hx
  have hy := (mem hb y).1 hy
  have : classOf cmp x inp = classOf cmp y inp := by
    unfold classOf
    congr 1
    funext z
    rw [hc.eq_left e]
  rw [this] at hx
  cases hcl : classOf cmp y inp with
  | nil => rw [hcl] at hx; simp at hx
  | cons z zs =>
    rw [hcl] at hx hy
    simp at hx hy
    rw [hx, hy]

/-! ## C208: tables -/

/-- What a key becomes. -/
def TabKey.at (k : TabKey) (names : List Bytes) : LineComp := ⟨.col k.kind (fun _ => names.idxOf k.col), k.reverse, TAB⟩

theorem tabKeys_made (compiles : Bytes → Bool) (eval : Bytes → List Bytes → Res (Bytes → F64)) {names : List Bytes} (hn : ∀ n ∈ names, IsName n)
    (hl : names.length < 2 ^ 64) : ∀ (ks : List TabKey) (specs : List Bytes), (∀ k ∈ ks, k.Suits names) → specs.length = ks.length →
      (∀ x ∈ ks.zip specs, x.1.Text names x.2) →
      ∃ ms, specs.map (makeLineComp compiles) = ms.map .ok ∧ resolveKeys eval names ms = .ok (ks.map fun k => k.at names) := by
  intro ks
  induction ks with
  | nil =>
    intro specs _ h _
    have : specs = [] := List.length_eq_zero_iff.1 h
    subst this
    exact ⟨[], rfl, rfl⟩
  | cons k ks ih =>
    intro specs hs h ht
    cases specs with
    | nil => simp at h
    | cons spec specs =>
      obtain ⟨c, m, conf, h1, h2, h3, -, -⟩ := tabKey_made hn hl (hs k (by simp)).1 (ht (k, spec) (by simp))
      obtain ⟨ms, g1, g2⟩ := ih specs (fun k hk => hs k (by simp [hk])) (by simpa using h) (fun x hx => ht x (by simp [hx]))
      refine ⟨⟨conf, m, .col (.kind k.kind) [c]⟩ :: ms, by simp [h1, g1], ?_⟩
      have : lookupFile [c] 0 names = .ok (names.idxOf k.col) := by
        rw [C110_files [c] (by simp)]
        simpa using h3
      simp only [resolveKeys, LineCompMade.resolve, this, Res.bind_ok, g2, h2, List.map_cons, TabKey.at]

theorem tabCmp_cols (toF64 : Bytes → F64) (names : List Bytes) (ks : List TabKey) (hk : ∀ k ∈ ks, k.kind ≠ .numeric ∧ k.kind ≠ .float)
    (a b : List Bytes) (ha : a ≠ [] ∧ ∀ c ∈ a, TAB ∉ c ∧ NL ∉ c) (hb : b ≠ [] ∧ ∀ c ∈ b, TAB ∉ c ∧ NL ∉ c) :
    compColsList toF64 (ks.map fun k => k.at names) (decoded (sepMode TAB) (tabLine a)) (decoded (sepMode TAB) (tabLine b)) = tabCmp names ks a b := by
  have va : ∀ i, (decoded (sepMode TAB) (tabLine a)).get i = a.getD i [] := fun i => by
    rw [TextLine.get_eq_vec, tabLine, row_vec TAB (by decide) a ha.1 ha.2]
  have vb : ∀ i, (decoded (sepMode TAB) (tabLine b)).get i = b.getD i [] := fun i => by
    rw [TextLine.get_eq_vec, tabLine, row_vec TAB (by decide) b hb.1 hb.2]
  induction ks with
  | nil => rfl
  | cons k ks ih =>
    have ih := ih fun k h => hk k (by simp [h])
    have hk := hk k (by simp)
    have sw := (cellCmp_preorder k.kind false).swap
    simp only [Bool.false_eq_true, if_false] at sw
    simp only [List.map_cons, compColsList, tabCmp, LineComp.compCols, TabKey.at, va, vb, compK_cell toF64 _ hk.1 hk.2, cellOf] at ih ⊢
    rw [ih]
    cases hr : k.reverse
    · simp only [rev, Bool.false_eq_true, if_false]
      cases cellCmp k.kind (a.getD (names.idxOf k.col) []) (b.getD (names.idxOf k.col) []) <;> rfl
    · simp only [rev, if_true, sw (a.getD (names.idxOf k.col) []) (b.getD (names.idxOf k.col) [])]
      cases cellCmp k.kind (a.getD (names.idxOf k.col) []) (b.getD (names.idxOf k.col) []) <;> rfl

theorem isDecimal_eq {n : Nat} {d : Bytes} (h : IsDecimal n d) : d = decText n := by
  obtain ⟨h1, h2, h3, h4⟩ := h
  have hd : AllDigits d := fun c hc => (isDigit_iff c).2 (h2 c hc)
  have hd' : AllDigits (decText n) := fun c hc => (isDigit_iff c).2 (decText_digits n c hc)
  refine decVal_inj_length _ _ hd hd' ?_ (by rw [h4, decVal_decText])
  cases d with
  | nil => exact absurd rfl h1
  | cons c d =>
    by_cases hc : c = 48
    · have e := h3 (by rw [hc]; rfl)
      rw [e] at h4 ⊢
      subst h4
      rfl
    · have hlo : 49 ≤ c.toNat := by
        have := (h2 c (by simp)).1
        have h5 : c.toNat ≠ 48 := fun e => hc (UInt8.toNat_inj.1 e)
        have h6 : 48 ≤ c.toNat := this
        omega
      have hhi := decVal_lt d fun x hx => hd x (by simp [hx])
      have hc9 : c.toNat ≤ 57 := (h2 c (by simp)).2
      have e : n = (c.toNat - 48) * 10 ^ d.length + decVal d := h4.symm
      have p : 0 < 10 ^ d.length := Nat.pow_pos (by decide)
      refine (decText_length_eq (e := d.length) ?_ ?_).symm
      · rw [e]
        have : 1 * 10 ^ d.length ≤ (c.toNat - 48) * 10 ^ d.length := Nat.mul_le_mul_right _ (by omega)
        omega
      · rw [e, Nat.pow_succ]
        have : (c.toNat - 48) * 10 ^ d.length ≤ 9 * 10 ^ d.length := Nat.mul_le_mul_right _ (by omega)
        omega

theorem onePerRun_rows (cmp : Bytes → Bytes → Ordering) (pos : CountPos) (ps : List (List Bytes × Nat)) :
    ∀ (R : List (List Bytes)) (out : Bytes), OnePerRun .first cmp pos TAB R out → (∀ p ∈ ps, p.1 ≠ []) →
      (R.filterMap fun g => g.head?.map fun x => (x, g.length)) = (ps.map fun p => (tabLine p.1, p.2)) → (∀ g ∈ R, g ≠ []) →
      out = sepText TAB (ps.map fun p => addAt pos (decText p.2) p.1) := by
  induction ps with
  | nil =>
    intro R out h _ e hg
    cases h with
    | nil => rfl
    | cons g R x row out h1 h2 h3 =>
      simp only [Chosen] at h1
      rw [List.filterMap_cons, h1] at e
      simp at e
  | cons p ps ih =>
    intro R out h hne e hg
    cases h with
    | nil => simp at e
    | cons g R x row out h1 h2 h3 =>
      simp only [Chosen] at h1
      rw [List.filterMap_cons, h1] at e
      simp only [Option.map_some, List.map_cons, List.cons.injEq, Prod.mk.injEq] at e
      have := ih R out h3 (fun p hp => hne p (by simp [hp])) e.2 (fun g h => hg g (by simp [h]))
      rw [this, List.map_cons, sepText_lines, sepText_lines, List.map_cons, List.flatten_cons]
      congr 1
      have hp := hne p (by simp)
      rw [e.1.1, e.1.2] at h2
      cases pos with
      | none => exact h2
      | begin =>
        obtain ⟨d, h4, h5⟩ := h2
        rw [h5, isDecimal_eq h4, addAt, intercalate_cons_ne _ _ hp, tabLine]
        simp
      | stop =>
        obtain ⟨d, body, h4, h5, h6⟩ := h2
        have : body = List.intercalate [TAB] p.1 := (List.append_cancel_right (h5.symm.trans rfl : body ++ [10] = List.intercalate [TAB] p.1 ++ [10]))
        rw [h6, isDecimal_eq h4, addAt, this, intercalate_append [TAB] p.1 [decText p.2] hp (by simp)]
        simp [NL, intercalate_singleton]

theorem runCounts_mem {α : Type} (eq : α → α → Bool) (l : List α) : ∀ p ∈ runCounts eq l, p.1 ∈ l := by
  induction l with
  | nil => simp [runCounts]
  | cons x l ih =>
    intro p hp
    rw [runCounts] at hp
    unfold addRun at hp
    split at hp
    · rename_i r hr
      split at hp
      · rcases List.mem_cons.1 hp with rfl | hp
        · simp
        · exact List.mem_cons_of_mem _ (ih p (by rw [hr]; exact List.mem_cons_of_mem _ hp))
      · rcases List.mem_cons.1 hp with rfl | hp
        · simp
        · exact List.mem_cons_of_mem _ (ih p (by rw [hr]; exact hp))
    · rw [List.mem_singleton] at hp
      subst hp
      simp

/-- C208: `uniq` of a table by keys: for each run of adjacent rows with the same key its first row, with the number of rows in the column asked
for. -/
theorem C208_table (env : AggEnv F) (mkExpr : ExprMaker F) (prn : F → Bytes) (compiles : Bytes → Bool)
    (eval : Bytes → List Bytes → Res (Bytes → F64)) (t : TextMode) (names : List Bytes) (rows : List (List Bytes)) (ks : List TabKey)
    (name : Bytes) (pos : CountPos) (os : List (Bytes × Bytes)) (hg : GoodTable names rows) (h : UniqFits names ks name pos os) :
    uniqMain env mkExpr prn compiles eval .default t os (sepHead TAB names ++ sepText TAB rows) =
      .ok (sepHead TAB (addAt pos name names) ++
        sepText TAB ((runCounts (fun a b => tabCmp names ks a b == .eq) rows).map fun p => addAt pos (decText p.2) p.1)) := by
  obtain ⟨g1, g2, g3, g4, g5⟩ := hg
  have hsn : SepNames TAB names := ⟨g1, fun n hn => name_free (d := TAB) (by decide) (by decide) (g2 n hn)⟩
  obtain ⟨ms, k1, k2⟩ := tabKeys_made compiles eval g2 g4 ks _ h.suits h.keys.1 h.keys.2
  have hne : ∀ r ∈ rows, r ≠ [] ∧ ∀ c ∈ r, TAB ∉ c ∧ NL ∉ c := fun r hr => table_rows ⟨g1, g2, g3, g4, g5⟩ r hr
  have dk : ascii "key" ∈ uniqNames.map ascii ∧ ascii "count" ∈ uniqNames.map ascii := by decide
  have nv : ∀ n : String, ascii n ≠ ascii "key" → ascii n ≠ ascii "count" → optVals n os = [] := by
    intro n h1 h2
    unfold optVals
    rw [List.map_eq_nil_iff, List.filter_eq_nil_iff]
    intro o ho
    rcases h.known o ho with e | e
    · rw [e]; simpa using fun e => h1 e.symm
    · rw [e]; simpa using fun e => h2 e.symm
  have hagg : os.filterMap aggOpt = [] := by
    rw [List.filterMap_eq_nil_iff]
    intro o ho
    unfold aggOpt
    rcases h.known o ho with e | e
    · rw [e, if_neg (by decide), if_neg (by decide), if_neg (by decide)]
    · rw [e, if_neg (by decide), if_neg (by decide), if_neg (by decide)]
  have ho : UniqConf.opts env mkExpr compiles {} os = .ok ⟨ms, name, pos, .first, ⟨{}, [], .whole (.kind .plain)⟩, []⟩ := by
    rw [C199_options]
    refine ⟨fun o ho => ?_, k1, h.count, ?_, ?_⟩
    · rcases h.known o ho with e | e
      · rw [e]; exact dk.1
      · rw [e]; exact dk.2
    · rw [nv "which" (by decide) (by decide)]
      exact ⟨by simp, .inl ⟨rfl, rfl⟩⟩
    · rw [hagg]; rfl
  obtain ⟨r1, r2, r3, r4⟩ := table_read TAB (by decide) names hsn rows g5
  have em : sepMode TAB = .default := rfl
  rw [em] at r1 r2 r3 r4
  have hnames : headNames (sepHead TAB names) TAB = names := by
    obtain ⟨q1, q2, q3, q4⟩ := open_fields _ _ _ _ r1
    have r5 := r2
    unfold namesOf Reader.names at r5
    simp only [q1, r4, q2, q4, Bool.false_eq_true, if_false, if_true] at r5
    exact r5
  have hhead : uniqHead ⟨name, pos, .first, ⟨.whole .plain, false, TAB⟩⟩ names = .ok (sepHead TAB (addAt pos name names)) := by
    have valid : ∀ n ∈ names, isValidColumnName n = true := fun n hn => ((isValid_iff n).2 (g2 n hn)).2
    have e : ascii " CDX" = cdxTag := by decide +kernel
    unfold uniqHead
    cases pos with
    | none =>
      simp only [reduceCtorEq, if_false, Res.bind_ok, pushAll_fail]
      rw [if_pos ⟨fun n hn => ⟨valid n hn, by simp⟩, g3⟩]
      simp only [Res.bind_ok, List.nil_append, columnHead, if_neg g1, addAt, sepHead, e]
    | begin =>
      obtain ⟨f1, f2⟩ := h.fresh (by simp)
      have fv := ((isValid_iff name).2 f1).2
      simp only [reduceCtorEq, if_false, if_true, push_fail, fv, true_and, List.not_mem_nil, not_false_eq_true, Res.bind_ok, pushAll_fail]
      rw [if_pos ⟨fun n hn => ⟨valid n hn, by rw [List.nil_append, List.mem_singleton]; rintro rfl; exact f2 hn⟩, g3⟩]
      simp only [Res.bind_ok, List.nil_append, columnHead, addAt, sepHead, e, List.singleton_append, reduceCtorEq, if_false]
    | stop =>
      obtain ⟨f1, f2⟩ := h.fresh (by simp)
      have fv := ((isValid_iff name).2 f1).2
      simp only [reduceCtorEq, if_false, if_true, Res.bind_ok, pushAll_fail]
      rw [if_pos ⟨fun n hn => ⟨valid n hn, by simp⟩, g3⟩]
      simp only [Res.bind_ok, List.nil_append, push_fail, fv, f2, true_and, not_false_eq_true, if_true, columnHead, addAt, sepHead, e]
      rw [if_neg (by simp)]
  have hw : (⟨{}, [], .whole (.kind .plain)⟩ : LineCompMade).resolve eval names = .ok ⟨.whole .plain, false, TAB⟩ := rfl
  have hne0 : sepHead TAB names ≠ [] := by simp [sepHead]
  cases hrows : rows with
  | nil =>
    rw [hrows] at r1 r2
    have hc := C51_header_only env.toF64 .default (ks.map fun k => k.at names) ⟨name, pos, .first, ⟨.whole .plain, false, TAB⟩⟩ _ _ r1 hne0
    have he : ((Reader.newWith 1 .default).open_ (sepHead TAB names ++ sepText TAB [])).isEmpty = false := (open_fields _ _ _ _ r1).1
    unfold uniqMain
    have hr : ((Reader.newWith 1 .default).open_ (sepHead TAB names ++ sepText TAB [])).names = names := r2
    simp only [ho, Res.bind_ok, he, Bool.false_eq_true, if_false, hr, k2, hw, List.isEmpty_nil, if_true]
    rw [hc, show TextMode.default.delim = TAB from rfl, hnames, hhead]
    simp [runCounts, sepText]
  | cons r0 rows0 =>
    have hd : readLines TextMode.default.col TextMode.default.eol (sepText TAB rows) = rows.map tabLine := by
      unfold dataOf at r3
      rw [r1] at r3
      exact r3
    obtain ⟨out, R, o1, o2, o3⟩ := C199_runs_partial env mkExpr prn compiles eval .default t os _ _ _ (sepHead TAB (addAt pos name names)) _
      (ks.map fun k => k.at names) ⟨.whole .plain, false, TAB⟩ ho rfl (by rw [r2]; exact k2) (by rw [r2]; exact hw) rfl rfl r1
      (by rw [hd, hrows]; simp) (by rintro (h | h) <;> cases h) (by rintro (h | h) <;> cases h)
      (by rw [if_neg hne0]; rw [show TextMode.default.delim = TAB from rfl, hnames]; exact hhead)
    rw [← hrows, o1]
    congr 2
    rw [hd] at o2
    have e1 := isRuns_counts _ R o2
    have e2 : ∀ a ∈ rows, ∀ b ∈ rows, eqLines env.toF64 .default (ks.map fun k => k.at names) (tabLine a) (tabLine b) = (tabCmp names ks a b == .eq) := by
      intro a ha b hb
      unfold eqLines
      rw [compColsList_equal]
      have := tabCmp_cols env.toF64 names ks (fun k hk => (h.suits k hk).2) a b (hne a ha) (hne b hb)
      rw [em] at this
      rw [this]
    rw [runCounts_map tabLine (fun a b => tabCmp names ks a b == .eq) _ rows e2] at e1
    exact onePerRun_rows _ pos _ R out o3 (fun p hp => (hne p.1 (runCounts_mem _ _ p hp)).1) e1.symm o2.nonempty

/-! ## C209: `sort` and `uniq` -/

theorem addAt_none (x : Bytes) (l : List Bytes) : addAt .none x l = l := rfl

/-- C209: tables sorted by keys and then made unique by the same keys are, without a count, what `sort --unique` writes: the first row of each
key, in the order of the keys. With a count each has the number of rows with its key in all the tables. -/
theorem C209_sort_uniq (toF64 : Bytes → F64) (nameOk : Bytes → Bool) (pick : Nat → List (Nat × Bytes) → Nat) (rd : Nat → Nat → Nat) (cap : Nat)
    (m : TextMode) (env : AggEnv F) (mkExpr : ExprMaker F) (prn : F → Bytes) (compiles : Bytes → Bool)
    (eval : Bytes → List Bytes → Res (Bytes → F64)) (t : TextMode) (names : List Bytes) (tables : List (List (List Bytes))) (ks : List TabKey)
    (name : Bytes) (pos : CountPos) (os : List SortOpt) (us : List (Bytes × Bytes))
    (hg : GoodTable names tables.flatten) (fs : SortFits names ks os) (fu : UniqFits names ks name pos us) (hu : SortOpt.unique ∉ os)
    (hok : ∀ n ∈ names, nameOk n = true) (htn : tables ≠ [])
    (hz : ∀ r ∈ tables.flatten, ∀ c ∈ r, 0 ∉ c) (hcap : 8 < cap) (hfit : (sepText TAB tables.flatten).length < cap) :
    ∃ sorted firsts, sortMain toF64 nameOk pick rd cap m os (tables.map fun rows => sepHead TAB names ++ sepText TAB rows) = .ok sorted ∧
      UniqueSort (tabCmp names ks) tables.flatten firsts ∧
      uniqMain env mkExpr prn compiles eval .default t us sorted =
        .ok (sepHead TAB (addAt pos name names) ++
          sepText TAB (firsts.map fun r => addAt pos (decText (tables.flatten.filter fun x => tabCmp names ks r x == .eq).length) r)) ∧
      ∀ os', SortFits names ks os' → SortOpt.unique ∈ os' → pos = .none →
        sortMain toF64 nameOk pick rd cap m os' (tables.map fun rows => sepHead TAB names ++ sepText TAB rows) =
          (uniqMain env mkExpr prn compiles eval .default t us sorted).run := by
  have hp := tabCmp_preorder names ks
  obtain ⟨out, s1, s2, -⟩ := sort_tables toF64 nameOk pick rd cap m fs hg hok htn hz hcap hfit
  have s2 := s2 hu
  have hu := UniqueSort.of_stable s2 (uniq_spec hp s2.sorted)
  have hrun := C208_table env mkExpr prn compiles eval t names out ks name pos us (goodTable_perm s2.perm hg) fu
  rw [runCounts_sorted hp out s2.sorted, List.map_map] at hrun
  have he : (uniq (fun a b => tabCmp names ks a b == .eq) out).map ((fun p : List Bytes × Nat => addAt pos (decText p.2) p.1) ∘
      fun u => (u, (classOf (tabCmp names ks) u out).length)) = (uniq (fun a b => tabCmp names ks a b == .eq) out).map fun r =>
        addAt pos (decText (tables.flatten.filter fun x => tabCmp names ks r x == .eq).length) r := by
    apply List.map_congr_left
    intro u _
    simp only [Function.comp_apply, s2.stable u]
    rfl
  rw [he] at hrun
  refine ⟨_, _, s1, hu, hrun, ?_⟩
  rintro os' fs' hu' rfl
  obtain ⟨out', t1, -, t2⟩ := sort_tables toF64 nameOk pick rd cap m fs' hg hok htn hz hcap hfit
  rw [t1, hrun, Res.run, uniqueSort_unique hp (t2 hu') hu]
  simp only [addAt_none, List.map_id']

/-- Two tables, sorted by the length of the second column and then by the first backwards, with a count. -/
theorem sortFits_example : SortFits [ascii "a", ascii "b"] [⟨ascii "b", .length, true⟩, ⟨ascii "a", .plain, true⟩]
    [.key (ascii "2,len.rev"), .altSort, .key (ascii "a,rev")] := by
  refine ⟨?_, by simp, ⟨rfl, ?_⟩, by simp, by decide, by simp⟩
  · intro k hk
    simp only [List.mem_cons, List.not_mem_nil, or_false] at hk
    rcases hk with rfl | rfl <;> exact ⟨by decide +kernel, by simp, by simp⟩
  · intro x hx
    simp only [sortSpecs, List.filterMap_cons, List.filterMap_nil, List.zip_cons_cons, List.zip_nil_left, List.mem_cons, List.not_mem_nil, or_false] at hx
    rcases hx with rfl | rfl
    · exact ⟨ascii "2", .inr (by decide +kernel), .inr ⟨ascii "len.rev", by decide +kernel, by decide +kernel, by unfold AliasOk; decide +kernel,
        by unfold MethodOf; decide +kernel, by decide +kernel⟩⟩
    · exact ⟨ascii "a", .inl rfl, .inr ⟨ascii "rev", by decide +kernel, by decide +kernel, by unfold AliasOk; decide +kernel,
        by unfold MethodOf; decide +kernel, by decide +kernel⟩⟩

theorem uniqFits_example : UniqFits [ascii "a", ascii "b"] [⟨ascii "b", .length, true⟩, ⟨ascii "a", .plain, true⟩] (ascii "n") .stop
    [(ascii "count", ascii "x"), (ascii "key", ascii "2,len.rev"), (ascii "key", ascii "a,rev"), (ascii "count", ascii "n,End")] := by
  obtain ⟨h1, -, h2, -⟩ := sortFits_example
  refine ⟨h1, by decide +kernel, ?_, ?_, fun _ => ⟨one_letter 110 (by unfold Letter; decide), by decide +kernel⟩⟩
  · have : optVals "key" [(ascii "count", ascii "x"), (ascii "key", ascii "2,len.rev"), (ascii "key", ascii "a,rev"), (ascii "count", ascii "n,End")] =
        sortSpecs [.key (ascii "2,len.rev"), .altSort, .key (ascii "a,rev")] := by decide +kernel
    rw [this]
    exact h2
  · have : optVals "count" [(ascii "count", ascii "x"), (ascii "key", ascii "2,len.rev"), (ascii "key", ascii "a,rev"), (ascii "count", ascii "n,End")] =
        [ascii "x", ascii "n,End"] := by decide +kernel
    rw [this]
    refine ⟨?_, .inr ⟨ascii "n,End", rfl, ascii "n", ascii "End", .inl ⟨by decide +kernel, by decide +kernel⟩, by decide +kernel,
      .inr ⟨rfl, "end", by decide, by decide +kernel⟩⟩⟩
    intro x hx
    simp only [List.mem_cons, List.not_mem_nil, or_false] at hx
    rcases hx with rfl | rfl
    · exact ⟨(ascii "x", .begin), ascii "x", [], .inr (by decide +kernel), by decide +kernel, .inl ⟨rfl, .inl rfl⟩⟩
    · exact ⟨(ascii "n", .stop), ascii "n", ascii "End", .inl ⟨by decide +kernel, by decide +kernel⟩, by decide +kernel,
        .inr ⟨rfl, "end", by decide, by decide +kernel⟩⟩

theorem goodTable_example : GoodTable [ascii "a", ascii "b"] [[ascii "x", ascii "1"], [ascii "y", ascii "22"], [ascii "x", ascii "3"], [ascii "y", ascii "44"]] := by
  refine ⟨by decide, ?_, by decide +kernel, by decide, by decide +kernel⟩
  intro n hn
  simp only [List.mem_cons, List.not_mem_nil, or_false] at hn
  rcases hn with rfl | rfl
  · exact one_letter 97 (by unfold Letter; decide)
  · exact one_letter 98 (by unfold Letter; decide)

example : sortMain (fun _ => 0) (fun _ => true) (fun _ _ => 0) (fun _ _ => 0) 100 .default [.key (ascii "2,len.rev"), .altSort, .key (ascii "a,rev")]
      [ascii " CDX\ta\tb\nx\t1\ny\t22\n", ascii " CDX\ta\tb\nx\t3\ny\t44\n"] = .ok (ascii " CDX\ta\tb\ny\t22\ny\t44\nx\t1\nx\t3\n") ∧
    uniqMain AggEnv.plain (fun _ => .err) (fun n => decText n) (fun _ => false) (fun _ _ => .err) .default .default
      [(ascii "count", ascii "x"), (ascii "key", ascii "2,len.rev"), (ascii "key", ascii "a,rev"), (ascii "count", ascii "n,End")]
      (ascii " CDX\ta\tb\ny\t22\ny\t44\nx\t1\nx\t3\n") = .ok (ascii " CDX\ta\tb\tn\ny\t22\t2\nx\t1\t2\n") := by
  constructor <;> decide +kernel

end Cdx
