import Verif.Props.UniqSums

/-!
C232: `cdx sort | cdx uniq` with sums: the totals of the groups of a whole table, wherever their rows stand in it.
-/

namespace Cdx

/-- The groups of rows that compare equal, in the order of the comparison; each has all of its rows, in the order in which they came. -/
structure IsGroups {α : Type} (cmp : α → α → Ordering) (rows : List α) (groups : List (List α)) : Prop where
  ordered : groups.Pairwise fun g h => ∀ a ∈ g, ∀ b ∈ h, cmp a b = .lt
  whole : ∀ g ∈ groups, ∃ r ∈ rows, g = rows.filter fun x => cmp r x == .eq
  all : ∀ r ∈ rows, ∃ g ∈ groups, r ∈ g

/-- A pipeline as the shell runs it: each command reads on its standard input what the one before wrote to its standard output. -/
def Outside.pipe (o : Outside) : List (String × List Tok) → Sys → Run Bytes
  | [], s => .ok s.stdin
  | c :: cs, s => (o.run c.1 c.2 { s with stdout := [] }).bind fun t => o.pipe cs { t with stdin := t.stdout }

/-! ## Runs of sorted rows -/

theorem run_equal {α : Type} {cmp : α → α → Ordering} (h : TotalPreorder cmp) : ∀ {g : List α},
    (∀ a b x y, g = a ++ x :: y :: b → (cmp x y == .eq) = true) → ∀ x ∈ g, ∀ y ∈ g, cmp x y = .eq
  | [], _, x, hx, _, _ => by simp at hx
  | [z], _, x, hx, y, hy => by
    rw [List.mem_singleton.1 hx, List.mem_singleton.1 hy]
    exact h.refl z
  | z :: w :: g, hi, x, hx, y, hy => by
    have h1 : cmp z w = .eq := by simpa using hi [] g z w rfl
    have ih := run_equal h (g := w :: g) (fun a b x y e => hi (z :: a) b x y (by simp [e]))
    have key : ∀ v ∈ z :: w :: g, cmp w v = .eq := by
      intro v hv
      rcases List.mem_cons.1 hv with rfl | hv
      · exact h.eq_symm h1
      · exact ih w (by simp) v hv
    exact h.eq_trans (h.eq_symm (key x hx)) (key y hy)

theorem runs_ordered {α : Type} {cmp : α → α → Ordering} (h : TotalPreorder cmp) : ∀ {R : List (List α)} {out : List α},
    IsRuns (fun a b => cmp a b == .eq) out R → SortedBy cmp out → R.Pairwise fun g k => ∀ a ∈ g, ∀ b ∈ k, cmp a b = .lt
  | [], _, _, _ => .nil
  | [g], _, _, _ => by simp
  | g :: k :: R, out, hr, hs => by
    have hsub : IsRuns (fun a b => cmp a b == .eq) (k :: R).flatten (k :: R) :=
      ⟨rfl, fun x hx => hr.nonempty x (by simp [List.mem_cons.1 hx]), fun x hx => hr.inside x (by simp [List.mem_cons.1 hx]), fun A B p q x y e =>
        hr.between (g :: A) B p q x y (by simp [e])⟩
    have hj : out = g ++ (k :: R).flatten := by rw [← hr.join]; rfl
    rw [hj] at hs
    obtain ⟨s1, s2, s3⟩ := List.pairwise_append.1 hs
    refine List.pairwise_cons.2 ⟨?_, runs_ordered h hsub s2⟩
    have hg := hr.nonempty g (by simp)
    have hk := hr.nonempty k (by simp)
    obtain ⟨y, ys, rfl⟩ := List.exists_cons_of_ne_nil hk
    have hl : g.getLast? = some (g.getLast hg) := List.getLast?_eq_some_getLast hg
    have hne := hr.between [] R g (y :: ys) _ y rfl hl rfl
    have hin := run_equal h (hr.inside g (by simp))
    have hlt : cmp (g.getLast hg) y = .lt := by
      have h1 := s3 _ (List.getLast_mem hg) y (by simp)
      cases e : cmp (g.getLast hg) y with
      | lt => rfl
      | gt => exact absurd e h1
      | eq => simp [e] at hne
    have hle : ∀ b ∈ (y :: ys) ++ R.flatten, cmp y b ≠ .gt := by
      intro b hb
      rcases List.mem_cons.1 hb with rfl | hb
      · rw [h.refl]; decide
      · exact (List.pairwise_cons.1 s2).1 b hb
    intro p hp a ha b hb
    have hb' : b ∈ (y :: ys) ++ R.flatten := by
      rcases List.mem_cons.1 hp with rfl | hp
      · exact List.mem_append_left _ hb
      · exact List.mem_append_right _ (List.mem_flatten.2 ⟨p, hp, hb⟩)
    exact h.lt_of_lt_of_le (h.lt_of_le_of_lt (by rw [hin a ha _ (List.getLast_mem hg)]; decide) hlt) (hle b hb')

/-- The runs of a sorted list are the groups. -/
theorem runs_groups {α : Type} {cmp : α → α → Ordering} (h : TotalPreorder cmp) {inp out : List α} {R : List (List α)} (hs : StableSort cmp inp out)
    (hr : IsRuns (fun a b => cmp a b == .eq) out R) : IsGroups cmp inp R := by
  have ho := runs_ordered h hr hs.sorted
  refine ⟨ho, ?_, ?_⟩
  · intro g hg
    obtain ⟨r, hrg⟩ := List.exists_mem_of_ne_nil _ (hr.nonempty g hg)
    refine ⟨r, hs.perm.mem_iff.1 (by rw [← hr.join]; exact List.mem_flatten.2 ⟨g, hg, hrg⟩), ?_⟩
    have hst := hs.stable r
    unfold classOf at hst
    rw [← hst, ← hr.join]
    obtain ⟨A, B, rfl⟩ := List.append_of_mem hg
    obtain ⟨-, h2, h3⟩ := List.pairwise_append.1 ho
    have h4 := (List.pairwise_cons.1 h2).1
    rw [List.flatten_append, List.flatten_cons, List.filter_append, List.filter_append]
    have f1 : (A.flatten.filter fun x => cmp r x == .eq) = [] := List.filter_eq_nil_iff.2 fun x hx => by
      obtain ⟨k, hk, hxk⟩ := List.mem_flatten.1 hx
      have := h3 k hk g (by simp) x hxk r hrg
      simp [h.gt_iff.2 this]
    have f2 : (B.flatten.filter fun x => cmp r x == .eq) = [] := List.filter_eq_nil_iff.2 fun x hx => by
      obtain ⟨k, hk, hxk⟩ := List.mem_flatten.1 hx
      simp [h4 k hk r hrg x hxk]
    have f3 : (g.filter fun x => cmp r x == .eq) = g := List.filter_eq_self.2 fun x hx => by
      simp [run_equal h (hr.inside g hg) r hrg x hx]
    rw [f1, f2, f3]
    simp
  · intro r hm
    rw [← hs.perm.mem_iff, ← hr.join] at hm
    exact List.mem_flatten.1 hm

/-- There is only one list of groups. -/
theorem IsGroups.unique {α : Type} {cmp : α → α → Ordering} (h : TotalPreorder cmp) {rows : List α} {G G' : List (List α)} (hG : IsGroups cmp rows G)
    (hG' : IsGroups cmp rows G') : G = G' := by
  have full : ∀ {G}, IsGroups cmp rows G → ∀ g ∈ G, g ≠ [] := by
    intro G hG g hg e
    obtain ⟨r, hr, rfl⟩ := hG.whole g hg
    have : r ∈ rows.filter fun x => cmp r x == .eq := List.mem_filter.2 ⟨hr, by simp [h.refl]⟩
    rw [e] at this
    simp at this
  have sub : ∀ {G G'}, IsGroups cmp rows G → IsGroups cmp rows G' → ∀ g ∈ G, g ∈ G' := by
    intro G G' hG hG' g hg
    obtain ⟨r, hr, rfl⟩ := hG.whole g hg
    obtain ⟨k, hk, hrk⟩ := hG'.all r hr
    obtain ⟨r', hr', rfl⟩ := hG'.whole k hk
    have e : cmp r' r = .eq := by simpa using (List.mem_filter.1 hrk).2
    rwa [show (fun x => cmp r x == .eq) = fun x => cmp r' x == .eq from funext fun x => by rw [h.eq_left e]]
  have irr : ∀ a, cmp a a ≠ .lt := fun a => by rw [h.refl]; decide
  have nod : ∀ {G}, IsGroups cmp rows G → G.Nodup := by
    intro G hG
    refine List.Pairwise.imp_of_mem ?_ hG.ordered
    intro g k hg _ hlt e
    subst e
    obtain ⟨a, ha⟩ := List.exists_mem_of_ne_nil _ (full hG g hg)
    exact irr a (hlt a ha a ha)
  refine List.Perm.eq_of_pairwise ?_ hG.ordered hG'.ordered ((List.perm_ext_iff_of_nodup (nod hG) (nod hG')).2 fun g => ⟨sub hG hG' g, sub hG' hG g⟩)
  intro g k hg hk h1 h2
  obtain ⟨a, ha⟩ := List.exists_mem_of_ne_nil _ (full hG g hg)
  obtain ⟨b, hb⟩ := List.exists_mem_of_ne_nil _ (full hG' k hk)
  have := h.swap a b
  rw [h1 a ha b hb, h2 b hb a ha] at this
  cases this

theorem SortAsk.Fits.mem {names : List Bytes} {num : Bytes → Int} {val : WholeFormula → List Bytes → Int} {rows rows' : List (List Bytes)} {k : SortAsk}
    (h : k.Fits names num val rows) (hm : ∀ r ∈ rows', r ∈ rows) : k.Fits names num val rows' := by
  cases k with
  | col k => exact ⟨h.1, fun hk r hr => h.2 hk r (hm r hr)⟩
  | formula f b => exact ⟨h.1, h.2.1, h.2.2.1, fun r hr => h.2.2.2 r (hm r hr)⟩

/-- C232: `cdx sort --key … files | cdx uniq --key … --agg-post … -` with the same keys writes one row for each group of rows of the files with the
same values of the keys, wherever these rows stand: in the order of the values, the first row of the group with the sums over the whole group and
with the number of its rows. -/
theorem C232_totals (o : Outside) (s : Sys) (c d : Cmd) (hc : c ∈ mainList) (hcn : c.name = "sort") (hd : d ∈ mainList) (hdn : d.name = "uniq")
    (first second : List Tok) (t : Option TextMode) (os : List SortOpt) (opts : List (Bytes × Bytes)) (files names : List Bytes)
    (tables : List (List (List Bytes))) (asks : List SortAsk) (qs : List SumAsk) (num : Bytes → Int) (val : WholeFormula → List Bytes → Int)
    (name : Bytes) (pos : CountPos)
    (h1 : ∀ s, Says (o.world s) c first .default t (os.map SortOpt.said) files) (h2 : ∀ s, Says (o.world s) d second .default none opts [[45]])
    (hr : Tables (o.world s) s files names tables) (hs : AsksSort names asks os) (hu : SortOpt.unique ∉ os) (hf : AsksSums names asks qs name pos opts)
    (hfit : ∀ k ∈ asks, k.Fits names num val tables.flatten) (hfirst : ∀ k ∈ asks.head?, k.First names val tables.flatten)
    (ht : GoodTable names tables.flatten) (hok : ∀ n ∈ names, nameOkBytes o.classes n = true) (hrows : tables.flatten ≠ [])
    (hcap : 8 < o.cap) (hlen : (sepText TAB tables.flatten).length < o.cap) (hcol : ∀ q ∈ qs, q.col ∈ names)
    (hw : ∀ q ∈ qs, ∀ r ∈ tables.flatten, WholeCell (cellOf names r q.col) (num (cellOf names r q.col)))
    (hb : ∀ q ∈ qs, (tables.flatten.map fun r => (num (cellOf names r q.col)).natAbs).sum ≤ 2 ^ 53) (hn : tables.flatten.length ≤ 2 ^ 53) :
    ∃ groups, IsGroups (askCmp names num val asks) tables.flatten groups ∧
      o.pipe [("sort", first), ("uniq", second)] s = .ok (sepHead TAB (addAt pos name (aroundBy qs (·.name) names)) ++
        sepText TAB (groups.map (groupRow names num qs pos))) := by
  obtain ⟨out, e1, e2, -⟩ := C226_partial o { s with stdout := [] } c hc hcn first .default t os files names tables asks num val (h1 _) hr hs hfit hfirst
    ht hok hrows hcap hlen
  have hst := e2 hu
  have hm : ∀ r ∈ out, r ∈ tables.flatten := fun r hr => hst.perm.mem_iff.1 hr
  have hne : out ≠ [] := by
    intro e
    have := hst.perm.length_eq
    rw [e] at this
    exact hrows (List.length_eq_zero_iff.1 this.symm)
  obtain ⟨R, r1, r2⟩ := C230_sums o { s with stdin := sepHead TAB names ++ sepText TAB out, stdout := [] } d hd hdn second opts [45] names out asks qs num val
    name pos (h2 _) (by
      have := stdin_read (o.world { s with stdin := sepHead TAB names ++ sepText TAB out, stdout := [] })
        { s with stdin := sepHead TAB names ++ sepText TAB out, stdout := [] } names _ rfl
      simpa using this)
    ⟨ht.1, ht.2.1, ht.2.2.1, ht.2.2.2.1, fun r hr => ht.2.2.2.2 r (hm r hr)⟩ hne hf (fun k hk => (hfit k hk).mem hm) hcol
    (fun q hq r hr => hw q hq r (hm r hr))
    (fun q hq => by rw [(hst.perm.map _).sum_nat]; exact hb q hq)
    (by rw [hst.perm.length_eq]; exact hn)
  refine ⟨R, runs_groups (askCmp_preorder _ _ _ _) hst r1, ?_⟩
  simp only [Outside.pipe, e1, Run.bind, List.nil_append, r2]

/-! ## An example -/

/-- The rows of `rows8` in another order. -/
def rows9 : List (List Bytes) := [[ascii "3", ascii "5"], [ascii "10", ascii "2"], [ascii "5", ascii "3"]]

def sys9 : Sys :=
  { files := fun n => if n = ascii "t" then some (ascii " CDX\ta\tb\n3\t5\n10\t2\n5\t3\n") else none
    stdin := [], stdout := [], stderr := [] }

theorem rows9_mem : ∀ r ∈ rows9, r ∈ rows8 := by decide +kernel

/-- `cdx sort --key ,expr,a*b t | cdx uniq --key ,expr,a*b --agg-post s,b,sum --count n,End -`. -/
example : outside0.pipe [("sort", [.opt "key" (ascii ",expr,a*b"), .pos "input_files" (ascii "t")]),
      ("uniq", [.opt "key" (ascii ",expr,a*b"), .opt "agg-post" (ascii "s,b,sum"), .opt "count" (ascii "n,End"), .pos "input_files" (ascii "-")])] sys9 =
    .ok (ascii " CDX\ta\tb\ts\tn\n3\t5\t8\t2\n10\t2\t2\t1\n") := by
  obtain ⟨R, hR, h⟩ := C232_totals outside0 sys9 (cmd0 "sort") (cmd0 "uniq") (cmd0_mem (by decide +kernel)) (by decide +kernel) (cmd0_mem (by decide +kernel))
    (by decide +kernel) [.opt "key" (ascii ",expr,a*b"), .pos "input_files" (ascii "t")]
    [.opt "key" (ascii ",expr,a*b"), .opt "agg-post" (ascii "s,b,sum"), .opt "count" (ascii "n,End"), .pos "input_files" (ascii "-")] none
    [.key (ascii ",expr,a*b")] [(ascii "key", ascii ",expr,a*b"), (ascii "agg-post", ascii "s,b,sum"), (ascii "count", ascii "n,End")]
    [ascii "t"] [ascii "a", ascii "b"] [rows9] [.formula product false] [⟨false, ascii "s", ascii "b"⟩] num8 val8 (ascii "n") .stop
    (fun _ => says_plain (by decide +kernel) (by decide +kernel) (by decide +kernel) (by decide +kernel) (by decide +kernel))
    (fun _ => says_plain (by decide +kernel) (by decide +kernel) (by decide +kernel) (by decide +kernel) (by decide +kernel))
    (by unfold Tables; decide +kernel) ⟨by simp, ⟨rfl, text8⟩, by decide, by decide⟩ (by decide)
    { known := by decide +kernel
      some := by simp
      keys := ⟨rfl, text8⟩
      sums := ⟨by decide +kernel, by
        intro x hx
        have : x = (⟨false, ascii "s", ascii "b"⟩, false, ascii "s,b,sum") := by
          rw [show sumSpecs _ = [(false, ascii "s,b,sum")] by decide +kernel] at hx
          simpa using hx
        subst this
        exact ⟨rfl, by decide +kernel, ascii "b", .inl rfl, by decide +kernel, by decide +kernel⟩⟩
      count := count9
      countName := by decide +kernel
      fresh := by
        intro n hn
        have : n ∈ [ascii "a", ascii "b", ascii "s", ascii "n"] := hn
        simp only [List.mem_cons, List.not_mem_nil, or_false] at this
        rcases this with rfl | rfl | rfl | rfl
        · exact one_letter 97 (by unfold Letter; decide)
        · exact one_letter 98 (by unfold Letter; decide)
        · exact one_letter 115 (by unfold Letter; decide)
        · exact one_letter 110 (by unfold Letter; decide)
      distinct := by decide +kernel }
    (fun k hk => (fits8 _ k hk).mem rows9_mem) (by
      intro k hk
      have : k = .formula product false := by simpa using hk.symm
      subst this
      intro r _
      unfold val8
      split <;> decide)
    (goodTable_ab (by decide +kernel)) (by decide +kernel) (by decide +kernel) (by decide +kernel) (by decide +kernel) (by decide +kernel)
    (by intro q hq r hr; rw [List.mem_singleton.1 hq]; exact whole8 r (rows9_mem r hr)) (by decide +kernel) (by decide +kernel)
  have e : R = [[[ascii "3", ascii "5"], [ascii "5", ascii "3"]], [[ascii "10", ascii "2"]]] :=
    hR.unique (askCmp_preorder _ _ _ _) ⟨by decide +kernel, by decide +kernel, by decide +kernel⟩
  rw [h, e]
  congr 1

end Cdx
