import Verif.Proofs.ResitPopulation

/-!
# RESIT with right tests: the order is right, the edges are not (C157, C158)

Population level: linear model without hidden causes, independent non-Gaussian sources, linear regressor.
-/
set_option linter.unusedSectionVars false
set_option autoImplicit false
namespace Verif.Resit
open Finset

variable {n : Nat} {B L X : Nat → Nat → ℚ} {σ : Nat → ℚ} {s : List Nat → Nat → ℚ} {pval : Nat → List Nat → Option ℚ}
  {alpha : ℚ} {order : List Nat} {Bh : Nat → Nat → ℚ}

/-- **C157.** For every acyclic graph: if, among sets of variables containing the causes of their members, the statistic of
variables without effects in the set is smaller than that of the others, `causal_order_` puts causes before effects. -/
theorem C157_order_any_model {E : Nat → Nat → Prop} (hac : Acyclic E) (hE : ∀ a b, E a b → a < n ∧ b < n)
    (hs : ∀ S : List Nat, S.Nodup → (∀ u ∈ S, u < n) → (∀ a b, E a b → b ∈ S → a ∈ S) → ∀ i ∈ S, ∀ j ∈ S,
      (∀ u ∈ S, ¬ E i u) → (∃ u ∈ S, E j u) → s S i < s S j) :
    ∃ order Bh, fit (fun S k => some (s S k)) pval alpha n = some (order, Bh) ∧ IsOrder n order ∧
      ∀ a b, E a b → Before order a b := by
  obtain ⟨order, Bh, h, ho, _⟩ := C31_order_and_matrix (fun S k => some (s S k)) pval alpha n
  exact ⟨order, Bh, h, ho, order_of_sinks hac hE hs h⟩

theorem linear_order (hX : SourceModel n n B L X) (hac : Acyclic (Edge n B 0)) (ht : RightTests n n σ X s pval alpha)
    (h : fit (fun S k => some (s S k)) pval alpha n = some (order, Bh)) : ∀ a b, Edge n B 0 a b → Before order a b := by
  refine order_of_sinks hac (fun a b h => ⟨h.1, h.2.1⟩) ?_ h
  intro S hnd hS hcl i hi j hj hsink ⟨u, hu, hE⟩
  have hS' : ∀ h ∈ S.toFinset, h < n := fun h hh => hS h (List.mem_toFinset.1 hh)
  have hcl' : ∀ a b, Edge n B 0 a b → b ∈ S.toFinset → a ∈ S.toFinset :=
    fun a b hab hb => List.mem_toFinset.2 (hcl a b hab (List.mem_toFinset.1 hb))
  refine ht.stat S i j hnd hS hi hj
    ((indep_iff_sink hX hac hS' hcl' (List.mem_toFinset.2 hi)).2 fun u hu => hsink u (List.mem_toFinset.1 hu)) ?_
  intro hI
  exact (indep_iff_sink hX hac hS' hcl' (List.mem_toFinset.2 hj)).1 hI u (List.mem_toFinset.2 hu) hE

/-- C157: in linear models without hidden causes (no assumption about cancelling effects) right tests give a right order. -/
theorem C157_order (hX : SourceModel n n B L X) (hac : Acyclic (Edge n B 0)) (ht : RightTests n n σ X s pval alpha) :
    ∃ order Bh, fit (fun S k => some (s S k)) pval alpha n = some (order, Bh) ∧ IsOrder n order ∧
      ∀ i j, i < n → j < n → B i j ≠ 0 → Before order j i := by
  obtain ⟨order, Bh, h, ho, _⟩ := C31_order_and_matrix (fun S k => some (s S k)) pval alpha n
  exact ⟨order, Bh, h, ho, fun i j hi hj hB => linear_order hX hac ht h j i ⟨hj, hi, abs_pos.2 hB⟩⟩

/-! ### The edges -/

/-- The row of a variable: the pruned list of its predecessors in the order. -/
theorem fit_row {stat : List Nat → Nat → Option ℚ} (h : fit stat pval alpha n = some (order, Bh)) {t : Nat} (ht : t < n) :
    ∃ P : List Nat, P.Pairwise (· < ·) ∧ (∀ x, x ∈ P ↔ Before order x t) ∧
      ∀ j, Bh t j = if j ∈ pruneParents pval alpha t P P then 1 else 0 := by
  obtain ⟨pi, B', h1, h2, h3⟩ := fit_spec stat pval alpha n
  rw [h1] at h
  simp only [Option.some.injEq, Prod.mk.injEq] at h
  obtain ⟨rfl, rfl⟩ := h
  have hnd : pi.Nodup := h2.nodup_iff.2 List.nodup_range
  obtain ⟨a, b, hq⟩ := List.append_of_mem (h2.mem_iff.2 (List.mem_range.2 ht))
  refine ⟨(List.range n).filter (fun x => decide (x ∈ a)), List.pairwise_lt_range.filter _, ?_, ?_⟩
  · intro x
    rw [List.mem_filter, decide_eq_true_eq]
    constructor
    · rintro ⟨_, hx⟩
      rw [hq]
      exact Before.of_mem_append hx (by simp)
    · intro hb
      have hm := hb.mem_left
      refine ⟨h2.mem_iff.1 hm, ?_⟩
      rw [hq, List.mem_append, List.mem_cons] at hm
      rcases hm with hm | rfl | hm
      · exact hm
      · exact absurd hb (Before.irrefl hnd x)
      · have : Before pi t x := by
          rw [hq]
          exact Before.of_append_right (Before.of_mem_append (l := [t]) (by simp) hm)
        exact absurd (this.trans hnd hb) (Before.irrefl hnd t)
  · intro j
    rw [(h3 a t b hq).2 j]
    by_cases ha : a = []
    · subst ha; simp [pruneParents]
    · rw [if_neg ha]

/-- Predecessors are no effects. -/
theorem pred_facts (hX : SourceModel n n B L X) (hac : Acyclic (Edge n B 0)) (ht : RightTests n n σ X s pval alpha)
    (h : fit (fun S k => some (s S k)) pval alpha n = some (order, Bh)) {u t : Nat} (hb : Before order u t) :
    u < n ∧ u ≠ t ∧ ¬ TrueAncestor n B t u := by
  obtain ⟨_, _, hf, ho, _⟩ := C31_order_and_matrix (fun S k => some (s S k)) pval alpha n
  rw [h] at hf
  simp only [Option.some.injEq, Prod.mk.injEq] at hf
  obtain ⟨rfl, rfl⟩ := hf
  have hlin := linear_order hX hac ht h
  have hanc : ∀ x, TrueAncestor n B t x → Before order t x := by
    intro x hx
    induction hx with
    | single hE => exact hlin _ _ hE
    | tail _ hE ih => exact ih.trans ho.1 (hlin _ _ hE)
  refine ⟨(ho.2 u).1 hb.mem_left, ?_, fun ha => ?_⟩
  · rintro rfl; exact Before.irrefl ho.1 u hb
  · exact Before.irrefl ho.1 u (hb.trans ho.1 (hanc u ha))

theorem above_iff {p : Option ℚ} : above alpha p = true ↔ ∃ q, p = some q ∧ alpha < q := by
  cases p <;> simp [above]

/-- A test about predecessors passes iff the residual is independent. -/
theorem test_iff (hX : SourceModel n n B L X) (hac : Acyclic (Edge n B 0)) (ht : RightTests n n σ X s pval alpha)
    (h : fit (fun S k => some (s S k)) pval alpha n = some (order, Bh)) {t : Nat} (htn : t < n) {ps : List Nat}
    (hne : ps ≠ []) (hnd : ps.Nodup) (hb : ∀ u ∈ ps, Before order u t) :
    above alpha (pval t ps) = true ↔ ResidualIndependent n σ X ps.toFinset t := by
  rw [above_iff]
  refine ht.pval t ps hne hnd (fun u hu => ?_) htn
  obtain ⟨h1, h2, _⟩ := pred_facts hX hac ht h (hb u hu)
  exact ⟨h1, h2⟩

/-- **C158**, when it holds: for a variable `t` with a cause, the reported edges into `t` are the true ones iff, for every
cause `l` of `t`, there are no other earlier variables except superfluous ones of smaller index, or the residual of `t` on
these others is dependent.
Full claim: for every `t`, the edges into `t` are the true ones. -/
theorem C158_edges_partial (hX : SourceModel n n B L X) (hac : Acyclic (Edge n B 0)) (ht : RightTests n n σ X s pval alpha)
    (h : fit (fun S k => some (s S k)) pval alpha n = some (order, Bh)) {t : Nat} (htn : t < n)
    (hpar : ∃ l, l < n ∧ B t l ≠ 0) :
    (∀ j, j < n → Bh t j = if B t j ≠ 0 then 1 else 0) ↔
      ∀ l, l < n → B t l ≠ 0 → ∀ P : Finset Nat,
        (∀ u, u ∈ P ↔ Before order u t ∧ u ≠ l ∧ (u < l → B t u ≠ 0)) → P.Nonempty → ¬ ResidualIndependent n σ X P t := by
  classical
  obtain ⟨P, hsort, hmem, hrow⟩ := fit_row h htn
  have hnd : P.Nodup := hsort.imp fun h => h.ne
  have hlin := linear_order hX hac ht h
  have hPn : ∀ x ∈ P, x < n := fun x hx => (pred_facts hX hac ht h ((hmem x).1 hx)).1
  have hpred : ∀ l, l < n → B t l ≠ 0 → l ∈ P :=
    fun l hl hB => (hmem l).2 (hlin l t ⟨hl, htn, abs_pos.2 hB⟩)
  have hsup : ∀ ps : List Nat, ps.Sublist ([] ++ P) → ps ≠ [] → (∀ g ∈ [] ++ P, B t g ≠ 0 → g ∈ ps) →
      above alpha (pval t ps) = true := by
    intro ps hps hne hall
    have hpb : ∀ u ∈ ps, Before order u t := fun u hu => (hmem u).1 (hps.subset hu)
    rw [test_iff hX hac ht h htn hne (hps.nodup hnd) hpb]
    refine indep_of_missing hX hac htn (fun u hu => pred_facts hX hac ht h (hpb u (List.mem_toFinset.1 hu))) ?_
    intro g hg hgp hB
    exact absurd (List.mem_toFinset.2 (hall g (hpred g hg hB) hB)) hgp
  have key := prune_exact (pval := pval) (alpha := alpha) (t := t) (G := fun l => B t l ≠ 0) P [] hnd (by simp)
    (by obtain ⟨l, hl, hB⟩ := hpar; exact ⟨l, hpred l hl hB, hB⟩) hsup
  simp only [List.nil_append] at key
  have hleft : (∀ j, j < n → Bh t j = if B t j ≠ 0 then 1 else 0) ↔
      ∀ x, x ∈ pruneParents pval alpha t P P ↔ x ∈ P ∧ B t x ≠ 0 := by
    constructor
    · intro hall x
      constructor
      · intro hx
        have hxP := (pruneParents_sublist _ _ _ _ _).subset hx
        refine ⟨hxP, fun h0 => ?_⟩
        have := hall x (hPn x hxP)
        rw [hrow x, if_pos hx, if_neg (by simpa using h0)] at this
        exact one_ne_zero this
      · rintro ⟨hxP, hB⟩
        by_contra hx
        have := hall x (hPn x hxP)
        rw [hrow x, if_neg hx, if_pos hB] at this
        exact zero_ne_one this
    · intro hall j hj
      rw [hrow j]
      by_cases hB : B t j = 0
      · rw [if_neg (fun hc => ((hall j).1 hc).2 hB), if_neg (by simpa using hB)]
      · rw [if_pos ((hall j).2 ⟨hpred j hj hB, hB⟩), if_pos hB]
  rw [hleft, key]
  have hset : ∀ a l b, P = a ++ l :: b → ∀ u, u ∈ a.filter (fun l => B t l ≠ 0) ++ b ↔
      Before order u t ∧ u ≠ l ∧ (u < l → B t u ≠ 0) := by
    intro a l b hs u
    rw [hs] at hsort
    obtain ⟨h1, h2, h3⟩ := List.pairwise_append.1 hsort
    rw [← hmem, hs, List.mem_append, List.mem_filter, decide_eq_true_eq, List.mem_append, List.mem_cons]
    constructor
    · rintro (⟨hu, hB⟩ | hu)
      · have := h3 u hu l (by simp)
        exact ⟨Or.inl hu, by omega, fun _ => hB⟩
      · have := (List.pairwise_cons.1 h2).1 u hu
        exact ⟨Or.inr (Or.inr hu), by omega, fun hl => by omega⟩
    · rintro ⟨hu | rfl | hu, hne, hlt⟩
      · exact Or.inl ⟨hu, hlt (h3 u hu l (by simp))⟩
      · exact absurd rfl hne
      · exact Or.inr hu
  have hndl : ∀ a l b, P = a ++ l :: b → (a.filter (fun l => B t l ≠ 0) ++ b).Nodup := by
    intro a l b hs
    refine hnd.sublist ?_
    rw [hs]
    exact List.Sublist.append List.filter_sublist (List.sublist_cons_self _ _)
  constructor
  · intro hall l hl hB Q hQ hne
    obtain ⟨a, b, hs⟩ := List.append_of_mem (hpred l hl hB)
    have hQe : Q = (a.filter (fun l => B t l ≠ 0) ++ b).toFinset := by
      ext u; rw [hQ u, List.mem_toFinset, hset a l b hs u]
    obtain ⟨u, hu⟩ := hne
    have hnil : a.filter (fun l => B t l ≠ 0) ++ b ≠ [] := by
      refine List.ne_nil_of_mem (a := u) ?_
      rw [hQe] at hu
      exact List.mem_toFinset.1 hu
    rcases hall a l b hs hB with h0 | h0
    · exact absurd h0 hnil
    · rw [hQe, ← test_iff hX hac ht h htn hnil (hndl a l b hs) (fun u hu => ((hset a l b hs u).1 hu).1), h0]
      simp
  · intro hall a l b hs hB
    by_cases hnil : a.filter (fun l => B t l ≠ 0) ++ b = []
    · exact Or.inl hnil
    · right
      have := hall l (hPn l (by rw [hs]; simp)) hB (a.filter (fun l => B t l ≠ 0) ++ b).toFinset
        (fun u => by rw [List.mem_toFinset]; exact hset a l b hs u)
        (by obtain ⟨u, hu⟩ := List.exists_mem_of_ne_nil _ hnil; exact ⟨u, List.mem_toFinset.2 hu⟩)
      rw [← test_iff hX hac ht h htn hnil (hndl a l b hs) (fun u hu => ((hset a l b hs u).1 hu).1)] at this
      simpa using this

/-- C158 is false: whenever two or more variables precede `t`, at least one of them has no reported edge into `t`, so if all
of them are causes of `t` a true edge is missing. -/
theorem C158_all_causes_violated (hX : SourceModel n n B L X) (hac : Acyclic (Edge n B 0))
    (ht : RightTests n n σ X s pval alpha)
    (h : fit (fun S k => some (s S k)) pval alpha n = some (order, Bh)) {t a b : Nat} (htn : t < n)
    (ha : Before order a t) (hb : Before order b t) (hab : a ≠ b) : ∃ u, Before order u t ∧ Bh t u = 0 := by
  classical
  obtain ⟨P, hsort, hmem, hrow⟩ := fit_row h htn
  have hnd : P.Nodup := hsort.imp fun h => h.ne
  have hlin := linear_order hX hac ht h
  by_contra hcon
  push Not at hcon
  have hall : ∀ u ∈ P, u ∈ pruneParents pval alpha t P P := by
    intro u hu
    by_contra hc
    exact hcon u ((hmem u).1 hu) (by rw [hrow u, if_neg hc])
  obtain ⟨_, _, hf, ho, _⟩ := C31_order_and_matrix (fun S k => some (s S k)) pval alpha n
  rw [h] at hf
  simp only [Option.some.injEq, Prod.mk.injEq] at hf
  obtain ⟨rfl, rfl⟩ := hf
  -- the last variable before `t`
  obtain ⟨p, hpP, hplast⟩ : ∃ p ∈ P, ∀ u ∈ P, u ≠ p → Before order u p := by
    have hac' : Acyclic (fun x y => Before order y x) := by
      refine acyclic_flip (E := fun x y => Before order x y) ?_
      exact acyclic_of_before ho.1 fun a b h => h
    obtain ⟨p, hp, hmin⟩ := exists_minimal hac' P (List.ne_nil_of_mem ((hmem a).2 ha))
    refine ⟨p, hp, fun u hu hup => ?_⟩
    rcases Before.total ((hmem u).1 hu).mem_left ((hmem p).1 hp).mem_left hup with h | h
    · exact h
    · exact absurd h (hmin u hu)
  obtain ⟨ps, e1, e2, e3, e4⟩ := (pruneParents_tests pval alpha t P P hnd hnd (fun _ h => h) p hpP).2 (hall p hpP)
  have hpsmem : ∀ u, u ∈ ps ↔ u ∈ P ∧ u ≠ p := by
    intro u
    constructor
    · intro hu; exact ⟨e1.subset hu, by rintro rfl; exact e2 hu⟩
    · rintro ⟨hu, hup⟩; exact (e4 u (hall u hu)).resolve_left hup
  have hne : ps ≠ [] := by
    by_cases hap : a = p
    · exact List.ne_nil_of_mem ((hpsmem b).2 ⟨(hmem b).2 hb, by rw [← hap]; exact hab.symm⟩)
    · exact List.ne_nil_of_mem ((hpsmem a).2 ⟨(hmem a).2 ha, hap⟩)
  have hpb := (hmem p).1 hpP
  have hpn := (pred_facts hX hac ht h hpb).1
  have hanc : ∀ u, TrueAncestor n B p u → Before order p u := by
    intro x hx
    induction hx with
    | single hE => exact hlin _ _ hE
    | tail _ hE ih => exact ih.trans ho.1 (hlin _ _ hE)
  have hI : ResidualIndependent n σ X ps.toFinset t := by
    refine indep_without_last hX hac hpn htn ?_ ?_ ?_
    · intro u hu
      obtain ⟨h1, h2⟩ := (hpsmem u).1 (List.mem_toFinset.1 hu)
      obtain ⟨g1, g2, g3⟩ := pred_facts hX hac ht h ((hmem u).1 h1)
      refine ⟨g1, g2, h2, g3, fun hpu => ?_⟩
      exact Before.irrefl ho.1 u ((hplast u h1 h2).trans ho.1 (hanc u hpu))
    · intro g hg hgp hB
      exact List.mem_toFinset.2 ((hpsmem g).2 ⟨(hmem g).2 (hlin g t ⟨hg, htn, abs_pos.2 hB⟩), hgp⟩)
    · intro g hg hB
      have hgp := hlin g p ⟨hg, hpn, abs_pos.2 hB⟩
      refine List.mem_toFinset.2 ((hpsmem g).2 ⟨(hmem g).2 (hgp.trans ho.1 hpb), ?_⟩)
      rintro rfl
      exact Before.irrefl ho.1 g hgp
  have := (test_iff hX hac ht h htn hne (e1.nodup hnd) (fun u hu => (hmem u).1 (e1.subset hu))).2 hI
  rcases e3 with h0 | h0
  · exact hne h0
  · rw [this] at h0; cases h0

/-- All predecessors of `t` that are causes of `t` are independent of the other predecessors: exactly one edge into `t`
remains, from the predecessor with the largest index. -/
theorem one_edge (hX : SourceModel n n B L X) (hac : Acyclic (Edge n B 0)) (ht : RightTests n n σ X s pval alpha)
    (h : fit (fun S k => some (s S k)) pval alpha n = some (order, Bh)) {t : Nat} (htn : t < n)
    (hind : ∀ a u, Before order a t → Before order u t → a ≠ u → B t a ≠ 0 → ShareNoSource n (X a) (X u)) (j : Nat) :
    ((Before order j t ∧ ∀ u, Before order u t → u ≤ j) → Bh t j = 1) ∧
      (¬ (Before order j t ∧ ∀ u, Before order u t → u ≤ j) → Bh t j = 0) := by
  obtain ⟨P, hsort, hmem, hrow⟩ := fit_row h htn
  have hnd : P.Nodup := hsort.imp fun h => h.ne
  have := prune_all (pval := pval) (alpha := alpha) (t := t) P hnd ?_ j
  · have hiff : P.getLast? = some j ↔ (Before order j t ∧ ∀ u, Before order u t → u ≤ j) := ?_
    · rw [← hiff, ← this, hrow j]
      exact ⟨fun h => if_pos h, fun h => if_neg h⟩
    constructor
    · intro hl
      obtain ⟨q, rfl⟩ := List.getLast?_eq_some_iff.1 hl
      refine ⟨(hmem j).1 (by simp), fun u hu => ?_⟩
      rcases List.mem_append.1 ((hmem u).2 hu) with hq | hq
      · exact le_of_lt ((List.pairwise_append.1 hsort).2.2 u hq j (by simp))
      · exact le_of_eq (List.mem_singleton.1 hq)
    · rintro ⟨hj, hmax⟩
      have hjP := (hmem j).2 hj
      obtain ⟨q, r, rfl⟩ := List.append_of_mem hjP
      cases r with
      | nil => simp
      | cons y r =>
        have h1 := hmax y ((hmem y).1 (by simp))
        have h2 : j < y := by
          have := (List.pairwise_append.1 hsort).2.1
          exact (List.pairwise_cons.1 this).1 y (by simp)
        omega
  · intro ps hps hne
    have hpb : ∀ u ∈ ps, Before order u t := fun u hu => (hmem u).1 (hps.subset hu)
    rw [test_iff hX hac ht h htn hne (hps.nodup hnd) hpb]
    refine indep_of_missing hX hac htn (fun u hu => pred_facts hX hac ht h (hpb u (List.mem_toFinset.1 hu))) ?_
    intro g hg hgp hB u hu
    exact hind g u (linear_order hX hac ht h g t ⟨hg, htn, abs_pos.2 hB⟩) (hpb u (List.mem_toFinset.1 hu))
      (by rintro rfl; exact hgp hu) hB

/-- C158 is false: a variable without causes that is not the first of the order always gets exactly one edge, a false one,
from the earlier variable with the largest index. -/
theorem C158_false_edge_violated (hX : SourceModel n n B L X) (hac : Acyclic (Edge n B 0))
    (ht : RightTests n n σ X s pval alpha)
    (h : fit (fun S k => some (s S k)) pval alpha n = some (order, Bh)) {t : Nat} (htn : t < n)
    (hroot : ∀ l, l < n → B t l = 0) (hfirst : order.head? ≠ some t) :
    ∃ j, j < n ∧ B t j = 0 ∧ Bh t j = 1 ∧ Before order j t ∧ (∀ u, Before order u t → u ≤ j) ∧
      ∀ i, i ≠ j → Bh t i = 0 := by
  have hone := one_edge hX hac ht h htn (fun a u ha _ _ hB => absurd (hroot a (pred_facts hX hac ht h ha).1) hB)
  obtain ⟨j, hj⟩ := C31_keeps_a_parent h t htn hfirst
  have hc : Before order j t ∧ ∀ u, Before order u t → u ≤ j := by
    by_contra hc; rw [(hone j).2 hc] at hj; exact zero_ne_one hj
  have hjn := (pred_facts hX hac ht h hc.1).1
  refine ⟨j, hjn, hroot j hjn, hj, hc.1, hc.2, fun i hij => ?_⟩
  refine (hone i).2 ?_
  rintro ⟨h1, h2⟩
  exact hij (le_antisymm (hc.2 i h1) (h2 j hc.1))

/-- C158 is false: a cause of `t` that is independent of the other earlier variables loses its edge if it has the smallest
index among them, because the residual is compared with the remaining predictors only. -/
theorem C158_lost_edge_violated (hX : SourceModel n n B L X) (hac : Acyclic (Edge n B 0))
    (ht : RightTests n n σ X s pval alpha)
    (h : fit (fun S k => some (s S k)) pval alpha n = some (order, Bh)) {l t : Nat} (hl : l < n) (htn : t < n)
    (hB : B t l ≠ 0) (hmin : ∀ u, Before order u t → l ≤ u) (hother : ∃ u, Before order u t ∧ u ≠ l)
    (hind : ∀ u, Before order u t → u ≠ l → ShareNoSource n (X l) (X u)) : Bh t l = 0 := by
  obtain ⟨P, hsort, hmem, hrow⟩ := fit_row h htn
  have hlP := (hmem l).2 (linear_order hX hac ht h l t ⟨hl, htn, abs_pos.2 hB⟩)
  have hP : ∃ ls, P = l :: ls := by
    cases P with
    | nil => cases hlP
    | cons y ls =>
      rcases List.mem_cons.1 hlP with rfl | hx
      · exact ⟨ls, rfl⟩
      · have h1 := (List.pairwise_cons.1 hsort).1 l hx
        have h2 := hmin y ((hmem y).1 (by simp))
        omega
  obtain ⟨ls, rfl⟩ := hP
  have hnd : (l :: ls).Nodup := hsort.imp fun h => h.ne
  have hne : ls ≠ [] := by
    obtain ⟨u, hu, hul⟩ := hother
    rcases List.mem_cons.1 ((hmem u).2 hu) with h | h
    · exact absurd h hul
    · exact List.ne_nil_of_mem h
  have hlb : ∀ u ∈ ls, Before order u t := fun u hu => (hmem u).1 (by simp [hu])
  rw [hrow l, if_neg]
  refine prune_first hnd hne ?_
  rw [test_iff hX hac ht h htn hne (List.nodup_cons.1 hnd).2 hlb]
  refine indep_of_missing hX hac htn (fun u hu => pred_facts hX hac ht h (hlb u (List.mem_toFinset.1 hu))) ?_
  intro g hg hgp hgB u hu
  have hgP := (hmem g).2 (linear_order hX hac ht h g t ⟨hg, htn, abs_pos.2 hgB⟩)
  rcases List.mem_cons.1 hgP with rfl | hg'
  · exact hind u (hlb u (List.mem_toFinset.1 hu)) (by rintro rfl; exact (List.nodup_cons.1 hnd).1 (List.mem_toFinset.1 hu))
  · exact absurd (List.mem_toFinset.2 hg') hgp

/-- C158 is false: when the variables before `t` are independent of each other, only one of its edges is reported, no matter
how many causes it has. -/
theorem C158_collider_violated (hX : SourceModel n n B L X) (hac : Acyclic (Edge n B 0))
    (ht : RightTests n n σ X s pval alpha)
    (h : fit (fun S k => some (s S k)) pval alpha n = some (order, Bh)) {t a b : Nat} (htn : t < n) (hb : b < n)
    (hab : a < b) (hBa : B t a ≠ 0) (hBb : B t b ≠ 0)
    (hind : ∀ x y, Before order x t → Before order y t → x ≠ y → ShareNoSource n (X x) (X y)) :
    B t a ≠ 0 ∧ Bh t a = 0 := by
  refine ⟨hBa, (one_edge hX hac ht h htn (fun x y hx hy hxy _ => hind x y hx hy hxy) a).2 ?_⟩
  rintro ⟨_, hmax⟩
  have := hmax b (linear_order hX hac ht h b t ⟨hb, htn, abs_pos.2 hBb⟩)
  omega

/-! ### Right tests exist -/

/-- Independence of the residual on the listed variables, computed. -/
def popIndep (m : Nat) (σ : Nat → ℚ) (X : Nat → Nat → ℚ) (ps : List Nat) (t : Nat) : Bool :=
  ps.all (fun u => (List.range m).all (fun k => decide (residual m σ X ps (X t) k = 0 ∨ X u k = 0)))

theorem popIndep_iff {m : Nat} (hσ : ∀ k, k < m → 0 < σ k) (ps : List Nat) (t : Nat) :
    popIndep m σ X ps t = true ↔ ResidualIndependent m σ X ps.toFinset t := by
  have hspec := residual_spec hσ X ps (X t)
  unfold popIndep ResidualIndependent
  simp only [List.all_eq_true, List.mem_range, decide_eq_true_eq]
  constructor
  · intro h
    exact ⟨_, hspec, fun u hu k hk => h u (List.mem_toFinset.1 hu) k hk⟩
  · rintro ⟨r, hr, hs⟩ u hu k hk
    rw [hspec.unique hσ hr k hk]
    exact hs u (List.mem_toFinset.2 hu) k hk

/-- Statistic 0 for independent residuals, 1 for others. -/
def popStat (m : Nat) (σ : Nat → ℚ) (X : Nat → Nat → ℚ) (S : List Nat) (k : Nat) : ℚ :=
  if popIndep m σ X (S.filter (fun u => decide (u ≠ k))) k then 0 else 1

/-- p-value 1 for independent residuals, 0 for others. -/
def popPval (m : Nat) (σ : Nat → ℚ) (X : Nat → Nat → ℚ) (t : Nat) (ps : List Nat) : Option ℚ :=
  some (if popIndep m σ X ps t then 1 else 0)

theorem popTests_right {m : Nat} (hσ : ∀ k, k < m → 0 < σ k) (n : Nat) (X : Nat → Nat → ℚ) :
    RightTests n m σ X (popStat m σ X) (popPval m σ X) (1 / 100) := by
  have hset : ∀ (S : List Nat) (k : Nat), (S.filter (fun u => decide (u ≠ k))).toFinset = S.toFinset.erase k := by
    intro S k; ext u; simp only [List.mem_toFinset, List.mem_filter, decide_eq_true_eq, mem_erase]; tauto
  refine ⟨?_, ?_⟩
  · intro S i j _ _ _ _ hi hj
    rw [← hset, ← popIndep_iff hσ] at hi hj
    unfold popStat
    rw [if_pos hi, if_neg hj]
    norm_num
  · intro t ps _ _ _ _
    rw [← popIndep_iff hσ]
    unfold popPval
    (cases popIndep m σ X ps t <;> simp); norm_num

/-! ### Concrete cases meeting the hypotheses -/

/-- `x1 = x0 + e1`, `x2` independent. -/
def pairB : Nat → Nat → ℚ := fun i j => if i = 1 ∧ j = 0 then 1 else 0

/-- Coefficients of the three variables on the three errors. -/
def pairX : Nat → Nat → ℚ := fun i k => if i = k then 1 else if i = 1 ∧ k = 0 then 1 else 0

theorem pair_model : SourceModel 3 3 pairB (fun _ _ => 0) pairX := by
  refine ⟨le_refl 3, ?_⟩
  decide +kernel

theorem pair_acyclic : Acyclic (Edge 3 pairB 0) := by
  refine acyclic_of_before (l := [0, 1, 2]) (by decide) ?_
  rintro a b ⟨_, _, h⟩
  unfold pairB at h
  split at h
  · rename_i hh; obtain ⟨rfl, rfl⟩ := hh; exact ⟨[], [], [2], rfl⟩
  · simp at h

/-- C158, an instance: the only true edge 0 → 1 is missing and both reported edges are false, although all tests are right. -/
theorem C158_all_edges_wrong :
    (fit (fun S k => some (popStat 3 (fun _ => 1) pairX S k)) (popPval 3 (fun _ => 1) pairX) (1 / 100) 3).map
      (fun r => (r.1, (List.range 3).map fun i => (List.range 3).map fun j => r.2 i j)) =
      some ([2, 0, 1], [[0, 0, 1], [0, 0, 1], [0, 0, 0]]) := by decide +kernel

example : ∃ order Bh, fit (fun S k => some (popStat 3 (fun _ => 1) pairX S k)) (popPval 3 (fun _ => 1) pairX) (1 / 100) 3 =
    some (order, Bh) ∧ IsOrder 3 order ∧ ∀ i j, i < 3 → j < 3 → pairB i j ≠ 0 → Before order j i :=
  C157_order (σ := fun _ => 1) pair_model pair_acyclic (popTests_right (fun _ _ => one_pos) 3 pairX)

/-- `x0 → x1 → x2`, `x0 → x2`. -/
def fullX : Nat → Nat → ℚ := fun i k =>
  if i = k then 1 else if i = 1 ∧ k = 0 then 1 else if i = 2 ∧ k = 1 then 1 else if i = 2 ∧ k = 0 then 2 else 0

/-- The edge from `x1` to `x2` is missing. -/
example : (fit (fun S k => some (popStat 3 (fun _ => 1) fullX S k)) (popPval 3 (fun _ => 1) fullX) (1 / 100) 3).map
      (fun r => (r.1, (List.range 3).map fun i => (List.range 3).map fun j => r.2 i j)) =
      some ([0, 1, 2], [[0, 0, 0], [1, 0, 0], [1, 0, 0]]) := by decide +kernel

/-- A chain `x0 → x1 → x2` is recovered. -/
example : (fit (fun S k => some (popStat 3 (fun _ => 1) (fun i k => if k ≤ i then 1 else 0) S k))
      (popPval 3 (fun _ => 1) (fun i k => if k ≤ i then 1 else 0)) (1 / 100) 3).map
      (fun r => (r.1, (List.range 3).map fun i => (List.range 3).map fun j => r.2 i j)) =
      some ([0, 1, 2], [[0, 0, 0], [1, 0, 0], [0, 1, 0]]) := by decide +kernel

/-- A collider `x0 → x2 ← x1`: one of the two edges is missing. -/
example : (fit (fun S k => some (popStat 3 (fun _ => 1) (fun i k => if i = k ∨ i = 2 then 1 else 0) S k))
      (popPval 3 (fun _ => 1) (fun i k => if i = k ∨ i = 2 then 1 else 0)) (1 / 100) 3).map
      (fun r => (r.1, r.2 2 0, r.2 2 1)) = some ([1, 0, 2], 0, 1) := by decide +kernel

end Verif.Resit
