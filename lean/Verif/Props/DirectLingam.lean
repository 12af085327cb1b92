import Verif.Model.PriorKnowledge
import Verif.Proofs.DirectLingam
import Mathlib.Tactic.FinCases

/-!
# DirectLiNGAM: causal order, adjacency matrix and prior knowledge (C01–C08, C53–C57)

All theorems quantify over the `score` oracle (every behaviour of the independence measure on every data set) and over
the `lasso` oracle (every outcome of the regressions).
-/
set_option linter.unusedSectionVars false
set_option autoImplicit false
namespace Verif.Direct
variable {K : Type} [Field K]

/-- C01: without prior knowledge `fit` succeeds and `causal_order_` is a permutation of the columns. -/
theorem C01_order_is_permutation (soft : Bool) (measure : Measure) (score : Score) (lasso : Lasso K) (n : Nat) :
    ∃ order B, fit ⟨none, soft, measure⟩ score lasso n = .ok (order, B) ∧ IsOrder n order := by
  obtain ⟨order, h⟩ := fitOrder_none_total (cfg := ⟨none, soft, measure⟩) (score := score) (n := n) rfl
  exact ⟨order, _, fit_of_order lasso h, fitOrder_isOrder h⟩

/-- C01, with prior knowledge: whenever `fit` returns, `causal_order_` is a permutation. -/
theorem C01_order_is_permutation_pk {cfg : Config} {score : Score} {lasso : Lasso K} {n : Nat} {order : List Nat}
    {B : Nat → Nat → K} (h : fit cfg score lasso n = .ok (order, B)) : IsOrder n order :=
  fitOrder_isOrder (fit_ok h).1

/-- C02: edges follow the causal order. -/
theorem C02_edges_follow_order {cfg : Config} {score : Score} {lasso : Lasso K} {n : Nat} {order : List Nat}
    {B : Nat → Nat → K} (h : fit cfg score lasso n = .ok (order, B)) (i j : Nat) (hB : B i j ≠ 0) :
    Before order j i := by
  rw [(fit_ok h).2] at hB
  exact estimateAdj_before hB

/-- C02: the graph of the result has no directed cycle (for every threshold `≥ 0`). -/
theorem C02_acyclic [LinearOrder K] [IsStrictOrderedRing K] {cfg : Config} {score : Score} {lasso : Lasso K} {n : Nat}
    {order : List Nat} {B : Nat → Nat → K} (h : fit cfg score lasso n = .ok (order, B)) {thr : K} (h0 : 0 ≤ thr) :
    Acyclic (Edge n B thr) := by
  refine acyclic_of_before (C01_order_is_permutation_pk h).1 ?_
  rintro a b ⟨_, _, hw⟩
  refine C02_edges_follow_order h b a ?_
  intro he
  rw [he, abs_zero] at hw
  exact absurd hw (not_lt.2 h0)

/-- C02: the diagonal is zero. -/
theorem C02_diagonal_zero {cfg : Config} {score : Score} {lasso : Lasso K} {n : Nat} {order : List Nat}
    {B : Nat → Nat → K} (h : fit cfg score lasso n = .ok (order, B)) (i : Nat) : B i i = 0 := by
  by_contra hc
  exact Before.irrefl (C01_order_is_permutation_pk h).1 i (C02_edges_follow_order h i i hc)

/-- C03: prior knowledge zeros are never estimated as direct edges (hard or soft, every measure). -/
theorem C03_prior_zero_no_edge {cfg : Config} {pk : PK} (hpk : cfg.pk = some pk) {score : Score} {lasso : Lasso K}
    {n : Nat} {order : List Nat} {B : Nat → Nat → K} (h : fit cfg score lasso n = .ok (order, B)) (i j : Nat)
    (hz : pk i j = 0) : B i j = 0 := by
  by_cases hij : i = j
  · subst hij; exact C02_diagonal_zero h i
  · by_contra hc
    rw [(fit_ok h).2] at hc
    exact (estimateAdj_apply _ _ _ _ _ hc).2 pk hpk hij hz

/-- C04: hard prior knowledge is respected by the order (measures `pwling` and `kernel`). -/
theorem C04_hard_prior_respected {cfg : Config} {pk : PK} (hpk : cfg.pk = some pk) (hs : cfg.soft = false)
    (hm : cfg.measure ≠ .fast) {score : Score} {lasso : Lasso K} {n : Nat} {order : List Nat} {B : Nat → Nat → K}
    (h : fit cfg score lasso n = .ok (order, B)) (i j : Nat) (hi : i < n) (hj : j < n) :
    (pk i j = 1 → Before order j i) ∧ (pk i j = 0 → pk j i ≠ 0 → Before order i j) := by
  have key := fitOrder_hard_respects hpk hs hm (fit_ok h).1
  exact ⟨fun h1 => key j i ⟨hj, hi, Or.inl h1⟩, fun h0 h1 => key i j ⟨hi, hj, Or.inr ⟨h0, h1⟩⟩⟩

/-- C05: with hard prior knowledge (measures `pwling` and `kernel`) `fit` raises exactly when the precedence relation
carried by the matrix has a cycle. -/
theorem C05_hard_prior_fails_iff_cyclic {cfg : Config} {pk : PK} (hpk : cfg.pk = some pk) (hs : cfg.soft = false)
    (hm : cfg.measure ≠ .fast) (score : Score) (lasso : Lasso K) (n : Nat) :
    (∃ e, fit cfg score lasso n = .error e) ↔ ¬ Acyclic (MustPrecede n pk) := by
  constructor
  · rintro ⟨e, he⟩ hac
    obtain ⟨order, ho⟩ := fitOrder_hard_total (score := score) hpk hs hac
    simp [fit, ho] at he
  · intro hcyc
    cases hf : fit cfg score lasso n with
    | error e => exact ⟨e, rfl⟩
    | ok r =>
      obtain ⟨order, B⟩ := r
      exact absurd (acyclic_of_before (C01_order_is_permutation_pk hf).1
        (fitOrder_hard_respects hpk hs hm (fit_ok hf).1)) hcyc

/-- C06: with soft prior knowledge `fit` succeeds whenever the requested paths do not contradict each other. -/
theorem C06_soft_prior_succeeds {cfg : Config} {pk : PK} (hpk : cfg.pk = some pk) (hs : cfg.soft = true)
    (score : Score) (lasso : Lasso K) (n : Nat) (hac : Acyclic (PathRequested n pk)) :
    ∃ order B, fit cfg score lasso n = .ok (order, B) ∧ IsOrder n order := by
  obtain ⟨order, h⟩ := fitOrder_soft_total (score := score) hpk hs hac
  exact ⟨order, _, fit_of_order lasso h, fitOrder_isOrder h⟩

/-- `0 → 1` and `1 → 0` are both requested. -/
def contradictory : PK := fun i j => if (i = 0 ∧ j = 1) ∨ (i = 1 ∧ j = 0) then 1 else -1

/-- C06: contradicting paths can make the soft ordering raise (`argmax` of an empty list), whatever the data. -/
theorem C06_soft_prior_can_fail (score : Score) (lasso : Lasso K) (measure : Measure) (hm : measure ≠ .fast) :
    fit ⟨some contradictory, true, measure⟩ score lasso 2 = .error .emptyArgmax := by
  have hc : (searchCandidate ⟨some contradictory, true, measure⟩ [] [0, 1]).1 = [] := by
    cases measure <;> decide +kernel
  have h0 : List.range 2 = [0, 1] := rfl
  simp [fit, fitOrder, h0, orderLoop, search_eq_none (score := score) (K := []) hm hc]

/-- C06: with soft prior knowledge every step takes the best (smallest index on ties) of the variables that may come
next: the remaining variables known to be exogenous among the remaining ones, or, if there are none, those not known to
be endogenous or a sink; the score is told which remaining variables are known to receive nothing from a candidate. -/
theorem C06_soft_step_takes_best_candidate {cfg : Config} {pk : PK} (hpk : cfg.pk = some pk) (hs : cfg.soft = true)
    (hm : cfg.measure ≠ .fast) {score : Score} {s : List Nat → List Nat → List Nat → List Nat → Nat → ℚ}
    (hnan : ∀ K U Uc Vj i, score K U Uc Vj i = some (s K U Uc Vj i)) {lasso : Lasso K} {n : Nat} {order : List Nat}
    {B : Nat → Nat → K} (h : fit cfg score lasso n = .ok (order, B)) {pre post : List Nat} {m : Nat}
    (he : order = pre ++ m :: post) :
    ∃ U Uc Vj : List Nat, U.Pairwise (· < ·) ∧ (∀ x, x ∈ U ↔ x < n ∧ x ∉ pre) ∧ Uc.Pairwise (· < ·) ∧
      (∀ x, x ∈ Uc ↔ SoftCandidate n pk pre x) ∧ Vj.Pairwise (· < ·) ∧ (∀ x, x ∈ Vj ↔ SoftUntouched n pk pre x) ∧
      m ∈ Uc ∧ ∀ x ∈ Uc, ¬ Beats cfg.measure (s pre U Uc Vj x) (s pre U Uc Vj m) ∧
        (x < m → Beats cfg.measure (s pre U Uc Vj m) (s pre U Uc Vj x)) :=
  fitOrder_soft_step hpk hnan hm hs (fit_ok h).1 he

/-! ### `make_prior_knowledge` -/

/-- All indices mentioned in the request are valid. -/
def ValidRequest (n : Nat) (exo sinks : List Nat) (paths noPaths : List (Nat × Nat)) : Prop :=
  (∀ v ∈ exo, v < n) ∧ (∀ v ∈ sinks, v < n) ∧ (∀ p ∈ paths, p.1 < n ∧ p.2 < n) ∧ ∀ p ∈ noPaths, p.1 < n ∧ p.2 < n

theorem foldlM_setCell {n : Nat} {v : Int} (l : List (Nat × Nat)) (pk : PK) :
    l.foldlM (fun pk p => setCell n p.2 p.1 v pk) pk =
      if ∀ p ∈ l, p.1 < n ∧ p.2 < n then some (fun i j => if (j, i) ∈ l then v else pk i j) else none := by
  induction l generalizing pk with
  | nil => simp
  | cons p l ih =>
    obtain ⟨a, b⟩ := p
    rw [List.foldlM_cons]
    by_cases h : b < n ∧ a < n
    · have e : setCell n b a v pk = some (fun i j => if i = b ∧ j = a then v else pk i j) := by
        simp [setCell, h]
      simp only [e, Option.bind_eq_bind, Option.bind_some, ih, List.forall_mem_cons, h, and_self, true_and]
      split
      · congr 1
        funext i j
        by_cases h1 : (j, i) ∈ l
        · simp [h1]
        · by_cases h2 : i = b ∧ j = a
          · simp [h2]
          · have : (j, i) ≠ (a, b) := fun h => h2 ⟨(Prod.mk.inj h).2, (Prod.mk.inj h).1⟩
            simp [h1, h2]
            tauto
      · rfl
    · have : ¬ ∀ p ∈ (a, b) :: l, p.1 < n ∧ p.2 < n := by
        intro hall
        have := hall (a, b) (by simp)
        exact h ⟨this.2, this.1⟩
      simp only [setCell, if_neg h, if_neg this]
      rfl

theorem foldlM_col {n : Nat} (l : List Nat) (pk : PK) :
    l.foldlM (fun (pk : PK) v => if v < n then some (fun i j => if j = v then 0 else pk i j) else none) pk =
      if ∀ v ∈ l, v < n then some (fun i j => if j ∈ l then 0 else pk i j) else none := by
  induction l generalizing pk with
  | nil => simp
  | cons a l ih =>
    rw [List.foldlM_cons]
    by_cases h : a < n
    · simp only [h, if_true, Option.bind_eq_bind, Option.bind_some, ih, List.forall_mem_cons, true_and]
      split
      · congr 1
        funext i j
        by_cases h1 : j ∈ l <;> by_cases h2 : j = a <;> simp [h1, h2]
      · rfl
    · have : ¬ ∀ v ∈ a :: l, v < n := fun hall => h (hall a (by simp))
      simp only [if_neg h, if_neg this]
      rfl

theorem foldlM_row {n : Nat} (l : List Nat) (pk : PK) :
    l.foldlM (fun (pk : PK) v => if v < n then some (fun i j => if i = v then 0 else pk i j) else none) pk =
      if ∀ v ∈ l, v < n then some (fun i j => if i ∈ l then 0 else pk i j) else none := by
  induction l generalizing pk with
  | nil => simp
  | cons a l ih =>
    rw [List.foldlM_cons]
    by_cases h : a < n
    · simp only [h, if_true, Option.bind_eq_bind, Option.bind_some, ih, List.forall_mem_cons, true_and]
      split
      · congr 1
        funext i j
        by_cases h1 : i ∈ l <;> by_cases h2 : i = a <;> simp [h1, h2]
      · rfl
    · have : ¬ ∀ v ∈ a :: l, v < n := fun hall => h (hall a (by simp))
      simp only [if_neg h, if_neg this]
      rfl

/-- C07: `make_prior_knowledge` fails exactly on invalid indices and otherwise encodes exactly the request, exogenous
and sink requests overriding paths, paths overriding no-paths. -/
theorem C07_make_prior_knowledge (n : Nat) (exo sinks : List Nat) (paths noPaths : List (Nat × Nat)) :
    (¬ ValidRequest n exo sinks paths noPaths → makePriorKnowledge n exo sinks paths noPaths = none) ∧
    (ValidRequest n exo sinks paths noPaths → ∃ pk, makePriorKnowledge n exo sinks paths noPaths = some pk ∧
      ∀ i j, (i = j → pk i j = -1) ∧
        (i ≠ j → (i ∈ exo ∨ j ∈ sinks) → pk i j = 0) ∧
        (i ≠ j → i ∉ exo → j ∉ sinks → (j, i) ∈ paths → pk i j = 1) ∧
        (i ≠ j → i ∉ exo → j ∉ sinks → (j, i) ∉ paths → (j, i) ∈ noPaths → pk i j = 0) ∧
        (i ≠ j → i ∉ exo → j ∉ sinks → (j, i) ∉ paths → (j, i) ∉ noPaths → pk i j = -1)) := by
  unfold makePriorKnowledge ValidRequest
  simp only [foldlM_setCell, foldlM_col, foldlM_row]
  constructor
  · intro h
    by_cases h1 : ∀ p ∈ noPaths, p.1 < n ∧ p.2 < n
    · by_cases h2 : ∀ p ∈ paths, p.1 < n ∧ p.2 < n
      · by_cases h3 : ∀ v ∈ sinks, v < n
        · by_cases h4 : ∀ v ∈ exo, v < n
          · exact absurd ⟨h4, h3, h2, h1⟩ h
          · simp [if_pos h1, if_pos h2, if_pos h3, if_neg h4]
        · simp [if_pos h1, if_pos h2, if_neg h3]
      · simp [if_pos h1, if_neg h2]
    · simp [if_neg h1]
  · rintro ⟨h4, h3, h2, h1⟩
    simp only [if_pos h1, if_pos h2, if_pos h3, if_pos h4, Option.bind_eq_bind, Option.bind_some, Option.pure_def,
      Option.some.injEq, exists_eq_left']
    intro i j
    refine ⟨fun h => by simp [h], fun h h' => ?_, fun h h5 h6 h7 => ?_, fun h h5 h6 h7 h8 => ?_,
      fun h h5 h6 h7 h8 => ?_⟩
    · by_cases h5 : i ∈ exo
      · simp [h, h5]
      · simp [h, h5, h'.resolve_left h5]
    · simp [h, h5, h6, h7]
    · simp [h, h5, h6, h7, h8]
    · simp [h, h5, h6, h7, h8]

/-- C08: requests for exogenous and sink variables carry through to the estimated matrix. -/
theorem C08_exo_sink_carry_through {n : Nat} {exo sinks : List Nat} {paths noPaths : List (Nat × Nat)} {pk : PK}
    (hpk : makePriorKnowledge n exo sinks paths noPaths = some pk) (soft : Bool) (measure : Measure)
    {score : Score} {lasso : Lasso K} {order : List Nat} {B : Nat → Nat → K}
    (h : fit ⟨some pk, soft, measure⟩ score lasso n = .ok (order, B)) :
    (∀ v ∈ exo, ∀ j, B v j = 0) ∧ (∀ v ∈ sinks, ∀ i, B i v = 0) := by
  have hv : ValidRequest n exo sinks paths noPaths := by
    by_contra hc
    rw [(C07_make_prior_knowledge n exo sinks paths noPaths).1 hc] at hpk
    cases hpk
  obtain ⟨pk', h1, h2⟩ := (C07_make_prior_knowledge n exo sinks paths noPaths).2 hv
  rw [hpk] at h1
  injection h1 with h1; subst h1
  constructor
  · intro v hv j
    by_cases hij : v = j
    · subst hij; exact C02_diagonal_zero h v
    · exact C03_prior_zero_no_edge rfl h v j ((h2 v j).2.1 hij (Or.inl hv))
  · intro v hv i
    by_cases hij : i = v
    · subst hij; exact C02_diagonal_zero h i
    · exact C03_prior_zero_no_edge rfl h i v ((h2 i v).2.1 hij (Or.inr hv))

/-! ### Further properties -/

/-- The prior knowledge "0 → 1" (row 1, column 0 is 1). -/
def oneBeforeTwo : PK := fun i j => if i = 1 ∧ j = 0 then 1 else -1

/-- C53 (violated): with `measure="pwling_fast"` hard prior knowledge does not constrain the order: for the requested
path `0 → 1` there are scores with which `fit` returns the order `[1, 0]`. -/
theorem C53_fast_ignores_prior :
    ∃ score : Score, ∀ lasso : Lasso K, ∃ B,
      fit ⟨some oneBeforeTwo, false, .fast⟩ score lasso 2 = .ok ([1, 0], B) ∧
        PathRequested 2 oneBeforeTwo 0 1 ∧ ¬ Before [1, 0] 0 1 := by
  refine ⟨fun _ _ _ _ i => some i, fun lasso => ⟨estimateAdj (some oneBeforeTwo) lasso [1, 0], ?_, ⟨by omega, by omega, by omega, by decide⟩, ?_⟩⟩
  · have h : fitOrder ⟨some oneBeforeTwo, false, .fast⟩ (fun _ _ _ _ i => some (i : ℚ)) 2 = .ok [1, 0] := by
      have h0 : extractPartialOrders 2 oneBeforeTwo = .ok [(0, 1)] := by decide +kernel
      have h1 : argmax [some (0 : ℚ), some 1] = some 1 := by decide +kernel
      have h2 : argmax [some (0 : ℚ)] = some 0 := by decide +kernel
      have h3 : List.range 2 = [0, 1] := rfl
      simp [fitOrder, h0, orderLoop, searchOrder, h1, h2, h3]
    exact fit_of_order _ h
  · rintro ⟨x, y, z, h⟩
    rcases x with _ | ⟨a, _ | ⟨b, _ | ⟨c, x⟩⟩⟩ <;> simp_all

/-- C53, what does hold for `pwling_fast`: the only prior knowledge that stops `fit` is a pair requested in both
directions, and zeros are still never edges (C03). -/
theorem C53_fast_total_partial {cfg : Config} (hm : cfg.measure = .fast) (score : Score) (lasso : Lasso K) (n : Nat)
    (h : ∀ pk, cfg.pk = some pk → cfg.soft = false → ∀ a b, a < n → b < n → ¬ (pk a b = 1 ∧ pk b a = 1)) :
    ∃ order B, fit cfg score lasso n = .ok (order, B) ∧ IsOrder n order := by
  obtain ⟨order, ho⟩ := fitOrder_fast_total (score := score) hm h
  exact ⟨order, _, fit_of_order lasso ho, fitOrder_isOrder ho⟩

/-- C54: one-sided no-path knowledge applied hard excludes every directed path of the result, not only the edge. -/
theorem C54_no_path_respected_partial [LinearOrder K] [IsStrictOrderedRing K] {cfg : Config} {pk : PK}
    (hpk : cfg.pk = some pk) (hs : cfg.soft = false) (hm : cfg.measure ≠ .fast) {score : Score} {lasso : Lasso K}
    {n : Nat} {order : List Nat} {B : Nat → Nat → K} (h : fit cfg score lasso n = .ok (order, B)) {i j : Nat}
    (hi : i < n) (hj : j < n) (hz : pk i j = 0) (hone : pk j i ≠ 0) :
    ¬ Relation.TransGen (Edge n B 0) j i := by
  intro ht
  have hn := (C01_order_is_permutation_pk h).1
  have hb : Before order j i := by
    refine before_of_transGen hn ?_ ht
    rintro a b ⟨_, _, hw⟩
    refine C02_edges_follow_order h b a ?_
    intro he
    rw [he, abs_zero] at hw
    exact absurd hw (lt_irrefl _)
  exact Before.irrefl hn _ (hb.trans hn ((C04_hard_prior_respected hpk hs hm h i j hi hj).2 hz hone))

/-- "No path between 0 and 2", in both directions. -/
def mutualNoPath : PK := fun i j => if (i = 0 ∧ j = 2) ∨ (i = 2 ∧ j = 0) then 0 else -1

/-- C54 (violated for two-sided knowledge): with "no path" between 0 and 2 in both directions `fit` can return the
chain `0 → 1 → 2`, which has a directed path from 0 to 2. -/
theorem C54_mutual_no_path_violated :
    ∃ (score : Score) (lasso : Lasso ℚ) (order : List Nat) (B : Nat → Nat → ℚ),
      fit ⟨some mutualNoPath, false, .pwling⟩ score lasso 3 = .ok (order, B) ∧ mutualNoPath 2 0 = 0 ∧
        Relation.TransGen (Edge 3 B 0) 0 2 := by
  refine ⟨fun _ _ _ _ i => some (-(i : ℚ)), fun _ _ _ => 1, [0, 1, 2], estimateAdj (some mutualNoPath) (fun _ _ _ => 1)
    [0, 1, 2], ?_, rfl, ?_⟩
  · have h : fitOrder ⟨some mutualNoPath, false, .pwling⟩ (fun _ _ _ _ i => some (-(i : ℚ))) 3 = .ok [0, 1, 2] := by
      decide +kernel
    exact fit_of_order _ h
  · exact .tail (.single (b := 1) ⟨by omega, by omega, by decide +kernel⟩) ⟨by omega, by omega, by decide +kernel⟩

/-- C55: exact content of the estimate. For every variable `t` with the variables `pre` before it in the order, the row
of `t` holds the regression coefficients of `t` on exactly those members of `pre` that prior knowledge does not exclude
(in order of the causal order), and zero elsewhere. -/
theorem C55_rows_are_regressions {cfg : Config} {score : Score} {lasso : Lasso K} {n : Nat} {order : List Nat}
    {B : Nat → Nat → K} (h : fit cfg score lasso n = .ok (order, B)) {pre post : List Nat} {t : Nat}
    (ho : order = pre ++ t :: post) :
    ∃ preds, preds.Sublist pre ∧ (∀ c, c ∈ preds ↔ c ∈ pre ∧ ∀ pk, cfg.pk = some pk → pk t c ≠ 0) ∧
      ∀ c, B t c = if c ∈ preds then lasso preds t c else 0 := by
  have hn := (C01_order_is_permutation_pk h).1
  refine ⟨predictors cfg.pk pre t, ?_, ?_, ?_⟩
  · unfold predictors
    split
    · exact List.Sublist.refl _
    · exact List.filter_sublist
  · intro c
    rw [mem_predictors]
    constructor
    · rintro ⟨h1, h2⟩; exact ⟨h1, fun pk hpk => (h2 pk hpk).2⟩
    · rintro ⟨h1, h2⟩
      refine ⟨h1, fun pk hpk => ⟨?_, h2 pk hpk⟩⟩
      rintro rfl
      rw [ho, List.nodup_append] at hn
      exact hn.2.2 t h1 t (by simp) rfl
  · intro c
    rw [(fit_ok h).2, estimateAdj_row (ho ▸ hn) ho]

/-- C56: every step of the ordering takes, among the remaining variables whose required predecessors are already
placed, one with the best score (largest for `pwling`, smallest for `kernel`), the smallest index on ties. -/
theorem C56_each_step_takes_best {cfg : Config} {score : Score}
    {s : List Nat → List Nat → List Nat → List Nat → Nat → ℚ}
    (hnan : ∀ K U Uc Vj i, score K U Uc Vj i = some (s K U Uc Vj i)) (hm : cfg.measure ≠ .fast)
    (hs : cfg.soft = false) {lasso : Lasso K} {n : Nat} {order : List Nat} {B : Nat → Nat → K}
    (h : fit cfg score lasso n = .ok (order, B)) {pre post : List Nat} {m : Nat} (he : order = pre ++ m :: post) :
    BestStep cfg s n pre m :=
  fitOrder_best hnan hm hs (fit_ok h).1 he

/-- C57: a requested path is *not* guaranteed to exist in the result (the regression may drop it): requesting
`0 → 1` can give a result with no edge at all. -/
theorem C57_requested_path_may_be_missing :
    ∃ (score : Score) (lasso : Lasso ℚ) (order : List Nat) (B : Nat → Nat → ℚ),
      fit ⟨some oneBeforeTwo, false, .pwling⟩ score lasso 2 = .ok (order, B) ∧ PathRequested 2 oneBeforeTwo 0 1 ∧
        ∀ a b, ¬ Relation.TransGen (Edge 2 B 0) a b := by
  refine ⟨fun _ _ _ _ _ => some 0, fun _ _ _ => 0, [0, 1], estimateAdj (some oneBeforeTwo) (fun _ _ _ => 0) [0, 1], ?_,
    ⟨by omega, by omega, by omega, by decide⟩, ?_⟩
  · have h : fitOrder ⟨some oneBeforeTwo, false, .pwling⟩ (fun _ _ _ _ _ => some 0) 2 = .ok [0, 1] := by
      decide +kernel
    exact fit_of_order _ h
  · have hz : ∀ a b, ¬ Edge 2 (estimateAdj (some oneBeforeTwo) (fun _ _ _ => (0 : ℚ)) [0, 1]) 0 a b := by
      rintro a b ⟨ha, hb, hw⟩
      have : estimateAdj (some oneBeforeTwo) (fun _ _ _ => (0 : ℚ)) [0, 1] b a = 0 := by
        by_contra hc
        have h1 := (estimateAdj_row (K := ℚ) (pk := some oneBeforeTwo) (lasso := fun _ _ _ => 0) (order := [0, 1])
          (pre := [0]) (t := 1) (post := []) (by decide) rfl a)
        have h2 := (estimateAdj_row (K := ℚ) (pk := some oneBeforeTwo) (lasso := fun _ _ _ => 0) (order := [0, 1])
          (pre := []) (t := 0) (post := [1]) (by decide) rfl a)
        rcases (by omega : b = 0 ∨ b = 1) with rfl | rfl
        · rw [h2] at hc; simp at hc
        · rw [h1] at hc; simp at hc
      rw [this] at hw
      simp at hw
    intro a b ht
    induction ht with
    | single h => exact hz _ _ h
    | tail _ h _ => exact hz _ _ h

/-! ### Concrete cases meeting the hypotheses -/

/-- Four variables: 0 exogenous, 3 sink, path 2 → 1, no path 0 → 2. -/
def exPk : Option PK := makePriorKnowledge 4 [0] [3] [(2, 1)] [(0, 2)]

def exPk' : PK := fun i j =>
  if i = j then -1 else if i = 0 then 0 else if j = 3 then 0 else if i = 1 ∧ j = 2 then 1 else if i = 2 ∧ j = 0 then 0
  else -1

def exScore : Score := fun K _ _ _ i => some ((i : ℚ) - 2 * K.length)

example : ValidRequest 4 [0] [3] [(2, 1)] [(0, 2)] := by
  unfold ValidRequest; decide

example : (exPk.map fun pk => (List.range 4).map fun i => (List.range 4).map (pk i)) =
    some [[-1, 0, 0, 0], [-1, -1, 1, 0], [0, -1, -1, 0], [-1, -1, -1, -1]] := by decide +kernel

/-- Hard fit with acyclic prior knowledge: succeeds, 2 and 0 before 1, 3 last, although the score favours 3. -/
example : fitOrder ⟨some exPk', false, .pwling⟩ exScore 4 = .ok [2, 0, 1, 3] := by decide +kernel

/-- The soft variant on the same matrix. -/
example : fitOrder ⟨some exPk', true, .kernel⟩ exScore 4 = .ok [0, 2, 1, 3] := by decide +kernel

/-- A soft step where nothing is known to be exogenous: 2 is endogenous, 3 a sink, 0 and 1 are candidates, and 3 is
known to receive nothing from 0 and 1. -/
def exSoft : PK := fun i j => if i = 2 ∧ j = 1 then 1 else if j = 3 then 0 else if i = 3 ∧ j ≠ 2 then 0 else -1

example : searchCandidate ⟨some exSoft, true, .pwling⟩ [] [0, 1, 2, 3] = ([0, 1], [3]) := by decide +kernel

example : fitOrder ⟨some exSoft, true, .pwling⟩ exScore 4 = .ok [1, 2, 3, 0] := by decide +kernel

/-- Without prior knowledge the score decides. -/
example : fitOrder ⟨none, false, .pwling⟩ exScore 4 = .ok [3, 2, 1, 0] := by decide +kernel

example : estimateAdj (some exPk') (fun ps t c => (ps.length + t * 10 + c : ℚ)) [0, 2, 1, 3] 1 2 = 14 := by
  decide +kernel

/-- The 3-cycle of one-sided requests 0→1→2→0 is rejected, only inside the loop. -/
def exCyclic : PK := fun i j => if (i = 1 ∧ j = 0) ∨ (i = 2 ∧ j = 1) ∨ (i = 0 ∧ j = 2) then 1 else -1

example : fitOrder ⟨some exCyclic, false, .pwling⟩ exScore 3 = .error .emptyArgmax := by decide +kernel

example : ¬ Acyclic (MustPrecede 3 exCyclic) := fun h =>
  h 0 (.tail (.tail (.single (b := 1) ⟨by omega, by omega, by decide⟩) (c := 2) ⟨by omega, by omega, by decide⟩)
    ⟨by omega, by omega, by decide⟩)

/-- A soft matrix meeting the hypothesis of C06, with a path and many zeros. -/
example : Acyclic (PathRequested 4 exPk') := by
  refine acyclic_of_before (l := [2, 1]) (by decide) ?_
  rintro a b ⟨ha, hb, _, h⟩
  have hab : a = 2 ∧ b = 1 := by
    revert h
    unfold exPk'
    split; · omega
    split; · omega
    split; · omega
    split
    · intro; omega
    split <;> omega
  obtain ⟨rfl, rfl⟩ := hab
  exact ⟨[], [], [], rfl⟩

end Verif.Direct
