import Verif.Props.GraphRecovery
import Verif.Props.DirectLingam

/-!
# Prior knowledge that directs the edges replaces the comparison of the variables (C263)
-/
set_option linter.unusedSectionVars false
set_option autoImplicit false
namespace Verif.Pairwise
open MeasureTheory ProbabilityTheory Filter Topology Consistency

section Order

variable {N : Nat}

/-- Data and remaining columns after the variables `K` have been taken, the state of the loop of lingam/direct_lingam.py:90-113. -/
noncomputable def after (n : Nat) (X : Nat → Col N) (K : List Nat) : (Nat → Col N) × List Nat :=
  K.foldl (fun s m => (removeEffect s.1 s.2 m, s.2.filter (fun i => decide (i ≠ m)))) (X, List.range n)

/-- A score that prefers the variable chosen on the data by lingam/direct_lingam.py:212-237. -/
noncomputable def chosen (n : Nat) (X : Nat → Col N) : Direct.Score := fun K U Uc Vj i =>
  if pick (fun i => (statistic (after n X K).1 U Uc Vj i).map (fun m => -1 * m)) Uc = some i then some 1 else some 0

theorem argmax_indicator {l : List Nat} {m : Nat} (hm : m ∈ l) :
    (argmax (l.map (fun i => if some m = some i then some (1 : ℚ) else some 0))).bind (fun i => l[i]?) = some m := by
  have e : l.map (fun i => if some m = some i then some (1 : ℚ) else some 0) =
      (l.map (fun i => if m = i then (1 : ℚ) else 0)).map some := by
    rw [List.map_map]
    refine List.map_congr_left fun i _ => ?_
    by_cases h : m = i <;> simp [h]
  rw [e]
  cases h : argmax ((l.map (fun i => if m = i then (1 : ℚ) else 0)).map some) with
  | none =>
    rw [argmax_eq_none] at h
    simp at h
    subst h
    simp at hm
  | some p =>
    have hp := argmax_lt h
    simp only [List.length_map] at hp
    obtain ⟨v, hv, hmax⟩ := argmax_spec h
    obtain ⟨k, hk, hkm⟩ := List.getElem_of_mem hm
    have h1 := (hmax k 1 (by rw [List.getElem?_map, List.getElem?_eq_getElem hk, hkm]; simp)).1
    rw [List.getElem?_map, List.getElem?_eq_getElem hp] at hv
    simp only [Option.map_some, Option.some.injEq] at hv
    rw [Option.bind_some, List.getElem?_eq_getElem hp]
    by_cases hmp : m = l[p]
    · rw [← hmp]
    · rw [if_neg hmp] at hv
      rw [← hv] at h1
      norm_num at h1

theorem searchOrder_eq (cfg : Direct.Config) (n : Nat) (X : Nat → Col N) (po : List (Nat × Nat)) (K U : List Nat) :
    searchOrder cfg po (after n X K).1 U = Direct.searchOrder { cfg with measure := .pwling } (chosen n X) po K U := by
  unfold searchOrder Direct.searchOrder
  have e : Direct.searchCandidate { cfg with measure := .pwling } po U = Direct.searchCandidate cfg po U := rfl
  simp only [e]
  obtain ⟨Uc, Vj⟩ := Direct.searchCandidate cfg po U
  rcases Uc with _ | ⟨a, _ | ⟨b, l⟩⟩
  · rfl
  · rfl
  · have h : ∃ m, pick (fun i => (statistic (after n X K).1 U (a :: b :: l) Vj i).map (fun m => -1 * m)) (a :: b :: l) = some m ∧
        m ∈ a :: b :: l := ⟨_, rfl, pickGo_mem _ _ _⟩
    obtain ⟨m, h1, h2⟩ := h
    have e2 : chosen n X K U (a :: b :: l) Vj = fun i => if some m = some i then some (1 : ℚ) else some 0 := by
      funext i
      unfold chosen
      rw [h1]
    simp only
    rw [h1, e2, argmax_indicator h2]

theorem orderLoop_eq (cfg : Direct.Config) (n : Nat) (X : Nat → Col N) : ∀ (r : Nat) (K : List Nat) (po : List (Nat × Nat)),
    orderLoop cfg r (after n X K).1 K (after n X K).2 po =
      Direct.orderLoop { cfg with measure := .pwling } (chosen n X) r K (after n X K).2 po
  | 0, _, _ => rfl
  | r + 1, K, po => by
    simp only [orderLoop, Direct.orderLoop]
    rw [searchOrder_eq]
    cases Direct.searchOrder { cfg with measure := .pwling } (chosen n X) po K (after n X K).2 with
    | none => rfl
    | some m =>
      have e : after n X (K ++ [m]) = (removeEffect (after n X K).1 (after n X K).2 m,
          (after n X K).2.filter (fun i => decide (i ≠ m))) := by
        unfold after
        rw [List.foldl_append]
        rfl
      have := orderLoop_eq cfg n X r (K ++ [m])
        (if cfg.pk.isSome && !cfg.soft then po.filter (fun p => decide (p.1 ≠ m)) else po)
      rw [e] at this
      exact this

/-- The search on data is a search with some scores. -/
theorem fitOrder_eq (cfg : Direct.Config) (n : Nat) (X : Nat → Fin N → ℝ) :
    fitOrder cfg n X = Direct.fitOrder { cfg with measure := .pwling } (chosen n (fun j => some (X j))) n := by
  have h := orderLoop_eq cfg n (fun j => some (X j)) n []
  unfold fitOrder Direct.fitOrder
  simp only [after, List.foldl_nil] at h
  simp only [h]
  rfl

/-- C263: with hard prior knowledge without contradictions the search succeeds on all data, and the order respects all that follows
from the prior knowledge. -/
theorem C263_order {cfg : Direct.Config} {q : Direct.PK} (hpk : cfg.pk = some q) (hs : cfg.soft = false) {n : Nat}
    (hac : Acyclic (MustPrecede n q)) (X : Nat → Fin N → ℝ) :
    ∃ o, fitOrder cfg n X = .ok o ∧ IsOrder n o ∧ ∀ a b, Relation.TransGen (MustPrecede n q) a b → Before o a b := by
  rw [fitOrder_eq]
  obtain ⟨o, ho⟩ := Direct.fitOrder_hard_total (cfg := { cfg with measure := .pwling })
    (score := chosen n (fun j => some (X j))) hpk hs hac
  have hio := Direct.fitOrder_isOrder ho
  refine ⟨o, ho, hio, fun a b hab => ?_⟩
  have key := Direct.fitOrder_hard_respects (cfg := { cfg with measure := .pwling }) hpk hs (by simp) ho
  exact before_of_transGen hio.1 key hab

end Order

section Recovery

variable {Ω : Type} [MeasurableSpace Ω] {P : Measure Ω} [IsProbabilityMeasure P] {R : Nat → Ω → Nat → ℝ} {n : Nat}

/-- If the prior knowledge directs all edges, the order found is a causal order, whatever the data. -/
theorem order_of_directed {N : Nat} {cfg : Direct.Config} {q : Direct.PK} (hpk : cfg.pk = some q) (hs : cfg.soft = false)
    (hac : Acyclic (MustPrecede n q)) {B : Nat → Nat → ℝ} (hdir : ∀ i j, B i j ≠ 0 → Relation.TransGen (MustPrecede n q) j i)
    (X : Nat → Fin N → ℝ) : ∃ o, fitOrder cfg n X = .ok o ∧ CausalOrder n B o := by
  obtain ⟨o, ho, hio, hbef⟩ := C263_order hpk hs hac X
  refine ⟨o, ho, (List.perm_ext_iff_of_nodup hio.1 List.nodup_range).2 fun i => by rw [hio.2 i, List.mem_range], fun i j hij => ?_⟩
  obtain ⟨x, y, z, h⟩ := hbef j i (hdir i j hij)
  exact ⟨x ++ j :: y, z, by rw [h]; simp, by simp⟩

/-- With more rows than variables nothing else fails. -/
theorem fitLasso_of_order {N : Nat} {cfg : Direct.Config} (lin : Lin N) (lars : Lars N) {X : Nat → Fin N → ℝ} {o : List Nat}
    (ho : fitOrder cfg n X = .ok o) (hlen : o.length = n) (hN : n + 1 < N) :
    fitLasso cfg lin lars n X = .ok (o, Direct.estimateAdj cfg.pk (fun ps t p => predict lin lars X ps t (ps.idxOf p)) o) := by
  unfold fitLasso
  rw [ho]
  have hany : ((List.range' 1 (o.length - 1)).any (fun i =>
      let m := (Direct.predictors cfg.pk (o.take i) (o.getD i 0)).length
      decide (m ≠ 0 ∧ N ≤ m + 1))) = false := by
    rw [List.any_eq_false]
    intro i _
    have : (Direct.predictors cfg.pk (o.take i) (o.getD i 0)).length ≤ n := by
      unfold Direct.predictors
      have h1 : (o.take i).length ≤ n := by rw [List.length_take]; omega
      split
      · exact h1
      · exact (List.length_filter_le _ _).trans h1
    simp only [decide_eq_true_eq]
    omega
  exact if_neg (by rw [hany]; exact Bool.false_ne_true)

/-- C263: with prior knowledge that directs all edges and denies none, `fit` succeeds on all large samples, finds a causal order, and
the matrix converges to that of the model with probability 1. Nothing is required of the comparison of variables. -/
theorem C263_matrix {cfg : Direct.Config} {q : Direct.PK} (hpk : cfg.pk = some q) (hs : cfg.soft = false)
    (hR : IidRows P R) (hreg : Regular P n (fun j ω => R 0 ω j)) {o : List Nat} (hperm : o.Perm (List.range n))
    {B : Nat → Nat → ℝ} {e : Nat → Ω → ℝ} (hmod : LinearModel P (fun j ω => R 0 ω j) o B e) (hac : Acyclic (MustPrecede n q))
    (hdir : ∀ i j, B i j ≠ 0 → Relation.TransGen (MustPrecede n q) j i ∧ q i j ≠ 0) :
    ∀ᵐ ω ∂P, ∀ (lin : ∀ N, Lin N) (lars : ∀ N, Lars N), (∀ N, RightRegression (lin N)) → (∀ N, RightPath (lars N)) →
      ∃ (os : Nat → List Nat) (BN : Nat → Nat → Nat → ℝ),
        (∀ N, n + 1 < N → fitLasso cfg (lin N) (lars N) n (sampleOf R ω N) = .ok (os N, BN N) ∧ CausalOrder n B (os N)) ∧
        ∀ i j, Tendsto (fun N => BN N i j) atTop (𝓝 (B i j)) := by
  filter_upwards [C258_prior_knowledge (cfg := cfg) hR hreg hperm hmod (fun q' hq' i j hij => by
    rw [hpk] at hq'; cases hq'; exact (hdir i j hij).2)] with ω hω lin lars hlin hlars
  choose os hos hcau using fun N => order_of_directed hpk hs hac (fun i j h => (hdir i j h).1) (sampleOf R ω N)
  have hfit : ∀ N, n + 1 < N → fitLasso cfg (lin N) (lars N) n (sampleOf R ω N) = .ok (os N, _) ∧ CausalOrder n B (os N) :=
    fun N hN => ⟨fitLasso_of_order (lin N) (lars N) (hos N) (by rw [(hcau N).1.length_eq, List.length_range]) hN, hcau N⟩
  exact ⟨os, _, hfit, hω lin lars hlin hlars os _ ((eventually_gt_atTop (n + 1)).mono hfit)⟩

/-- C263: with independent disturbances, the probability that `fit` with such prior knowledge finds a causal order, exactly the edges of
the model, and all coefficients up to any multiple of the square root of `log N / N` tends to 1: that of anything else tends to 0. -/
theorem C263_graph {cfg : Direct.Config} {q : Direct.PK} (hpk : cfg.pk = some q) (hs : cfg.soft = false)
    (hR : IidRows P R) (hreg : Regular P n (fun j ω => R 0 ω j)) {o : List Nat} (hperm : o.Perm (List.range n))
    {B : Nat → Nat → ℝ} {e : Nat → Ω → ℝ} (hmod : LinearModel P (fun j ω => R 0 ω j) o B e)
    (hind : iIndepFun (fun (i : Fin n) => e i) P) (hac : Acyclic (MustPrecede n q))
    (hdir : ∀ i j, B i j ≠ 0 → Relation.TransGen (MustPrecede n q) j i ∧ q i j ≠ 0) {ε : ℝ} (hε : 0 < ε) :
    Tendsto (fun N => P {ω | ¬ ∀ (lin : Lin N) (lars : Lars N), RightRegression lin → RightPath lars → RightLasso n lars →
      ∃ o' B', fitLasso cfg lin lars n (sampleOf R ω N) = .ok (o', B') ∧ CausalOrder n B o' ∧
        ∀ i j, (B' i j ≠ 0 ↔ B i j ≠ 0) ∧ |B' i j - B i j| ≤ ε * √(Real.log N / N)}) atTop (𝓝 0) := by
  have h2 := C261_support hR hreg hperm hmod hind (pk := cfg.pk) (fun q' hq' i j hij => by
    rw [hpk] at hq'; cases hq'; exact (hdir i j hij).2) hε
  refine tendsto_of_tendsto_of_tendsto_of_le_of_le' tendsto_const_nhds h2 (Eventually.of_forall fun _ => bot_le) ?_
  filter_upwards [eventually_gt_atTop (n + 1)] with N hbig
  refine measure_mono fun ω hω hgood => hω fun lin lars hlin hlars hpath => ?_
  obtain ⟨o', ho', hcau⟩ := order_of_directed hpk hs hac (fun i j h => (hdir i j h).1) (sampleOf R ω N)
  exact ⟨o', _, fitLasso_of_order lin lars ho' (by rw [hcau.1.length_eq, List.length_range]) hbig, hcau,
    hgood lin lars hlin hlars hpath o' hcau⟩

/-- The total effects converge with the matrix also if the causal order changes from sample to sample. -/
theorem effect_tendsto_orders {B : Nat → Nat → ℝ} {os : Nat → List Nat} {BN : Nat → Nat → Nat → ℝ}
    (hos : ∀ᶠ N in atTop, CausalOrder n B (os N) ∧ CausalOrder n (BN N) (os N))
    (hB : ∀ i j, Tendsto (fun N => BN N i j) atTop (𝓝 (B i j))) {src : Nat} {T : Nat → ℝ}
    {TN : Nat → Nat → ℝ} (hT : TotalEffectOf n B src T) (hTN : ∀ᶠ N in atTop, TotalEffectOf n (BN N) src (TN N)) (i : Nat) (hi : i < n) :
    Tendsto (fun N => TN N i) atTop (𝓝 (T i)) := by
  have h := tendsto_choice (finite_orders (n := n) B) (f := fun o' N => if os N = o' then TN N i else T i) (a := T i) (c := os)
    (fun o' ho' => ?_) (hos.mono fun N h => h.1)
  · simpa using h
  have hB' : ∀ a b, Tendsto (fun N => (if os N = o' then BN N else B) a b) atTop (𝓝 (B a b)) := by
    intro a b
    have h1 : ∀ N, (if os N = o' then BN N else B) a b = if os N = o' then BN N a b else B a b := fun N => by split_ifs <;> rfl
    simp only [h1]
    exact (hB a b).if' tendsto_const_nhds
  have := effect_tendsto ho' (BN := fun N => if os N = o' then BN N else B) (by
    filter_upwards [hos] with N hN
    split_ifs with hc
    · exact hc ▸ hN.2
    · exact ho') hB' (TN := fun N => if os N = o' then TN N else T) hT (by
    filter_upwards [hTN] with N hN
    split_ifs
    · exact hN
    · exact hT) i hi
  refine this.congr fun N => ?_
  split_ifs <;> rfl

/-- C263: in the same situation both ways to get total effects (the regression of `estimate_total_effect` and the paths of
`calculate_total_effect`) are right up to any deviation on all large samples. -/
theorem C263_effects {cfg : Direct.Config} {q : Direct.PK} (hpk : cfg.pk = some q) (hs : cfg.soft = false)
    (hR : IidRows P R) (hreg : Regular P n (fun j ω => R 0 ω j)) {o : List Nat} (hperm : o.Perm (List.range n))
    {B : Nat → Nat → ℝ} {e : Nat → Ω → ℝ} (hmod : LinearModel P (fun j ω => R 0 ω j) o B e) (hac : Acyclic (MustPrecede n q))
    (hdir : ∀ i j, B i j ≠ 0 → Relation.TransGen (MustPrecede n q) j i ∧ q i j ≠ 0) :
    ∀ᵐ ω ∂P, ∀ (lin : ∀ N, Lin N) (lars : ∀ N, Lars N), (∀ N, RightRegression (lin N)) → (∀ N, RightPath (lars N)) →
      ∀ T : Nat → Nat → ℝ, (∀ src, src < n → TotalEffectOf n B src (T src)) → ∀ δ, 0 < δ → ∀ src dst, src < n → dst < n → src ≠ dst →
      ∀ᶠ N in atTop, ∃ o' B' v, fitLasso cfg (lin N) (lars N) n (sampleOf R ω N) = .ok (o', B') ∧
        |totalEffect (lin N) n (sampleOf R ω N) B' src dst - T src dst| < δ ∧
        Paths.calcTotalEffect n (fun i j => some (B' i j)) src dst = some (.ok (some v)) ∧ |v - T src dst| < δ := by
  filter_upwards [C263_matrix hpk hs hR hreg hperm hmod hac hdir, C259_regression hR hreg hperm hmod]
    with ω h1 h2 lin lars hlin hlars T hT δ hδ src dst hsrc hdst hne
  obtain ⟨os, BN, hfit, hBN⟩ := h1 lin lars hlin hlars
  have hcoN : ∀ N, n + 1 < N → CausalOrder n (BN N) (os N) := by
    intro N hN
    obtain ⟨hN, hco⟩ := hfit N hN
    refine ⟨hco.1, fun i j hij => ?_⟩
    unfold fitLasso at hN
    split at hN
    · cases hN
    · split_ifs at hN
      simp only [Except.ok.injEq, Prod.mk.injEq] at hN
      obtain ⟨h3, h4⟩ := hN
      rw [← h3]
      rw [← h4] at hij
      obtain ⟨⟨a, ha, hja⟩, -⟩ := Direct.estimateAdj_apply _ _ _ _ _ hij
      obtain ⟨hlt, hget⟩ := List.getElem?_eq_some_iff.1 ha
      exact ⟨_, List.drop (a + 1) _, by rw [← hget, List.cons_getElem_drop_succ, List.take_append_drop], hja⟩
  have hkeep : ∀ᶠ N in atTop, ∀ j ∈ Finset.range n, B src j ≠ 0 → BN N src j ≠ 0 := by
    rw [eventually_all_finset]
    intro j _
    by_cases h0 : B src j = 0
    · exact Eventually.of_forall fun _ h => absurd h0 h
    · filter_upwards [(hBN src j).eventually_ne h0] with N hN _ using hN
  have hlarge := eventually_gt_atTop (n + 1)
  have t1 := h2 lin hlin src dst hsrc hdst (T src) (hT src hsrc) BN (by
    filter_upwards [hkeep, hlarge] with N h3 h4
    have hco := (hfit N h4).2
    obtain ⟨pre, post, hs⟩ := List.append_of_mem (hco.1.mem_iff.2 (List.mem_range.2 hsrc))
    refine ⟨fun j hj => h3 j (Finset.mem_range.2 hj), pre, post, hs ▸ hco, fun j _ hj => ?_⟩
    exact order_row (causal_nodup hco) (hcoN N h4).2 hs j hj)
  have hex : ∀ N, ∃ T' : Nat → ℝ, n + 1 < N → TotalEffectOf n (BN N) src T' ∧ ∀ dst, dst < n → src ≠ dst →
      Paths.calcTotalEffect n (fun i j => some (BN N i j)) src dst = some (.ok (some (T' dst))) := by
    intro N
    by_cases hc : n + 1 < N
    · obtain ⟨T', h⟩ := calc_effect (hcoN N hc) hsrc
      exact ⟨T', fun _ => h⟩
    · exact ⟨fun _ => 0, fun h => absurd h hc⟩
  choose TN hTN using hex
  have t2 := effect_tendsto_orders (hlarge.mono fun N h => ⟨(hfit N h).2, hcoN N h⟩) hBN (hT src hsrc) (hlarge.mono fun N h => (hTN N h).1)
    dst hdst
  have a1 := (t1.sub_const (T src dst)).abs
  have a2 := (t2.sub_const (T src dst)).abs
  rw [sub_self, abs_zero] at a1 a2
  filter_upwards [hlarge, a1.eventually_lt_const hδ, a2.eventually_lt_const hδ] with N h3 h5 h6
  exact ⟨os N, BN N, TN N dst, (hfit N h3).1, h5, (hTN N h3).2 dst hdst hne, h6⟩

/-! ### The hypotheses can be met -/

theorem coin_directed (i j : Nat) (h : coinMatrix i j ≠ 0) :
    Relation.TransGen (MustPrecede 2 (fun i j => if i = 0 ∧ j = 1 then 1 else -1)) j i ∧ (if i = 0 ∧ j = 1 then (1 : Int) else -1) ≠ 0 := by
  unfold coinMatrix at h
  split_ifs at h with hij
  · obtain ⟨rfl, rfl⟩ := hij
    exact ⟨.single ⟨by norm_num, by norm_num, Or.inl (by simp)⟩, by simp⟩
  · exact absurd rfl h

theorem coin_acyclic : Acyclic (MustPrecede 2 (fun i j => if i = 0 ∧ j = 1 then 1 else -1)) := by
  have h0 : ∀ a b, MustPrecede 2 (fun i j => if i = 0 ∧ j = 1 then 1 else -1) a b → b < a := by
    rintro a b ⟨-, -, h⟩
    beta_reduce at h
    by_cases h1 : b = 0 ∧ a = 1
    · omega
    · rw [if_neg h1] at h
      by_cases h2 : a = 0 ∧ b = 1 <;> simp [h2] at h
  have h : ∀ a b, Relation.TransGen (MustPrecede 2 (fun i j => if i = 0 ∧ j = 1 then 1 else -1)) a b → b < a := by
    intro a b hab
    induction hab with
    | single h => exact h0 _ _ h
    | tail _ h ih => exact (h0 _ _ h).trans ih
  exact fun i hi => lt_irrefl _ (h i i hi)

/-- The hypotheses of C263_order, C263_matrix and C263_graph hold for an effect that adds one coin to another, with the knowledge which is
the cause. -/
example {cfg : Direct.Config} (hpk : cfg.pk = some (fun i j => if i = 0 ∧ j = 1 then 1 else -1)) (hs : cfg.soft = false) :
    (∀ᵐ ω ∂(draws 4), ∀ (lin : ∀ N, Lin N) (lars : ∀ N, Lars N), (∀ N, RightRegression (lin N)) → (∀ N, RightPath (lars N)) →
      ∃ (os : Nat → List Nat) (BN : Nat → Nat → Nat → ℝ),
        (∀ N, 2 + 1 < N → fitLasso cfg (lin N) (lars N) 2 (sampleOf (drawn witnessX) ω N) = .ok (os N, BN N) ∧
          CausalOrder 2 coinMatrix (os N)) ∧ ∀ i j, Tendsto (fun N => BN N i j) atTop (𝓝 (coinMatrix i j))) ∧
    Tendsto (fun N => draws 4 {ω | ¬ ∀ (lin : Lin N) (lars : Lars N), RightRegression lin → RightPath lars → RightLasso 2 lars →
      ∃ o' B', fitLasso cfg lin lars 2 (sampleOf (drawn witnessX) ω N) = .ok (o', B') ∧ CausalOrder 2 coinMatrix o' ∧
        ∀ i j, (B' i j ≠ 0 ↔ coinMatrix i j ≠ 0) ∧ |B' i j - coinMatrix i j| ≤ 1 / 100 * √(Real.log N / N)}) atTop (𝓝 0) :=
  ⟨C263_matrix hpk hs (drawn_iid witnessX) (drawn_regular witness_identified) (o := [1, 0]) (by decide) coin_model coin_acyclic
    coin_directed,
   C263_graph hpk hs (drawn_iid witnessX) (drawn_regular witness_identified) (o := [1, 0]) (by decide) coin_model coin_indep coin_acyclic
    coin_directed (by norm_num)⟩

/-- The hypotheses of C263_effects hold for the coins. -/
example {cfg : Direct.Config} (hpk : cfg.pk = some (fun i j => if i = 0 ∧ j = 1 then 1 else -1)) (hs : cfg.soft = false) :
    ∀ᵐ ω ∂(draws 4), ∀ (lin : ∀ N, Lin N) (lars : ∀ N, Lars N), (∀ N, RightRegression (lin N)) → (∀ N, RightPath (lars N)) →
      ∀ᶠ N in atTop, ∃ o' B' v, fitLasso cfg (lin N) (lars N) 2 (sampleOf (drawn witnessX) ω N) = .ok (o', B') ∧
        |totalEffect (lin N) 2 (sampleOf (drawn witnessX) ω N) B' 1 0 - √2 / 2| < 1 / 100 ∧
        Paths.calcTotalEffect 2 (fun i j => some (B' i j)) 1 0 = some (.ok (some v)) ∧ |v - √2 / 2| < 1 / 100 := by
  filter_upwards [C263_effects hpk hs (drawn_iid witnessX) (drawn_regular witness_identified) (o := [1, 0]) (by decide) coin_model
    coin_acyclic coin_directed] with ω hω lin lars hlin hlars
  have := hω lin lars hlin hlars (fun src i => if src = 1 then (if i = 1 then 1 else √2 / 2) else if i = 0 then 1 else 0) (fun src hsrc => by
    have : src = 0 ∨ src = 1 := by omega
    rcases this with rfl | rfl
    · exact coin_effect0
    · exact coin_effect) (1 / 100) (by norm_num) 1 0 (by norm_num) (by norm_num) (by norm_num)
  simpa using this

end Recovery

end Verif.Pairwise
