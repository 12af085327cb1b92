import Verif.Proofs.HighDim

/-! Properties of `HighDimDirectLiNGAM`. -/
set_option autoImplicit false
set_option linter.unusedSectionVars false
namespace Verif.HighDim
open Finset

variable {N : Nat}

/-! ### Concrete data: every combination of signs once -/

/-- Sign number `i` of row `r`. -/
def sign (i r : Nat) : ℚ := if r / 2 ^ i % 2 = 0 then 1 else -1

/-- A common cause: `x1 = 2 x0 + e1`, `x2 = 2 x0 + e2`. -/
def forkB : Nat → Nat → ℚ := fun i j => if (i = 1 ∨ i = 2) ∧ j = 0 then 2 else 0
def forkE : Nat → Fin 8 → ℚ := fun i r => sign i r
def forkY : Nat → Fin 8 → ℚ := fun i r => if i = 0 then sign 0 r else if i ≤ 2 then 2 * sign 0 r + sign i r else 0

/-- Two causes of `x2`, three of `x3`: `x2 = 2 x0 + 2 x1 + e2`, `x3 = x0 / 2 + x1 / 2 + x2 + e3`. -/
def denseB : Nat → Nat → ℚ := fun i j =>
  if i = 2 then (if j < 2 then 2 else 0) else if i = 3 then (if j < 2 then 1 / 2 else if j = 2 then 1 else 0) else 0
def denseE : Nat → Fin 16 → ℚ := fun i r => if i = 3 then sign 3 r / 2 else sign i r
def denseY : Nat → Fin 16 → ℚ := fun i r =>
  if i = 0 then sign 0 r else if i = 1 then sign 1 r else if i = 2 then 2 * sign 0 r + 2 * sign 1 r + sign 2 r
  else if i = 3 then 5 / 2 * sign 0 r + 5 / 2 * sign 1 r + sign 2 r + sign 3 r / 2 else 0

/-- The defaults of the constructor, with sets listed in the given order. -/
def cfg0 : Config := ⟨3, 1 / 2, id⟩

theorem cfg0_enum : ∀ l, (cfg0.enum l).Perm l := fun l => List.Perm.refl l

/-- A residual depends only on which variables are regressed on. -/
theorem residual_congr {S S' : List Nat} (h : ∀ q, q ∈ S ↔ q ∈ S') {Y : Nat → Fin N → ℚ} {y res : Fin N → ℚ}
    (hr : IsSampleResidual S Y y res) : IsSampleResidual S' Y y res := by
  obtain ⟨⟨c, hc⟩, ho⟩ := hr
  refine ⟨?_, fun q hq => ho q ((h q).2 hq)⟩
  have : ∀ T : List Nat, (∀ q ∈ T, q ∈ S') →
      ∃ d : Nat → ℚ, ∀ r, (T.map (fun q => c q * Y q r)).sum = (S'.map (fun q => d q * Y q r)).sum := by
    intro T
    induction T with
    | nil => exact fun _ => ⟨fun _ => 0, fun r => by simp⟩
    | cons t T ih =>
      intro hT
      obtain ⟨d, hd⟩ := ih fun q hq => hT q (by simp [hq])
      obtain ⟨d', hd'⟩ := mem_span Y S' t (c t) (hT t (by simp))
      exact ⟨fun q => d' q + d q, fun r => by simp only [List.map_cons, List.sum_cons, hd r, hd' r]; rw [sum_indicator]⟩
  obtain ⟨d, hd⟩ := this S fun q hq => (h q).1 hq
  exact ⟨d, fun r => by rw [hc r, hd r]⟩

/-- Visibility can be checked on the sublists of `0, …, n-1`. -/
theorem visible_of_sublists {K n : Nat} {B : Nat → Nat → ℚ} {Y : Nat → Fin N → ℚ}
    (h : ∀ S ∈ (List.range n).sublists, ∀ v, v < n → ∀ u, u < n → (B v u ≠ 0 ∧ u ∉ S ∧ v ∉ S ∧ ∀ q ∈ S, B q v = 0) →
      momentGap K (gs Y S (Y v)) (Y u) ≠ 0) : VisibleCauses K n B Y := by
  intro v u S res hv hu hb hS huS hr
  have hmem : ∀ q, q ∈ S ↔ q ∈ (List.range n).filter (fun q => decide (q ∈ S)) := by
    intro q
    simp only [List.mem_filter, List.mem_range, decide_eq_true_eq]
    exact ⟨fun hq => ⟨(hS q hq).1, hq⟩, fun hq => hq.2⟩
  rw [residual_unique (residual_congr hmem hr) (gs_isResidual Y _ (Y v))]
  refine h _ (List.mem_sublists.2 List.filter_sublist) v hv u hu ⟨hb, ?_, ?_, ?_⟩
  · rw [← hmem]; exact huS
  · rw [← hmem]; exact fun hv' => (hS v hv').2.1 rfl
  · intro q hq
    rw [← hmem] at hq
    by_contra hne
    exact (hS q hq).2.2 (.single ⟨hv, (hS q hq).1, by simpa using hne⟩)

theorem fork_follows : FollowsModel (Finset.range 3) forkB forkY forkE := by
  intro i hi; have := Finset.mem_range.1 hi
  revert i; decide +kernel

theorem fork_independent : MomentIndependent 4 3 forkE := by
  have : ∀ i, i < 3 → ∀ j, j < 3 → i ≠ j → ∑ r, forkE i r * forkE j r = 0 ∧ ∑ r, forkE i r ^ (4 - 1) * forkE j r = 0 := by
    decide +kernel
  exact fun i j hi hj => this i hi j hj

theorem fork_visible : VisibleCauses 4 3 forkB forkY := visible_of_sublists (by decide +kernel)

theorem fork_one : AtMostOneCause 3 forkB := by
  have : ∀ i, i < 3 → ∀ j, j < 3 → ∀ k, k < 3 → forkB i j ≠ 0 → forkB i k ≠ 0 → j = k := by decide +kernel
  exact fun i j k hi hj hk => this i hi j hj k hk

theorem fork_acyclic : Acyclic (Edge 3 forkB 0) := by
  refine acyclic_of_before (l := [0, 1, 2]) (by decide) ?_
  rintro a b ⟨ha, hb, hab⟩
  have h0 : a = 0 ∧ (b = 1 ∨ b = 2) := by
    have : ∀ a, a < 3 → ∀ b, b < 3 → 0 < |forkB b a| → a = 0 ∧ (b = 1 ∨ b = 2) := by decide +kernel
    exact this a ha b hb hab
  rcases h0 with ⟨rfl, rfl | rfl⟩
  · exact ⟨[], [], [2], rfl⟩
  · exact ⟨[], [1], [], rfl⟩

theorem dense_follows : FollowsModel (Finset.range 4) denseB denseY denseE := by
  intro i hi; have := Finset.mem_range.1 hi
  revert i; decide +kernel

theorem dense_independent : MomentIndependent 4 4 denseE := by
  have : ∀ i, i < 4 → ∀ j, j < 4 → i ≠ j → ∑ r, denseE i r * denseE j r = 0 ∧ ∑ r, denseE i r ^ (4 - 1) * denseE j r = 0 := by
    decide +kernel
  exact fun i j hi hj => this i hi j hj

theorem dense_visible : VisibleCauses 4 4 denseB denseY := visible_of_sublists (by decide +kernel)

theorem dense_order : order cfg0 (fun cond pa ch => momentGap 4 (gs denseY cond (denseY pa)) (denseY ch)) 4 = some [0, 1, 3, 2] := by
  decide +kernel


theorem dense_acyclic : Acyclic (Edge 4 denseB 0) := by
  refine acyclic_of_before (l := [0, 1, 2, 3]) (by decide) ?_
  rintro a b ⟨ha, hb, hab⟩
  have h0 : a < b := by
    have : ∀ a, a < 4 → ∀ b, b < 4 → 0 < |denseB b a| → a < b := by decide +kernel
    exact this a ha b hb hab
  refine ⟨List.range a, List.range' (a + 1) (b - a - 1), List.range' (b + 1) (3 - b), ?_⟩
  have : ∀ a, a < 4 → ∀ b, b < 4 → a < b →
      [0, 1, 2, 3] = List.range a ++ a :: (List.range' (a + 1) (b - a - 1) ++ b :: List.range' (b + 1) (3 - b)) := by decide
  exact this a ha b hb h0

/-! ### C118: the order and the adjacency matrix -/

/-- The search ends with every column exactly once in the order, and the matrix only has entries from earlier to later
columns, whatever the data, the numerical routines and the parameters. -/
theorem C118_order_and_matrix (c : Config) (K : Nat) (coef : Coef) (lassoIC lassoCV : Direct.Lasso ℚ) (adj : Bool) (p : Nat)
    (Y : Nat → Fin N → ℚ) : ∃ o B, fit c K coef lassoIC lassoCV adj p Y = some (o, B) ∧ IsOrder p o ∧
      (B.isSome ↔ adj = true) ∧
      ∀ M, B = some M → (∀ i j, M i j ≠ 0 → Before o j i) ∧ Acyclic (Edge p M 0) := by
  obtain ⟨o, ho⟩ := order_some c (dataTau K coef Y) p
  have hio := order_isOrder ho
  refine ⟨o, _, by simp only [fit, ho]; rfl, hio, ?_, ?_⟩
  · cases adj <;> simp
  · intro M hM
    cases adj with
    | false => simp at hM
    | true =>
      simp only [if_true, Option.some.injEq] at hM
      subst hM
      refine ⟨fun i j h => Direct.estimateAdj_before h, acyclic_of_before hio.1 ?_⟩
      rintro a b ⟨-, -, h⟩
      exact Direct.estimateAdj_before (abs_pos.1 h)

/-- The Lasso that fills the matrix is chosen by comparing the number of rows with the number of columns. -/
theorem C118_entries (c : Config) (K : Nat) (coef : Coef) (lassoIC lassoCV : Direct.Lasso ℚ) (p : Nat)
    (Y : Nat → Fin N → ℚ) {o : List Nat} {M : Nat → Nat → ℚ} (h : fit c K coef lassoIC lassoCV true p Y = some (o, some M))
    {before after : List Nat} {t : Nat} (ho : o = before ++ t :: after) (j : Nat) :
    M t j = if j ∈ before then (if N ≤ p then lassoCV before t j else lassoIC before t j) else 0 := by
  obtain ⟨o', ho'⟩ := order_some c (dataTau K coef Y) p
  simp only [fit, ho', Option.some.injEq, Prod.mk.injEq, if_true] at h
  obtain ⟨rfl, rfl⟩ := h
  have hn := (order_isOrder ho').1
  rw [Direct.estimateAdj_row (by rw [← ho]; exact hn) ho j]
  simp only [Direct.predictors]
  by_cases hN : N ≤ p
  · simp only [if_pos hN]
  · simp only [if_neg hN]

example : ∃ o B, fit cfg0 4 (fun _ _ _ => 0) (fun _ _ _ => 1) (fun _ _ _ => 2) true 3 forkY = some (o, some B) := by
  obtain ⟨o, B, h1, -, h3, -⟩ := C118_order_and_matrix cfg0 4 (fun _ _ _ => 0) (fun _ _ _ => 1) (fun _ _ _ => 2) true 3 forkY
  obtain ⟨M, hM⟩ := Option.isSome_iff_exists.1 (h3.2 rfl)
  exact ⟨o, M, by rw [h1, hM]⟩

/-! ### C119: which variable comes first -/

theorem update_init (c : Config) (tau : Tau) {p v u : Nat} (hv : v < p) (hu : u < p) (huv : u ≠ v) :
    update c tau (init p) v u = min 100000 (tau [] v u) := by
  rw [update_eq (by simpa [init] using hv) huv]
  have h1 : stats c tau (init p) v u = tau [] v u := by
    have h2 : u ∈ (init p).psi ∧ u ≠ v := ⟨by simpa [init] using hu, huv⟩
    have h3 : (init p).theta.getLast? = none := rfl
    simp only [stats, h3]; exact if_pos h2
  rw [h1]
  simp only [init]; rw [if_neg (Ne.symm huv)]

/-- With at least two variables the first variable of the order is one whose largest statistic with any other variable,
cut off at 100000, is smallest; among several such variables it is the one in the leftmost column. -/
theorem C119_first_variable (c : Config) (K : Nat) {coef : Coef} (p : Nat) (hp : 2 ≤ p) {Y : Nat → Fin N → ℚ}
    {o : List Nat} (ho : order c (dataTau K coef Y) p = some o) :
    ∃ r t, o = r :: t ∧ r < p ∧ SmallestMaximum K p 100000 Y r ∧ ∀ v, v < r → ¬ SmallestMaximum K p 100000 Y v := by
  set tau := dataTau K coef Y with htau
  have hgap : ∀ v u, tau [] v u = momentGap K (Y v) (Y u) := by
    intro v u
    have : resid coef Y [] v = Y v := by funext r; simp [resid]
    rw [htau, dataTau, this, moment_eq]
  have hlen : (init p).psi.length = p := by simp [init]
  obtain ⟨i, r, hr, hmin, hfirst, hs⟩ := step_spec c tau (init p) (by intro h0; rw [h0] at hlen; simp at hlen; omega)
  obtain ⟨p', rfl⟩ : ∃ p', p = p' + 1 := ⟨p - 1, by omega⟩
  have hir : i = r := by
    simp only [init] at hr
    rw [List.getElem?_range (by
      by_contra hcon
      rw [List.getElem?_eq_none (by simpa using hcon)] at hr; cases hr)] at hr
    exact Option.some.inj hr
  subst hir
  have hrp : i < p' + 1 := by
    have : i ∈ (init (p' + 1)).psi := List.mem_iff_getElem?.2 ⟨i, hr⟩
    simpa [init] using this
  have hloop : loop c tau p' (step c tau (init (p' + 1))) = some o := by
    rw [order, loop, if_neg (by omega)] at ho; exact ho
  obtain ⟨t, ht⟩ := loop_prefix p' _ o hloop
  rw [hs] at ht
  -- upper bounds of the row maxima
  have hbound : ∀ v, v < p' + 1 → ∀ b, 0 ≤ b → (maxTau (update c tau (init (p' + 1))) (init (p' + 1)).psi v ≤ b ↔
      ∀ u, u < p' + 1 → u ≠ v → min 100000 (momentGap K (Y v) (Y u)) ≤ b) := by
    intro v hv b hb
    constructor
    · intro h u hu huv
      rw [← hgap, ← update_init c tau hv hu huv]
      exact (le_maxTau (by simpa [init] using hu)).trans h
    · intro h
      refine maxTau_le hb fun u hu => ?_
      have hu' : u < p' + 1 := by simpa [init] using hu
      by_cases huv : u = v
      · subst huv; simpa [update] using hb
      · rw [update_init c tau hv hu' huv, hgap]; exact h u hu' huv
  have hb0 : ∀ v, v < p' + 1 → ∀ b, (∀ u, u < p' + 1 → u ≠ v → min 100000 (momentGap K (Y v) (Y u)) ≤ b) → 0 ≤ b := by
    intro v hv b h
    obtain ⟨u, hu, huv⟩ : ∃ u, u < p' + 1 ∧ u ≠ v := by
      by_cases h0 : v = 0
      · exact ⟨1, by omega, by omega⟩
      · exact ⟨0, by omega, fun h => h0 h.symm⟩
    exact le_trans (le_min (by norm_num) (momentGap_nonneg _ _ _)) (h u hu huv)
  refine ⟨i, t, by rw [← ht]; simp [init], hrp, ?_, ?_⟩
  · intro v hv b hvb
    have h0 := hb0 v hv b hvb
    exact (hbound i hrp b h0).1 ((hmin v (by simpa [init] using hv)).trans ((hbound v hv b h0).2 hvb))
  · intro v hvi hcon
    have hvp : v < p' + 1 := by omega
    have hlt := hfirst v v hvi (by simp only [init]; rw [List.getElem?_range hvp])
    have h1 := hcon i hrp _ ((hbound i hrp _ (maxTau_nonneg _ _ _)).1 le_rfl)
    have h2 := (hbound v hvp _ (maxTau_nonneg _ _ _)).2 h1
    exact absurd hlt (not_lt.2 h2)

example (coef : Coef) : ∃ o, order cfg0 (dataTau 4 coef forkY) 3 = some o ∧ ∃ r t, o = r :: t ∧ SmallestMaximum 4 3 100000 forkY r := by
  obtain ⟨o, ho⟩ := order_some cfg0 (dataTau 4 coef forkY) 3
  obtain ⟨r, t, h, -, h', -⟩ := C119_first_variable cfg0 4 3 (by decide) ho
  exact ⟨o, ho, r, t, h, h'⟩

/-! ### C120: units -/

/-- Two variables: the smaller statistic decides. -/
theorem order_two (c : Config) {K : Nat} (Z : Nat → Fin N → ℚ) (coef : Coef) (r : Nat) (hr : r < 2)
    (hlt : min 100000 (momentGap K (Z r) (Z (1 - r))) < min 100000 (momentGap K (Z (1 - r)) (Z r))) :
    order c (dataTau K coef Z) 2 = some [r, 1 - r] := by
  obtain ⟨o, ho⟩ := order_some c (dataTau K coef Z) 2
  obtain ⟨r', t, rfl, hr', hmin, -⟩ := C119_first_variable c K 2 (by decide) ho
  have hio := order_isOrder ho
  have hrr : r' = r := by
    by_contra hne
    have h' : r' = 1 - r := by omega
    subst h'
    have := hmin r hr _ (fun u hu hur => by
      have : u = 1 - r := by omega
      rw [this]) r hr (by omega)
    exact absurd hlt (not_lt.2 this)
  subst hrr
  rw [ho]
  have hlen := (order_perm ho).length_eq
  simp only [List.length_cons, List.length_range] at hlen
  match t, hlen with
  | [w], _ =>
    have hw := (hio.2 w).1 (by simp)
    have hnd := hio.1
    simp at hnd
    have : w = 1 - r' := by omega
    rw [this]

/-- The order does depend on the units: whenever both statistics of a pair are nonzero, measuring the first variable in
a suitable unit makes it the cause, and measuring the second in a suitable unit makes that one the cause. -/
theorem C120_units_decide_pair (c : Config) {K : Nat} (hK : 0 < K) (Y : Nat → Fin N → ℚ)
    (h01 : momentGap K (Y 0) (Y 1) ≠ 0) (h10 : momentGap K (Y 1) (Y 0) ≠ 0) :
    (∃ a : ℚ, 0 < a ∧ ∀ coef, order c (dataTau K coef (fun q r => (if q = 0 then a else 1) * Y q r)) 2 = some [0, 1]) ∧
    ∃ a : ℚ, 0 < a ∧ ∀ coef, order c (dataTau K coef (fun q r => (if q = 1 then a else 1) * Y q r)) 2 = some [1, 0] := by
  have p01 : 0 < momentGap K (Y 0) (Y 1) := lt_of_le_of_ne (momentGap_nonneg _ _ _) (Ne.symm h01)
  have p10 : 0 < momentGap K (Y 1) (Y 0) := lt_of_le_of_ne (momentGap_nonneg _ _ _) (Ne.symm h10)
  -- a small enough unit
  have hsmall : ∀ x y : ℚ, 0 < x → 0 < y → ∃ a : ℚ, 0 < a ∧ a ^ (K + 1) * x < a * y ∧ a ^ (K + 1) * x < 100000 := by
    intro x y hx hy
    refine ⟨min 1 (min (y / (2 * x)) (1 / x)), by positivity, ?_, ?_⟩
    all_goals
      set a := min 1 (min (y / (2 * x)) (1 / x)) with ha
      have ha0 : 0 < a := by rw [ha]; positivity
      have ha1 : a ≤ 1 := min_le_left _ _
      have ha2 : a ≤ y / (2 * x) := (min_le_right _ _).trans (min_le_left _ _)
      have ha3 : a ≤ 1 / x := (min_le_right _ _).trans (min_le_right _ _)
      have hpow : a ^ (K + 1) ≤ a ^ 2 := pow_le_pow_of_le_one ha0.le ha1 (by omega)
    · have h1 : a * x ≤ y / 2 := by
        calc a * x ≤ y / (2 * x) * x := by gcongr
          _ = y / 2 := by field_simp
      calc a ^ (K + 1) * x ≤ a ^ 2 * x := by gcongr
        _ = a * (a * x) := by ring
        _ ≤ a * (y / 2) := by gcongr
        _ < a * y := by apply mul_lt_mul_of_pos_left _ ha0; linarith
    · have h1 : a * x ≤ 1 := by
        calc a * x ≤ 1 / x * x := by gcongr
          _ = 1 := by field_simp
      calc a ^ (K + 1) * x ≤ a ^ 2 * x := by gcongr
        _ = a * (a * x) := by ring
        _ ≤ 1 * 1 := mul_le_mul ha1 h1 (by positivity) (by norm_num)
        _ < 100000 := by norm_num
  constructor
  · obtain ⟨a, ha, h1, h2⟩ := hsmall _ _ p01 p10
    refine ⟨a, ha, fun coef => order_two c _ coef 0 (by decide) ?_⟩
    have e1 := momentGap_scale K (Y 0) (Y 1) a 1 hK
    have e2 := momentGap_scale K (Y 1) (Y 0) 1 a hK
    simp only [abs_one, one_pow, mul_one, one_mul, abs_of_pos ha] at e1 e2
    simp only [if_true, Nat.sub_zero, one_ne_zero, if_false, one_mul]
    rw [e1, e2]
    exact lt_min ((min_le_right _ _).trans_lt h2) ((min_le_right _ _).trans_lt h1)
  · obtain ⟨a, ha, h1, h2⟩ := hsmall _ _ p10 p01
    refine ⟨a, ha, fun coef => order_two c _ coef 1 (by decide) ?_⟩
    have e1 := momentGap_scale K (Y 1) (Y 0) a 1 hK
    have e2 := momentGap_scale K (Y 0) (Y 1) 1 a hK
    simp only [abs_one, one_pow, mul_one, one_mul, abs_of_pos ha] at e1 e2
    simp only [if_true, Nat.sub_self, zero_ne_one, if_false, one_mul]
    rw [e1, e2]
    exact lt_min ((min_le_right _ _).trans_lt h2) ((min_le_right _ _).trans_lt h1)

/-- If no statistic is zero, measuring everything in a small enough unit makes the order the order of the columns,
whatever the data say: statistics above the starting value of the table are not told apart. -/
theorem C120_large_values_column_order {c : Config} (hc : ∀ l, (c.enum l).Perm l) {K : Nat} (hK : 0 < K) (p : Nat)
    (Y : Nat → Fin N → ℚ) {δ a : ℚ} (hY : StatisticsAtLeast K p Y δ) (ha : 0 < a) (hbig : 100000 ≤ a ^ (K + 2) * δ)
    {coef : Coef} (hco : Solves coef (fun q r => a * Y q r)) :
    order c (dataTau K coef (fun q r => a * Y q r)) p = some (List.range p) := by
  obtain ⟨coef₀, h₀⟩ := exists_solves Y
  refine order_columns hc ?_
  intro S v u hv hu huv hS hvS huS
  rw [dataTau_scale (a := fun _ => a) hK (fun _ => ha.ne') h₀ hco, dataTau_eq h₀, abs_of_pos ha]
  refine hbig.trans ?_
  have : a ^ (K + 1) * a = a ^ (K + 2) := by ring
  rw [this]
  exact mul_le_mul_of_nonneg_left (hY v u S _ hv hu huv hS huS hvS (gs_isResidual Y S (Y v))) (by positivity)

/-- Changing the signs of variables does not change the order. -/
theorem C120_units_partial (c : Config) {K : Nat} (hK : 0 < K) (p : Nat) (Y : Nat → Fin N → ℚ) {a : Nat → ℚ}
    (ha : ∀ q, |a q| = 1) {coef coef' : Coef} (h : Solves coef Y) (h' : Solves coef' (fun q r => a q * Y q r)) :
    order c (dataTau K coef' (fun q r => a q * Y q r)) p = order c (dataTau K coef Y) p := by
  congr 1
  funext S v u
  rw [dataTau_scale hK (fun q h0 => by have := ha q; rw [h0] at this; simp at this) h h', ha, ha]
  simp

/-- The two effects of the common cause. -/
def effectsY : Nat → Fin 8 → ℚ := fun q r => forkY (q + 1) r

example : ∃ a b : ℚ, 0 < a ∧ 0 < b ∧ ∀ coef,
    order cfg0 (dataTau 4 coef (fun q r => (if q = 0 then a else 1) * effectsY q r)) 2 = some [0, 1] ∧
    order cfg0 (dataTau 4 coef (fun q r => (if q = 1 then b else 1) * effectsY q r)) 2 = some [1, 0] := by
  obtain ⟨⟨a, ha, h1⟩, b, hb, h2⟩ := C120_units_decide_pair cfg0 (K := 4) (by decide) effectsY (by decide +kernel) (by decide +kernel)
  exact ⟨a, b, ha, hb, fun coef => ⟨h1 coef, h2 coef⟩⟩

example {coef : Coef} (hco : Solves coef (fun q r => 10 * effectsY q r)) :
    order cfg0 (dataTau 4 coef (fun q r => 10 * effectsY q r)) 2 = some [0, 1] := by
  refine C120_large_values_column_order cfg0_enum (by decide) 2 effectsY (δ := 1) ?_ (by norm_num) (by norm_num) hco
  intro v u S res hv hu huv hS huS hvS hr
  have hnil : S = [] := List.eq_nil_iff_forall_not_mem.2 fun q hq => by
    have h1 := hS q hq
    have h2 : q ≠ u := by rintro rfl; exact huS hq
    have h3 : q ≠ v := by rintro rfl; exact hvS hq
    omega
  subst hnil
  rw [residual_unique hr (gs_isResidual effectsY [] (effectsY v))]
  have : ∀ v, v < 2 → ∀ u, u < 2 → u ≠ v → 1 ≤ momentGap 4 (gs effectsY [] (effectsY v)) (effectsY u) := by decide +kernel
  exact this v hv u hu huv

example {coef coef' : Coef} (h : Solves coef forkY) (h' : Solves coef' (fun q r => (-1) ^ q * forkY q r)) :
    order cfg0 (dataTau 4 coef' (fun q r => (-1) ^ q * forkY q r)) 3 = order cfg0 (dataTau 4 coef forkY) 3 :=
  C120_units_partial cfg0 (by decide) 3 forkY (a := fun q => (-1) ^ q) (fun q => by simp) h h'

/-- A polynomial of degree four takes large values. -/
theorem quartic_large {a4 : ℚ} (h : a4 ≠ 0) (a3 a2 a1 a0 T : ℚ) : ∃ s : ℚ, T < |a4 * s ^ 4 + a3 * s ^ 3 + a2 * s ^ 2 + a1 * s + a0| := by
  set C := |a3| + |a2| + |a1| + |a0| with hC
  have hC0 : 0 ≤ C := by positivity
  have h4 : 0 < |a4| := abs_pos.2 h
  set s := (C + |T| + 1) / |a4| + 1 with hs
  have hs1 : 1 ≤ s := by
    have : 0 ≤ (C + |T| + 1) / |a4| := by positivity
    linarith
  have hs0 : 0 ≤ s := by linarith
  refine ⟨s, ?_⟩
  have e : |a4| * s = C + |T| + 1 + |a4| := by rw [hs]; field_simp
  have s3 : 1 ≤ s ^ 3 := one_le_pow₀ hs1
  have s23 : s ^ 2 ≤ s ^ 3 := pow_le_pow_right₀ hs1 (by norm_num)
  have s13 : s ≤ s ^ 3 := by simpa using pow_le_pow_right₀ hs1 (show 1 ≤ 3 by norm_num)
  have low : |a3 * s ^ 3 + a2 * s ^ 2 + a1 * s + a0| ≤ C * s ^ 3 := by
    calc |a3 * s ^ 3 + a2 * s ^ 2 + a1 * s + a0| ≤ |a3| * s ^ 3 + |a2| * s ^ 2 + |a1| * s + |a0| := by
          refine (abs_add_le _ _).trans ?_
          refine add_le_add ((abs_add_le _ _).trans (add_le_add ((abs_add_le _ _).trans (add_le_add ?_ ?_)) ?_)) le_rfl
          · rw [abs_mul, abs_of_nonneg (by positivity : (0 : ℚ) ≤ s ^ 3)]
          · rw [abs_mul, abs_of_nonneg (by positivity : (0 : ℚ) ≤ s ^ 2)]
          · rw [abs_mul, abs_of_nonneg hs0]
      _ ≤ C * s ^ 3 := by
          have b2 := mul_le_mul_of_nonneg_left s23 (abs_nonneg a2)
          have b1 := mul_le_mul_of_nonneg_left s13 (abs_nonneg a1)
          have b0 := mul_le_mul_of_nonneg_left s3 (abs_nonneg a0)
          rw [hC]; linarith
  have top : |a4 * s ^ 4| = (C + |T| + 1 + |a4|) * s ^ 3 := by
    rw [abs_mul, abs_of_nonneg (by positivity : (0 : ℚ) ≤ s ^ 4), ← e]; ring
  have tri : |a4 * s ^ 4| ≤ |a4 * s ^ 4 + a3 * s ^ 3 + a2 * s ^ 2 + a1 * s + a0| + |a3 * s ^ 3 + a2 * s ^ 2 + a1 * s + a0| := by
    have := abs_sub (a4 * s ^ 4 + a3 * s ^ 3 + a2 * s ^ 2 + a1 * s + a0) (a3 * s ^ 3 + a2 * s ^ 2 + a1 * s + a0)
    rwa [show a4 * s ^ 4 + a3 * s ^ 3 + a2 * s ^ 2 + a1 * s + a0 - (a3 * s ^ 3 + a2 * s ^ 2 + a1 * s + a0) = a4 * s ^ 4 by ring] at this
  have hT : T ≤ |T| := le_abs_self T
  have : |T| + 1 ≤ (|T| + 1 + |a4|) * s ^ 3 := by
    calc |T| + 1 ≤ |T| + 1 + |a4| := by linarith
      _ ≤ (|T| + 1 + |a4|) * s ^ 3 := le_mul_of_one_le_right (by positivity) s3
  nlinarith

/-- The order depends on the origin of measurement, since the data are not centred: whenever two variables are correlated and the second is
symmetric about its mean, measuring the first one from a suitable origin makes the second one the cause. -/
theorem C120_origin_decides_pair (c : Config) (Y : Nat → Fin N → ℚ) (h1 : ∑ r, Y 1 r = 0) (h3 : ∑ r, Y 1 r ^ 3 = 0)
    (hcov : ∑ r, Y 0 r * Y 1 r ≠ 0) (hcap : momentGap 4 (Y 1) (Y 0) < 100000) :
    ∃ s : ℚ, ∀ coef, order c (dataTau 4 coef (fun q r => (if q = 0 then s else 0) + Y q r)) 2 = some [1, 0] := by
  have hN : (N : ℚ) ≠ 0 := by
    intro h
    have : N = 0 := by exact_mod_cast h
    subst this
    exact hcov (by simp)
  obtain ⟨s, hs⟩ := quartic_large (a4 := 2 * N * (∑ r, Y 0 r * Y 1 r)) (by simp [hN, hcov])
    (3 * N * (∑ r, Y 0 r ^ 2 * Y 1 r) + 6 * (∑ r, Y 0 r) * (∑ r, Y 0 r * Y 1 r) - 4 * (∑ r, Y 0 r) * (∑ r, Y 0 r * Y 1 r))
    (N * (∑ r, Y 0 r ^ 3 * Y 1 r) + 6 * (∑ r, Y 0 r) * (∑ r, Y 0 r ^ 2 * Y 1 r) + 3 * (∑ r, Y 0 r ^ 2) * (∑ r, Y 0 r * Y 1 r) -
      6 * (∑ r, Y 0 r ^ 2) * (∑ r, Y 0 r * Y 1 r))
    (2 * (∑ r, Y 0 r) * (∑ r, Y 0 r ^ 3 * Y 1 r) + 3 * (∑ r, Y 0 r ^ 2) * (∑ r, Y 0 r ^ 2 * Y 1 r) -
      4 * (∑ r, Y 0 r ^ 3) * (∑ r, Y 0 r * Y 1 r))
    ((∑ r, Y 0 r ^ 2) * (∑ r, Y 0 r ^ 3 * Y 1 r) - (∑ r, Y 0 r ^ 4) * (∑ r, Y 0 r * Y 1 r))
    (momentGap 4 (Y 1) (Y 0) * N ^ 2)
  refine ⟨s, fun coef => order_two c _ coef 1 (by decide) ?_⟩
  simp only [Nat.sub_self, if_true, one_ne_zero, if_false, zero_add]
  have e1 : momentGap 4 (Y 1) (fun r => s + Y 0 r) = momentGap 4 (Y 1) (Y 0) := by
    unfold momentGap
    have a1 : ∑ r, Y 1 r ^ (4 - 1) * (s + Y 0 r) = ∑ r, Y 1 r ^ (4 - 1) * Y 0 r := by
      simp only [mul_add, sum_add_distrib, ← sum_mul]
      rw [show (4 - 1 : Nat) = 3 from rfl, h3]; ring
    have a2 : ∑ r, Y 1 r * (s + Y 0 r) = ∑ r, Y 1 r * Y 0 r := by
      simp only [mul_add, sum_add_distrib, ← sum_mul]
      rw [h1]; ring
    rw [a1, a2]
  rw [e1]
  have key : momentGap 4 (Y 1) (Y 0) < momentGap 4 (fun r => s + Y 0 r) (Y 1) := by
    have hN2 : (0 : ℚ) < N ^ 2 := by positivity
    rw [show momentGap 4 (fun r => s + Y 0 r) (Y 1) =
      |((∑ r, (s + Y 0 r) ^ (4 - 1) * Y 1 r) * (∑ r, (s + Y 0 r) ^ 2) - (∑ r, (s + Y 0 r) ^ 4) * ∑ r, (s + Y 0 r) * Y 1 r) / N ^ 2| from rfl,
      abs_div, abs_of_pos hN2, lt_div_iff₀ hN2]
    refine hs.trans_le (le_of_eq ?_)
    congr 1
    have b1 : ∑ r, (s + Y 0 r) ^ (4 - 1) * Y 1 r = ∑ r, Y 0 r ^ 3 * Y 1 r + 3 * s * (∑ r, Y 0 r ^ 2 * Y 1 r) + 3 * s ^ 2 * (∑ r, Y 0 r * Y 1 r) := by
      have : ∀ r, (s + Y 0 r) ^ (4 - 1) * Y 1 r = Y 0 r ^ 3 * Y 1 r + 3 * s * (Y 0 r ^ 2 * Y 1 r) + 3 * s ^ 2 * (Y 0 r * Y 1 r) + s ^ 3 * Y 1 r :=
        fun r => by rw [show (4 - 1 : Nat) = 3 from rfl]; ring
      simp only [this, sum_add_distrib, ← mul_sum, h1]
      ring
    have b2 : ∑ r, (s + Y 0 r) ^ 2 = ∑ r, Y 0 r ^ 2 + 2 * s * (∑ r, Y 0 r) + s ^ 2 * N := by
      have : ∀ r, (s + Y 0 r) ^ 2 = Y 0 r ^ 2 + 2 * s * Y 0 r + s ^ 2 := fun r => by ring
      simp only [this, sum_add_distrib, ← mul_sum, sum_const, card_univ, Fintype.card_fin, nsmul_eq_mul]
      ring
    have b3 : ∑ r, (s + Y 0 r) ^ 4 = ∑ r, Y 0 r ^ 4 + 4 * s * (∑ r, Y 0 r ^ 3) + 6 * s ^ 2 * (∑ r, Y 0 r ^ 2) + 4 * s ^ 3 * (∑ r, Y 0 r) + s ^ 4 * N := by
      have : ∀ r, (s + Y 0 r) ^ 4 = Y 0 r ^ 4 + 4 * s * Y 0 r ^ 3 + 6 * s ^ 2 * Y 0 r ^ 2 + 4 * s ^ 3 * Y 0 r + s ^ 4 := fun r => by ring
      simp only [this, sum_add_distrib, ← mul_sum, sum_const, card_univ, Fintype.card_fin, nsmul_eq_mul]
      ring
    have b4 : ∑ r, (s + Y 0 r) * Y 1 r = ∑ r, Y 0 r * Y 1 r := by
      simp only [add_mul, sum_add_distrib, ← mul_sum, h1]
      ring
    rw [b1, b2, b3, b4]
    ring
  exact (min_le_right _ _).trans_lt (lt_min hcap key)

/-- Concrete case: `x1 = 2 x0 + e1`; the true order is found for the given data, and the opposite one for another origin of `x0`. -/
example : (∀ coef, order cfg0 (dataTau 4 coef forkY) 2 = some [0, 1]) ∧
    ∃ s : ℚ, ∀ coef, order cfg0 (dataTau 4 coef (fun q r => (if q = 0 then s else 0) + forkY q r)) 2 = some [1, 0] :=
  ⟨fun coef => order_two cfg0 forkY coef 0 (by decide) (by decide +kernel),
    C120_origin_decides_pair cfg0 forkY (by decide +kernel) (by decide +kernel) (by decide +kernel) (by decide +kernel)⟩

/-! ### C121: recovery of the true order -/

/-- The order is not recovered in general: exactly independent errors, every omitted cause visible, yet the order puts a
variable before its cause.  The last ordered variable is always regressed on and is then dropped from the possible
parents, so the two common causes are never used together. -/
theorem C121_order_not_recovered : ∃ (B : Nat → Nat → ℚ) (Y e : Nat → Fin 16 → ℚ),
    Acyclic (Edge 4 B 0) ∧ FollowsModel (Finset.range 4) B Y e ∧ MomentIndependent 4 4 e ∧ VisibleCauses 4 4 B Y ∧
    ∀ coef, Solves coef Y → ∃ o, order cfg0 (dataTau 4 coef Y) 4 = some o ∧ B 3 2 ≠ 0 ∧ Before o 3 2 := by
  refine ⟨denseB, denseY, denseE, dense_acyclic, dense_follows, dense_independent, dense_visible, fun coef hco => ?_⟩
  refine ⟨[0, 1, 3, 2], by rw [dataTau_eq hco]; exact dense_order, by decide +kernel, ⟨[0, 1], [], [], rfl⟩⟩

/-- If every variable has at most one direct cause and omitted causes are visible, exact independence of the errors (in
the moments used) is enough: every cause comes before its effects, for all parameters. -/
theorem C121_order_recovered_partial {c : Config} (hc : ∀ l, (c.enum l).Perm l) {K p : Nat} (hK : 0 < K)
    {B : Nat → Nat → ℚ} {Y e : Nat → Fin N → ℚ} (hac : Acyclic (Edge p B 0)) (hY : FollowsModel (Finset.range p) B Y e)
    (hm : MomentIndependent K p e) (hone : AtMostOneCause p B) (hf : VisibleCauses K p B Y) {coef : Coef}
    (hco : Solves coef Y) {lassoIC lassoCV : Direct.Lasso ℚ} {adj : Bool} {o : List Nat} {M : Option (Nat → Nat → ℚ)}
    (h : fit c K coef lassoIC lassoCV adj p Y = some (o, M)) {i j : Nat} (hi : i < p) (hj : j < p) (hb : B i j ≠ 0) :
    Before o j i := by
  obtain ⟨o', ho'⟩ := order_some c (dataTau K coef Y) p
  simp only [fit, ho', Option.some.injEq, Prod.mk.injEq] at h
  obtain ⟨rfl, -⟩ := h
  exact order_recovers hc hco hK hac hY hm hone hf ho' hi hj hb

example {coef : Coef} (hco : Solves coef forkY) {o : List Nat} {M : Option (Nat → Nat → ℚ)}
    (h : fit cfg0 4 coef (fun _ _ _ => 0) (fun _ _ _ => 0) true 3 forkY = some (o, M)) : Before o 0 1 ∧ Before o 0 2 :=
  ⟨C121_order_recovered_partial cfg0_enum (by decide) fork_acyclic fork_follows fork_independent fork_one fork_visible hco h
      (by decide) (by decide) (by decide +kernel),
    C121_order_recovered_partial cfg0_enum (by decide) fork_acyclic fork_follows fork_independent fork_one fork_visible hco h
      (by decide) (by decide) (by decide +kernel)⟩

/-! ### C122: conditioning sets -/

/-- `C122_single_set` with the model's list of possible parents. -/
theorem single_set {c : Config} (hc : ∀ l, (c.enum l).Perm l) (hJ : 2 < c.J) (s : State) (hn : s.theta.Nodup) {last : Nat}
    (hl : s.theta.getLast? = some last) (v : Nat) :
    ∃ S : List Nat, S.length ≤ c.J ∧ (∀ q ∈ S, q ∈ condSet s last v) ∧
      (∀ tau tau' : Tau, (∀ u, tau S v u = tau' S v u) → ∀ u, stats c tau s v u = stats c tau' s v u) ∧
      (c.J < (condSet s last v).length → ∃ S' : List Nat, S'.Nodup ∧ S'.length = S.length ∧ last ∈ S' ∧
        (∀ q ∈ S', q ∈ condSet s last v) ∧ ∃ q ∈ S, q ∉ S') := by
  set cs := condSet s last v with hcs
  set rest := cs.filter (fun u => decide (u ≠ last)) with hrest
  have hlast : last ∈ cs := by
    rw [hcs, condSet, List.mem_filter]; exact ⟨List.mem_of_getLast? hl, by simp⟩
  have hnd : cs.Nodup := hn.filter _
  have hlen : cs.length = rest.length + 1 := by
    have := (filter_ne_perm hnd hlast).length_eq
    simpa [hrest] using this
  have henum := hc rest
  have helen : (c.enum rest).length = rest.length := henum.length_eq
  have hsub : subset c s last v = (c.enum rest).take (min c.J cs.length - 1) := by
    unfold subset
    simp only [← hcs, ← hrest]
    by_cases h1 : (c.enum rest).length = 1
    · rw [if_pos h1, List.take_of_length_le]; omega
    · rw [if_neg h1]
  have hmem : ∀ q ∈ c.enum rest, q ∈ cs ∧ q ≠ last := by
    intro q hq
    rw [henum.mem_iff, hrest, List.mem_filter] at hq
    simpa using hq
  refine ⟨last :: subset c s last v, ?_, ?_, ?_, ?_⟩
  · rw [hsub, List.length_cons, List.length_take]; omega
  · intro q hq
    rcases List.mem_cons.1 hq with rfl | hq
    · exact hlast
    · rw [hsub] at hq; exact (hmem q (List.mem_of_mem_take hq)).1
  · intro tau tau' h u
    simp only [stats, hl, h]
  · intro hbig
    have hmin : min c.J cs.length - 1 = c.J - 1 := by omega
    rw [hsub, hmin]
    have hend : (c.enum rest).Nodup := henum.nodup_iff.2 (hnd.filter _)
    obtain ⟨a, t, hat⟩ : ∃ a t, c.enum rest = a :: t := by
      cases he : c.enum rest with
      | nil => rw [he] at helen; simp at helen; omega
      | cons a t => exact ⟨a, t, rfl⟩
    have htl : t.length + 1 = rest.length := by rw [hat] at helen; simpa using helen
    rw [hat] at hmem hend ⊢
    have hat' : a ∉ t := (List.nodup_cons.1 hend).1
    refine ⟨last :: t.take (c.J - 1), ?_, ?_, by simp, ?_, a, ?_, ?_⟩
    · refine List.nodup_cons.2 ⟨fun h => (hmem last (by simp [List.mem_of_mem_take h])).2 rfl, ?_⟩
      exact (List.nodup_cons.1 hend).2.sublist (List.take_sublist _ _)
    · simp only [List.length_cons, List.length_take]; omega
    · intro q hq
      rcases List.mem_cons.1 hq with rfl | hq
      · exact hlast
      · exact (hmem q (by simp [List.mem_of_mem_take hq])).1
    · have : c.J - 1 = (c.J - 2) + 1 := by omega
      rw [this, List.take_succ_cons]; simp
    · intro h
      rcases List.mem_cons.1 h with h | h
      · exact (hmem a (by simp)).2 h
      · exact hat' (List.mem_of_mem_take h)

/-- Not all sets of possible parents are tried (a possible parent is an
ordered variable whose statistic for `v` exceeds the threshold, or the last ordered variable): the statistics of a remaining variable come from one regression, on the
last ordered variable and one choice of at most `J - 1` other possible parents.  If there are at least `J` others, some
set of the same size is never looked at. -/
theorem C122_single_set {c : Config} (hc : ∀ l, (c.enum l).Perm l) (hJ : 2 < c.J) (s : State) (hn : s.theta.Nodup) {last : Nat}
    (hl : s.theta.getLast? = some last) (v : Nat) :
    ∃ S : List Nat, S.length ≤ c.J ∧ (∀ q ∈ S, q ∈ s.theta ∧ (s.cut < s.prune v q ∨ q = last)) ∧
      (∀ tau tau' : Tau, (∀ u, tau S v u = tau' S v u) → ∀ u, stats c tau s v u = stats c tau' s v u) ∧
      (c.J < (s.theta.filter (fun q => decide (s.cut < s.prune v q ∨ q = last))).length →
        ∃ S' : List Nat, S'.Nodup ∧ S'.length = S.length ∧ last ∈ S' ∧
          (∀ q ∈ S', q ∈ s.theta ∧ (s.cut < s.prune v q ∨ q = last)) ∧ ∃ q ∈ S, q ∉ S') := by
  have hcs : condSet s last v = s.theta.filter (fun q => decide (s.cut < s.prune v q ∨ q = last)) := by
    unfold condSet
    exact List.filter_congr fun q _ => by simp
  have hmem : ∀ q, q ∈ condSet s last v ↔ q ∈ s.theta ∧ (s.cut < s.prune v q ∨ q = last) := by
    intro q; rw [hcs, List.mem_filter, decide_eq_true_iff]
  obtain ⟨S, h1, h2, h3, h4⟩ := single_set hc hJ s hn hl v
  refine ⟨S, h1, fun q hq => (hmem q).1 (h2 q hq), h3, fun hb => ?_⟩
  obtain ⟨S', a1, a2, a3, a4, a5⟩ := h4 (by rw [hcs]; exact hb)
  exact ⟨S', a1, a2, a3, fun q hq => (hmem q).1 (a4 q hq), a5⟩

example : ∃ S : List Nat, S.length ≤ 3 ∧ (∀ q ∈ S, q < 4) ∧ ∃ S' : List Nat, S'.length = S.length ∧ 3 ∈ S' ∧ (∀ q ∈ S', q < 4) ∧
    ∃ q ∈ S, q ∉ S' := by
  obtain ⟨S, h1, h2, -, h3⟩ := C122_single_set cfg0_enum (by decide) ⟨[0, 1, 2, 3], [4, 5], fun _ _ => 1, 0⟩ (by decide)
    (last := 3) rfl 4
  obtain ⟨S', -, h4, h5, h6, h7⟩ := h3 (by decide +kernel)
  have hlt : ∀ q ∈ [0, 1, 2, 3], q < 4 := by decide
  exact ⟨S, h1, fun q hq => hlt q (h2 q hq).1, S', h4, h5, fun q hq => hlt q (h6 q hq).1, h7⟩

end Verif.HighDim
