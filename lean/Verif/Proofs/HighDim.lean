import Verif.Model.HighDim
import Verif.Spec.HighDim
import Verif.Proofs.Numpy
import Verif.Proofs.DirectLingam
import Mathlib.Tactic.Ring
import Mathlib.Tactic.LinearCombination
import Mathlib.Tactic.FieldSimp
import Mathlib.Tactic.Positivity

set_option autoImplicit false
set_option linter.unusedSectionVars false
namespace Verif.HighDim
open Finset

variable {N : Nat}

/-! ### The loop -/

theorem foldl_max_le {b : ℚ} : ∀ (l : List ℚ) (a : ℚ), a ≤ b → (∀ x ∈ l, x ≤ b) → l.foldl max a ≤ b
  | [], _, ha, _ => ha
  | x :: l, a, ha, h => by
    simp only [List.foldl_cons]
    exact foldl_max_le l _ (max_le ha (h x (by simp))) fun y hy => h y (by simp [hy])

theorem le_foldl_max_init : ∀ (l : List ℚ) (a : ℚ), a ≤ l.foldl max a
  | [], _ => le_refl _
  | _ :: l, a => (le_max_left a _).trans (le_foldl_max_init l _)

theorem le_foldl_max : ∀ (l : List ℚ) (a x : ℚ), x ∈ l → x ≤ l.foldl max a
  | y :: l, a, x, h => by
    simp only [List.foldl_cons]
    rcases List.mem_cons.1 h with h | h
    · subst h; exact (le_max_right a x).trans (le_foldl_max_init l _)
    · exact le_foldl_max l _ x h

theorem maxTau_nonneg (prune : Nat → Nat → ℚ) (psi : List Nat) (v : Nat) : 0 ≤ maxTau prune psi v := le_foldl_max_init _ _

theorem le_maxTau {prune : Nat → Nat → ℚ} {psi : List Nat} {v u : Nat} (h : u ∈ psi) : prune v u ≤ maxTau prune psi v :=
  le_foldl_max _ _ _ (List.mem_map_of_mem h)

theorem maxTau_le {prune : Nat → Nat → ℚ} {psi : List Nat} {v : Nat} {b : ℚ} (hb : 0 ≤ b) (h : ∀ u ∈ psi, prune v u ≤ b) :
    maxTau prune psi v ≤ b := by
  refine foldl_max_le _ _ hb ?_
  intro x hx
  obtain ⟨u, hu, rfl⟩ := List.mem_map.1 hx
  exact h u hu

theorem step_spec (c : Config) (tau : Tau) (s : State) (hne : s.psi ≠ []) :
    ∃ i r, s.psi[i]? = some r ∧
      (∀ v ∈ s.psi, maxTau (update c tau s) s.psi r ≤ maxTau (update c tau s) s.psi v) ∧
      (∀ (j : Nat) (w : Nat), j < i → s.psi[j]? = some w →
        maxTau (update c tau s) s.psi r < maxTau (update c tau s) s.psi w) ∧
      step c tau s = ⟨s.theta ++ [r], s.psi.filter (fun u => decide (u ≠ r)), update c tau s,
        max s.cut (maxTau (update c tau s) s.psi r * c.alpha)⟩ := by
  cases ha : argmin ((s.psi.map (maxTau (update c tau s) s.psi)).map some) with
  | none =>
    rw [argmin_eq_none] at ha
    simp at ha
    exact absurd ha hne
  | some i =>
    obtain ⟨m, hm, hmin⟩ := argmin_spec ha
    rw [List.getElem?_map] at hm
    obtain ⟨r, hr, rfl⟩ := Option.map_eq_some_iff.1 hm
    refine ⟨i, r, hr, ?_, ?_, ?_⟩
    · intro v hv
      obtain ⟨j, hj⟩ := List.mem_iff_getElem?.1 hv
      exact (hmin j _ (by rw [List.getElem?_map, hj]; rfl)).1
    · intro j w hj hw
      exact (hmin j _ (by rw [List.getElem?_map, hw]; rfl)).2 hj
    · have h1 : s.psi.getD i 0 = r := by rw [List.getD_eq_getElem?_getD, hr]; rfl
      have h2 : (s.psi.map (maxTau (update c tau s) s.psi)).getD i 0 = maxTau (update c tau s) s.psi r := by
        rw [List.getD_eq_getElem?_getD, List.getElem?_map, hr]; rfl
      simp only [step, ha, h1, h2]

theorem loop_inv {c : Config} {tau : Tau} (P : State → Prop)
    (hstep : ∀ s, P s → 1 < s.psi.length → P (step c tau s)) :
    ∀ (fuel : Nat) (s : State) (o : List Nat), P s → loop c tau fuel s = some o →
      ∃ s', P s' ∧ s'.psi.length ≤ 1 ∧ o = s'.theta ++ s'.psi
  | 0, s, o, hP, h => by
    simp only [loop] at h
    by_cases hl : s.psi.length ≤ 1
    · rw [if_pos hl] at h; exact ⟨s, hP, hl, (Option.some.inj h).symm⟩
    · rw [if_neg hl] at h; cases h
  | fuel + 1, s, o, hP, h => by
    simp only [loop] at h
    by_cases hl : s.psi.length ≤ 1
    · rw [if_pos hl] at h; exact ⟨s, hP, hl, (Option.some.inj h).symm⟩
    · rw [if_neg hl] at h; exact loop_inv P hstep fuel _ o (hstep s hP (by omega)) h

theorem filter_ne_perm {l : List Nat} (hn : l.Nodup) {r : Nat} (hr : r ∈ l) :
    List.Perm l (r :: l.filter (fun u => decide (u ≠ r))) := by
  refine (List.perm_ext_iff_of_nodup hn ?_).2 ?_
  · simp only [List.nodup_cons, List.mem_filter]
    exact ⟨by simp, hn.filter _⟩
  · intro a
    simp only [List.mem_cons, List.mem_filter, decide_eq_true_eq]
    constructor
    · intro h; by_cases ha : a = r
      · exact .inl ha
      · exact .inr ⟨h, ha⟩
    · rintro (rfl | h)
      · exact hr
      · exact h.1

/-- What every state of the loop satisfies: the two lists share out the variables. -/
def Shared (p : Nat) (s : State) : Prop := (s.theta ++ s.psi).Perm (List.range p)

theorem Shared.nodup {p : Nat} {s : State} (h : Shared p s) : (s.theta ++ s.psi).Nodup := h.nodup_iff.2 List.nodup_range

theorem Shared.psi_nodup {p : Nat} {s : State} (h : Shared p s) : s.psi.Nodup := (List.nodup_append.1 h.nodup).2.1

theorem Shared.step {p : Nat} {c : Config} {tau : Tau} {s : State} (h : Shared p s) (hl : 1 < s.psi.length) :
    Shared p (step c tau s) := by
  obtain ⟨i, r, hr, -, -, hs⟩ := step_spec c tau s (by intro h0; rw [h0] at hl; simp at hl)
  have hmem : r ∈ s.psi := List.mem_iff_getElem?.2 ⟨i, hr⟩
  rw [Shared, hs]
  refine List.Perm.trans ?_ h
  simp only [List.append_assoc, List.singleton_append]
  exact List.Perm.append_left _ (filter_ne_perm h.psi_nodup hmem).symm

theorem step_length {p : Nat} {c : Config} {tau : Tau} {s : State} (h : Shared p s) (hl : 1 < s.psi.length) :
    (HighDim.step c tau s).psi.length + 1 = s.psi.length := by
  obtain ⟨i, r, hr, -, -, hs⟩ := step_spec c tau s (by intro h0; rw [h0] at hl; simp at hl)
  have hmem : r ∈ s.psi := List.mem_iff_getElem?.2 ⟨i, hr⟩
  rw [hs]
  simpa using (filter_ne_perm h.psi_nodup hmem).length_eq.symm

theorem loop_some {p : Nat} {c : Config} {tau : Tau} : ∀ (fuel : Nat) (s : State), Shared p s → s.psi.length ≤ fuel + 1 →
    ∃ o, loop c tau fuel s = some o
  | 0, s, _, hl => ⟨s.theta ++ s.psi, by simp only [loop]; rw [if_pos (by omega)]⟩
  | fuel + 1, s, h, hl => by
    by_cases h1 : s.psi.length ≤ 1
    · exact ⟨s.theta ++ s.psi, by simp only [loop]; rw [if_pos h1]⟩
    · have := step_length (c := c) (tau := tau) h (by omega)
      obtain ⟨o, ho⟩ := loop_some fuel _ (h.step (c := c) (tau := tau) (by omega)) (by omega)
      exact ⟨o, by simp only [loop]; rw [if_neg h1]; exact ho⟩

theorem shared_init (p : Nat) : Shared p (init p) := by simp [Shared, init]

theorem order_some (c : Config) (tau : Tau) (p : Nat) : ∃ o, order c tau p = some o :=
  loop_some p (init p) (shared_init p) (by simp [init])

theorem order_perm {c : Config} {tau : Tau} {p : Nat} {o : List Nat} (h : order c tau p = some o) : o.Perm (List.range p) := by
  obtain ⟨s, hs, -, rfl⟩ := loop_inv (Shared p) (fun s hs hl => hs.step hl) _ _ _ (shared_init p) h
  exact hs

theorem order_isOrder {c : Config} {tau : Tau} {p : Nat} {o : List Nat} (h : order c tau p = some o) : IsOrder p o :=
  ⟨(order_perm h).nodup_iff.2 List.nodup_range, fun i => by rw [(order_perm h).mem_iff]; simp⟩

/-- Everything after the first iteration only appends to the ordered variables. -/
theorem loop_prefix {c : Config} {tau : Tau} : ∀ (fuel : Nat) (s : State) (o : List Nat), loop c tau fuel s = some o →
    s.theta <+: o := by
  intro fuel s o h
  obtain ⟨s', hs', -, rfl⟩ := loop_inv (fun t => s.theta <+: t.theta) (by
    intro t ht hl
    obtain ⟨i, r, hr, -, -, hs⟩ := step_spec c tau t (by intro h0; rw [h0] at hl; simp at hl)
    rw [hs]; exact ht.trans (List.prefix_append _ _)) fuel s o List.prefix_rfl h
  exact hs'.trans (List.prefix_append _ _)

/-! ### Residuals -/

theorem list_sum_orthogonal (S : List Nat) (Y : Nat → Fin N → ℚ) (d : Nat → ℚ) (x : Fin N → ℚ)
    (h : ∀ q ∈ S, ∑ r, x r * Y q r = 0) : ∑ r, x r * (S.map (fun q => d q * Y q r)).sum = 0 := by
  induction S with
  | nil => simp
  | cons q S ih =>
    simp only [List.map_cons, List.sum_cons, mul_add, Finset.sum_add_distrib]
    rw [ih fun p hp => h p (by simp [hp])]
    have : ∑ r, x r * (d q * Y q r) = d q * ∑ r, x r * Y q r := by
      rw [Finset.mul_sum]; exact Finset.sum_congr rfl fun r _ => by ring
    rw [this, h q (by simp)]; ring

theorem list_sum_sub (S : List Nat) (f g : Nat → ℚ) : (S.map f).sum - (S.map g).sum = (S.map (fun q => f q - g q)).sum := by
  induction S with
  | nil => simp
  | cons q S ih => simp only [List.map_cons, List.sum_cons, ← ih]; ring

/-- Least squares residuals are unique. -/
theorem residual_unique {S : List Nat} {Y : Nat → Fin N → ℚ} {y x x' : Fin N → ℚ} (h : IsSampleResidual S Y y x)
    (h' : IsSampleResidual S Y y x') : x = x' := by
  obtain ⟨⟨c, hc⟩, ho⟩ := h
  obtain ⟨⟨c', hc'⟩, ho'⟩ := h'
  have hd : ∀ r, x r - x' r = (S.map (fun q => (c' q - c q) * Y q r)).sum := by
    intro r
    rw [hc, hc']
    have := list_sum_sub S (fun q => c' q * Y q r) (fun q => c q * Y q r)
    simp only [← sub_mul] at this
    rw [← this]; ring
  have h0 : ∑ r, (x r - x' r) * (S.map (fun q => (c' q - c q) * Y q r)).sum = 0 :=
    list_sum_orthogonal S Y _ (fun r => x r - x' r) fun q hq => by
      simp only [sub_mul, Finset.sum_sub_distrib, ho q hq, ho' q hq, sub_self]
  simp only [← hd] at h0
  rw [Finset.sum_eq_zero_iff_of_nonneg fun r _ => mul_self_nonneg _] at h0
  funext r
  have := h0 r (Finset.mem_univ r)
  linarith [mul_self_eq_zero.1 this]

/-- Gram-Schmidt: the residual computed one predictor at a time. -/
def gs (Y : Nat → Fin N → ℚ) : List Nat → (Fin N → ℚ) → Fin N → ℚ
  | [], y => y
  | q :: S, y =>
    let q' := gs Y S (Y q)
    let y' := gs Y S y
    let b := (∑ r, y' r * q' r) / ∑ r, q' r * q' r
    fun r => y' r - b * q' r

theorem sum_self_eq_zero {x : Fin N → ℚ} (h : ∑ r, x r * x r = 0) : x = 0 := by
  rw [Finset.sum_eq_zero_iff_of_nonneg fun r _ => mul_self_nonneg _] at h
  funext r
  exact mul_self_eq_zero.1 (h r (Finset.mem_univ r))

theorem sum_indicator (S : List Nat) (Y : Nat → ℚ) (c d : Nat → ℚ) :
    (S.map (fun p => c p * Y p)).sum + (S.map (fun p => d p * Y p)).sum = (S.map (fun p => (c p + d p) * Y p)).sum := by
  induction S with
  | nil => simp
  | cons q S ih => simp only [List.map_cons, List.sum_cons, ← ih]; ring

/-- Anything in the span of `S` is in the span of `q :: S`. -/
theorem span_cons (Y : Nat → Fin N → ℚ) (q : Nat) (S : List Nat) (c : Nat → ℚ) (b : ℚ) :
    ∃ d : Nat → ℚ, ∀ r, b * Y q r + (S.map (fun p => c p * Y p r)).sum = ((q :: S).map (fun p => d p * Y p r)).sum := by
  by_cases hq : q ∈ S
  · -- `q` occurs `m` times in `S`; spread the coefficients over all occurrences
    have hm : (0 : ℚ) < S.count q + 1 := by positivity
    have key : ∀ (T : List Nat) (r : Fin N) (x : ℚ),
        (T.map (fun p => (if p = q then x else c p) * Y p r)).sum
          = (T.map (fun p => c p * Y p r)).sum + (T.count q : ℚ) * (x - c q) * Y q r := by
      intro T r x
      induction T with
      | nil => simp
      | cons t T ih =>
        simp only [List.map_cons, List.sum_cons, ih, List.count_cons]
        by_cases ht : t = q
        · subst ht; simp; ring
        · simp [ht]; ring
    refine ⟨fun p => if p = q then (b + S.count q * c q) / (S.count q + 1) else c p, fun r => ?_⟩
    simp only [List.map_cons, List.sum_cons, if_true]
    rw [key S r ((b + S.count q * c q) / (S.count q + 1))]
    field_simp
    ring
  · refine ⟨fun p => if p = q then b else c p, fun r => ?_⟩
    simp only [List.map_cons, List.sum_cons, if_true]
    congr 1
    exact congrArg _ (List.map_congr_left fun p hp => by rw [if_neg (by rintro rfl; exact hq hp)])

theorem gs_isResidual (Y : Nat → Fin N → ℚ) : ∀ (S : List Nat) (y : Fin N → ℚ), IsSampleResidual S Y y (gs Y S y)
  | [], y => ⟨⟨fun _ => 0, fun r => by simp [gs]⟩, fun q hq => by simp at hq⟩
  | q :: S, y => by
    obtain ⟨⟨cq, hcq⟩, hoq⟩ := gs_isResidual Y S (Y q)
    obtain ⟨⟨cy, hcy⟩, hoy⟩ := gs_isResidual Y S y
    set q' := gs Y S (Y q) with hq'
    set y' := gs Y S y with hy'
    set b := (∑ r, y' r * q' r) / ∑ r, q' r * q' r with hb
    have hdef : gs Y (q :: S) y = fun r => y' r - b * q' r := rfl
    rw [hdef]
    have hort : ∑ r, (y' r - b * q' r) * q' r = 0 := by
      by_cases h0 : ∑ r, q' r * q' r = 0
      · have := sum_self_eq_zero h0
        simp [this]
      · simp only [sub_mul, Finset.sum_sub_distrib]
        have : ∑ r, b * q' r * q' r = b * ∑ r, q' r * q' r := by
          rw [Finset.mul_sum]; exact Finset.sum_congr rfl fun r _ => by ring
        rw [this, hb, div_mul_cancel₀ _ h0, sub_self]
    have hoS : ∀ p ∈ S, ∑ r, (y' r - b * q' r) * Y p r = 0 := by
      intro p hp
      simp only [sub_mul, Finset.sum_sub_distrib]
      have : ∑ r, b * q' r * Y p r = b * ∑ r, q' r * Y p r := by
        rw [Finset.mul_sum]; exact Finset.sum_congr rfl fun r _ => by ring
      rw [this, hoq p hp, hoy p hp]; ring
    refine ⟨?_, ?_⟩
    · obtain ⟨d, hd⟩ := span_cons Y q S (fun p => cy p - b * cq p) b
      refine ⟨d, fun r => ?_⟩
      have hs : (S.map (fun p => (cy p - b * cq p) * Y p r)).sum
          = (S.map (fun p => cy p * Y p r)).sum - b * (S.map (fun p => cq p * Y p r)).sum := by
        rw [← List.sum_map_mul_left, list_sum_sub]
        exact congrArg _ (List.map_congr_left fun p _ => by ring)
      simp only [← hd r, hcy, hcq, hs]; ring
    · intro p hp
      rcases List.mem_cons.1 hp with rfl | hp
      · have hY : ∀ r, Y p r = q' r + (S.map (fun t => cq t * Y t r)).sum := fun r => by rw [hcq]; ring
        have : ∑ r, (y' r - b * q' r) * Y p r
            = ∑ r, (y' r - b * q' r) * q' r + ∑ r, (y' r - b * q' r) * (S.map (fun t => cq t * Y t r)).sum := by
          rw [← Finset.sum_add_distrib]; exact Finset.sum_congr rfl fun r _ => by rw [hY r]; ring
        rw [this, hort, list_sum_orthogonal S Y cq (fun r => y' r - b * q' r) hoS]; ring
      · exact hoS p hp

/-- The coefficients solve the normal equations. -/
def Solves (coef : Coef) (Y : Nat → Fin N → ℚ) : Prop :=
  ∀ cond pa, ∀ q ∈ cond, ∑ r, resid coef Y cond pa r * Y q r = 0

theorem Solves.isResidual {coef : Coef} {Y : Nat → Fin N → ℚ} (h : Solves coef Y) (cond : List Nat) (pa : Nat) :
    IsSampleResidual cond Y (Y pa) (resid coef Y cond pa) := ⟨⟨coef cond pa, fun _ => rfl⟩, h cond pa⟩

/-- There are coefficients that solve the normal equations. -/
theorem exists_solves (Y : Nat → Fin N → ℚ) : ∃ coef, Solves coef Y := by
  choose c hc using fun (cond : List Nat) (pa : Nat) => (gs_isResidual Y cond (Y pa)).1
  refine ⟨c, fun cond pa q hq => ?_⟩
  have : resid c Y cond pa = gs Y cond (Y pa) := by funext r; rw [hc]; rfl
  rw [this]
  exact (gs_isResidual Y cond (Y pa)).2 q hq

theorem Solves.resid_eq {coef : Coef} {Y : Nat → Fin N → ℚ} (h : Solves coef Y) (cond : List Nat) (pa : Nat) :
    resid coef Y cond pa = gs Y cond (Y pa) := residual_unique (h.isResidual cond pa) (gs_isResidual Y cond (Y pa))

theorem moment_eq (K : Nat) (x y : Fin N → ℚ) : moment K x y = momentGap K x y := by
  unfold moment momentGap mean
  congr 1
  ring

theorem dataTau_eq {K : Nat} {coef : Coef} {Y : Nat → Fin N → ℚ} (h : Solves coef Y) :
    dataTau K coef Y = fun cond pa ch => momentGap K (gs Y cond (Y pa)) (Y ch) := by
  funext cond pa ch
  rw [dataTau, h.resid_eq, moment_eq]

theorem momentGap_nonneg (K : Nat) (x y : Fin N → ℚ) : 0 ≤ momentGap K x y := abs_nonneg _

theorem momentGap_scale (K : Nat) (x y : Fin N → ℚ) (a b : ℚ) (hK : 0 < K) :
    momentGap K (fun r => a * x r) (fun r => b * y r) = |a| ^ (K + 1) * |b| * momentGap K x y := by
  obtain ⟨k, rfl⟩ := Nat.exists_eq_succ_of_ne_zero hK.ne'
  unfold momentGap
  rw [← abs_pow, ← abs_mul, ← abs_mul]
  congr 1
  simp only [Nat.succ_eq_add_one, Nat.add_sub_cancel]
  have h1 : ∑ r, (a * x r) ^ k * (b * y r) = a ^ k * b * ∑ r, x r ^ k * y r := by
    rw [Finset.mul_sum]; exact Finset.sum_congr rfl fun r _ => by ring
  have h2 : ∑ r, (a * x r) ^ 2 = a ^ 2 * ∑ r, x r ^ 2 := by
    rw [Finset.mul_sum]; exact Finset.sum_congr rfl fun r _ => by ring
  have h3 : ∑ r, (a * x r) ^ (k + 1) = a ^ (k + 1) * ∑ r, x r ^ (k + 1) := by
    rw [Finset.mul_sum]; exact Finset.sum_congr rfl fun r _ => by ring
  have h4 : ∑ r, (a * x r) * (b * y r) = a * b * ∑ r, x r * y r := by
    rw [Finset.mul_sum]; exact Finset.sum_congr rfl fun r _ => by ring
  rw [h1, h2, h3, h4]
  ring

/-- Rescaling the variables rescales the residuals. -/
theorem gs_scale (Y : Nat → Fin N → ℚ) (a : Nat → ℚ) (ha : ∀ q, a q ≠ 0) (cond : List Nat) (pa : Nat) :
    gs (fun q r => a q * Y q r) cond (fun r => a pa * Y pa r) = fun r => a pa * gs Y cond (Y pa) r := by
  refine residual_unique (gs_isResidual _ cond _) ?_
  obtain ⟨⟨c, hc⟩, ho⟩ := gs_isResidual Y cond (Y pa)
  refine ⟨⟨fun q => a pa * c q / a q, fun r => ?_⟩, fun q hq => ?_⟩
  · simp only [hc, mul_sub]
    rw [← List.sum_map_mul_left]
    congr 2
    refine List.map_congr_left fun q _ => ?_
    have := ha q
    field_simp
  · have : ∑ r, a pa * gs Y cond (Y pa) r * (a q * Y q r) = a pa * a q * ∑ r, gs Y cond (Y pa) r * Y q r := by
      rw [Finset.mul_sum]; exact Finset.sum_congr rfl fun r _ => by ring
    rw [this, ho q hq, mul_zero]

/-- How the statistics change with the units. -/
theorem dataTau_scale {K : Nat} {coef coef' : Coef} {Y : Nat → Fin N → ℚ} {a : Nat → ℚ} (hK : 0 < K) (ha : ∀ q, a q ≠ 0)
    (h : Solves coef Y) (h' : Solves coef' (fun q r => a q * Y q r)) (cond : List Nat) (pa ch : Nat) :
    dataTau K coef' (fun q r => a q * Y q r) cond pa ch = |a pa| ^ (K + 1) * |a ch| * dataTau K coef Y cond pa ch := by
  rw [dataTau_eq h, dataTau_eq h']
  simp only
  rw [gs_scale Y a ha, momentGap_scale _ _ _ _ _ hK]

/-! ### Linear models -/

section model
variable {p K : Nat} {B : Nat → Nat → ℚ} {Y e : Nat → Fin N → ℚ}

/-- A linear functional that vanishes on the errors of a set closed under direct causes vanishes on its variables. -/
theorem functional_zero (hac : Acyclic (Edge p B 0)) (hY : FollowsModel (Finset.range p) B Y e)
    (L : (Fin N → ℚ) → ℚ) (hadd : ∀ x y, L (fun r => x r + y r) = L x + L y) (hmul : ∀ a x, L (fun r => a * x r) = a * L x)
    (S : Nat → Prop) (hS : ∀ i j, i < p → j < p → S i → B i j ≠ 0 → S j) (he : ∀ i, i < p → S i → L (e i) = 0) :
    ∀ i, i < p → S i → L (Y i) = 0 := by
  classical
  by_contra hcon
  push Not at hcon
  obtain ⟨i₀, hi₀, hS₀, hb₀⟩ := hcon
  have hzero : L (fun _ => 0) = 0 := by have := hmul 0 (fun _ => 0); simpa using this
  have hsum : ∀ (T : Finset Nat) (c : Nat → ℚ), L (fun r => ∑ j ∈ T, c j * Y j r) = ∑ j ∈ T, c j * L (Y j) := by
    intro T c
    induction T using Finset.induction_on with
    | empty => simpa using hzero
    | insert a T ha ih =>
      simp only [Finset.sum_insert ha]
      rw [hadd (fun r => c a * Y a r) (fun r => ∑ j ∈ T, c j * Y j r), hmul, ih]
  obtain ⟨i, hi, hmin⟩ := exists_minimal hac ((List.range p).filter (fun i => decide (S i ∧ L (Y i) ≠ 0)))
    (by
      intro h0
      have : i₀ ∈ (List.range p).filter (fun i => decide (S i ∧ L (Y i) ≠ 0)) := by simp [hi₀, hS₀, hb₀]
      rw [h0] at this; simp at this)
  simp only [List.mem_filter, List.mem_range, decide_eq_true_eq] at hi hmin
  obtain ⟨hip, hSi, hbi⟩ := hi
  apply hbi
  have hrow : Y i = fun r => (∑ j ∈ Finset.range p, B i j * Y j r) + e i r := funext (hY i (Finset.mem_range.2 hip))
  rw [hrow, hadd (fun r => ∑ j ∈ Finset.range p, B i j * Y j r) (e i), hsum, he i hip hSi, add_zero]
  refine Finset.sum_eq_zero fun j hj => ?_
  have hjp := Finset.mem_range.1 hj
  by_cases hb : B i j = 0
  · rw [hb, zero_mul]
  · have hSj := hS i j hip hjp hSi hb
    have : L (Y j) = 0 := by
      by_contra hne
      exact hmin j ⟨hjp, hSj, hne⟩ ⟨hjp, hip, by simpa using hb⟩
    rw [this, mul_zero]

theorem mem_span (Y : Nat → Fin N → ℚ) : ∀ (S : List Nat) (u : Nat) (b : ℚ), u ∈ S →
    ∃ d : Nat → ℚ, ∀ r, b * Y u r = (S.map (fun q => d q * Y q r)).sum
  | q :: S, u, b, h => by
    rcases List.mem_cons.1 h with rfl | h
    · obtain ⟨d, hd⟩ := span_cons Y u S (fun _ => 0) b
      exact ⟨d, fun r => by rw [← hd r]; simp⟩
    · obtain ⟨d, hd⟩ := mem_span Y S u b h
      obtain ⟨d', hd'⟩ := span_cons Y q S d 0
      exact ⟨d', fun r => by rw [← hd' r, hd r]; simp⟩

/-- Several causes in the span. -/
theorem sum_span (Y : Nat → Fin N → ℚ) (S : List Nat) (T : Finset Nat) (b : Nat → ℚ) (h : ∀ j ∈ T, b j ≠ 0 → j ∈ S) :
    ∃ d : Nat → ℚ, ∀ r, ∑ j ∈ T, b j * Y j r = (S.map (fun q => d q * Y q r)).sum := by
  classical
  induction T using Finset.induction_on with
  | empty => exact ⟨fun _ => 0, fun r => by simp⟩
  | insert a T ha ih =>
    obtain ⟨d, hd⟩ := ih fun j hj => h j (Finset.mem_insert_of_mem hj)
    by_cases hb : b a = 0
    · exact ⟨d, fun r => by rw [Finset.sum_insert ha, hd r, hb]; ring⟩
    · obtain ⟨d', hd'⟩ := mem_span Y S a (b a) (h a (Finset.mem_insert_self _ _) hb)
      refine ⟨fun q => d' q + d q, fun r => ?_⟩
      rw [Finset.sum_insert ha, hd r, hd' r, sum_indicator]

/-- Regressing a variable on its direct causes and further variables it does not influence leaves its own error. -/
theorem residual_error (hac : Acyclic (Edge p B 0)) (hY : FollowsModel (Finset.range p) B Y e) (hm : MomentIndependent K p e)
    {v : Nat} (hv : v < p) {S : List Nat} (hpa : ∀ j, j < p → B v j ≠ 0 → j ∈ S) (A : Nat → Prop)
    (hA : ∀ i j, i < p → j < p → A i → B i j ≠ 0 → A j) (hvA : ¬ A v) (hSA : ∀ q ∈ S, q < p ∧ A q) :
    IsSampleResidual S Y (Y v) (e v) := by
  constructor
  · obtain ⟨d, hd⟩ := sum_span Y S (Finset.range p) (B v) fun j hj => hpa j (Finset.mem_range.1 hj)
    exact ⟨d, fun r => by rw [← hd r, hY v (Finset.mem_range.2 hv) r]; ring⟩
  · intro q hq
    refine functional_zero hac hY (fun x => ∑ r, e v r * x r) ?_ ?_ A hA ?_ q (hSA q hq).1 (hSA q hq).2
    · intro x y; simp only [mul_add, Finset.sum_add_distrib]
    · intro a x
      simp only []
      rw [Finset.mul_sum]; exact Finset.sum_congr rfl fun r _ => by ring
    · intro i hi hAi
      exact (hm v i hv hi (by rintro rfl; exact hvA hAi)).1

/-- The statistic of an error with any variable is zero. -/
theorem gap_error (hK : 0 < K) (hac : Acyclic (Edge p B 0)) (hY : FollowsModel (Finset.range p) B Y e)
    (hm : MomentIndependent K p e) {v u : Nat} (hv : v < p) (hu : u < p) : momentGap K (e v) (Y u) = 0 := by
  obtain ⟨k, rfl⟩ := Nat.exists_eq_succ_of_ne_zero hK.ne'
  have := functional_zero hac hY
    (fun x => (∑ r, e v r ^ k * x r) * (∑ r, e v r ^ 2) - (∑ r, e v r ^ (k + 1)) * ∑ r, e v r * x r) (by
      intro x y; simp only [mul_add, Finset.sum_add_distrib]; ring) (by
      intro a x
      have h1 : ∑ r, e v r ^ k * (a * x r) = a * ∑ r, e v r ^ k * x r := by
        rw [Finset.mul_sum]; exact Finset.sum_congr rfl fun r _ => by ring
      have h2 : ∑ r, e v r * (a * x r) = a * ∑ r, e v r * x r := by
        rw [Finset.mul_sum]; exact Finset.sum_congr rfl fun r _ => by ring
      simp only [h1, h2]; ring) (fun _ => True) (fun _ _ _ _ _ _ => trivial) (by
      intro i hi _
      by_cases hvi : v = i
      · subst hvi
        have h1 : ∑ r, e v r ^ k * e v r = ∑ r, e v r ^ (k + 1) := Finset.sum_congr rfl fun r _ => by ring
        have h2 : ∑ r, e v r * e v r = ∑ r, e v r ^ 2 := Finset.sum_congr rfl fun r _ => by ring
        simp only [h1, h2]; ring
      · have h := hm v i hv hi hvi
        simp only [Nat.succ_eq_add_one, Nat.add_sub_cancel] at h
        simp only [h.1, h.2]; ring) u hu trivial
  unfold momentGap
  simp only [Nat.succ_eq_add_one, Nat.add_sub_cancel]
  rw [this]; simp

/-- The invariant behind recovery. -/
structure Sound (p : Nat) (B : Nat → Nat → ℚ) (s : State) : Prop where
  shared : Shared p s
  sorted : ∀ i j, i < p → j < p → B i j ≠ 0 → i ∈ s.theta → Before s.theta j i
  zero : s.theta ≠ [] → ∀ v ∈ s.psi, (∀ j, j < p → B v j ≠ 0 → j ∈ s.theta.dropLast) → ∀ u ∈ s.psi, s.prune v u ≤ 0
  pos : ∀ v ∈ s.psi, ∀ u ∈ s.psi, B v u ≠ 0 → 0 < s.prune v u

theorem subset_mem {c : Config} (hc : ∀ l, (c.enum l).Perm l) {s : State} {last v : Nat} (hl : last ∈ s.theta) :
    ∀ q ∈ last :: subset c s last v, q ∈ s.theta := by
  intro q hq
  rcases List.mem_cons.1 hq with rfl | hq
  · exact hl
  · have hsub : ∀ q ∈ c.enum ((condSet s last v).filter (fun u => decide (u ≠ last))), q ∈ s.theta := by
      intro q hq
      rw [(hc _).mem_iff] at hq
      exact (List.mem_filter.1 (List.mem_filter.1 hq).1).1
    unfold subset at hq
    simp only at hq
    by_cases h1 : (c.enum ((condSet s last v).filter (fun u => decide (u ≠ last)))).length = 1
    · rw [if_pos h1] at hq; exact hsub q hq
    · rw [if_neg h1] at hq; exact hsub q (List.mem_of_mem_take hq)

/-- The statistic of two remaining variables is computed from one set of ordered variables containing the last one. -/
theorem stats_eq {c : Config} (hc : ∀ l, (c.enum l).Perm l) (tau : Tau) {s : State} {v u : Nat} (hu : u ∈ s.psi)
    (hvu : u ≠ v) : (s.theta = [] ∧ stats c tau s v u = tau [] v u) ∨
      ∃ last S, s.theta.getLast? = some last ∧ last ∈ S ∧ (∀ q ∈ S, q ∈ s.theta) ∧
        stats c tau s v u = min 10000000000 (tau S v u) := by
  cases hl : s.theta.getLast? with
  | none =>
    left
    exact ⟨by simpa using hl, by simp only [stats, hl]; rw [if_pos ⟨hu, hvu⟩]⟩
  | some last =>
    right
    have hmem : last ∈ s.theta := List.mem_of_getLast? hl
    refine ⟨last, last :: subset c s last v, rfl, by simp, subset_mem hc hmem, ?_⟩
    simp only [stats, hl]
    rw [if_pos (.inl ⟨hu, hvu⟩)]

theorem update_eq {c : Config} {tau : Tau} {s : State} {v u : Nat} (hv : v ∈ s.psi) (hvu : u ≠ v) :
    update c tau s v u = min (s.prune v u) (stats c tau s v u) := by
  simp only [update]; rw [if_neg (Ne.symm hvu), if_pos hv]

theorem Shared.lt {s : State} (h : Shared p s) {v : Nat} (hv : v ∈ s.theta ∨ v ∈ s.psi) : v < p := by
  have : v ∈ s.theta ++ s.psi := List.mem_append.2 hv
  rw [h.mem_iff] at this; simpa using this

theorem Shared.mem {s : State} (h : Shared p s) {v : Nat} (hv : v < p) : v ∈ s.theta ∨ v ∈ s.psi := by
  rw [← List.mem_append, h.mem_iff]; simpa using hv

theorem Shared.disjoint {s : State} (h : Shared p s) {v : Nat} (hv : v ∈ s.theta) (hv' : v ∈ s.psi) : False :=
  (List.nodup_append.1 h.nodup).2.2 v hv v hv' rfl

theorem ne_of_cause (hac : Acyclic (Edge p B 0)) {v u : Nat} (hv : v < p) (hb : B v u ≠ 0) : u ≠ v := by
  rintro rfl
  exact hac u (.single ⟨hv, hv, by simpa using hb⟩)

theorem Sound.step {c : Config} (hc : ∀ l, (c.enum l).Perm l) {coef : Coef} (hco : Solves coef Y) (hK : 0 < K)
    (hac : Acyclic (Edge p B 0)) (hY : FollowsModel (Finset.range p) B Y e) (hm : MomentIndependent K p e)
    (hone : AtMostOneCause p B) (hf : VisibleCauses K p B Y) {s : State} (h : Sound p B s) (hl : 1 < s.psi.length) :
    Sound p B (step c (dataTau K coef Y) s) := by
  set tau := dataTau K coef Y with htau
  have hgap : ∀ S v u, tau S v u = momentGap K (gs Y S (Y v)) (Y u) := fun S v u => by rw [htau, dataTau_eq hco]
  have hclosed : ∀ i j, i < p → j < p → i ∈ s.theta → B i j ≠ 0 → j ∈ s.theta :=
    fun i j hi hj hit hb => (h.sorted i j hi hj hb hit).mem_left
  have hanc : ∀ a b, Relation.TransGen (Edge p B 0) a b → b ∈ s.theta → a ∈ s.theta := by
    intro a b hab
    induction hab with
    | single hE => exact fun hb => hclosed _ _ hE.2.1 hE.1 hb (by simpa using hE.2.2)
    | tail _ hE ih => exact fun hb => ih (hclosed _ _ hE.2.1 hE.1 hb (by simpa using hE.2.2))
  -- all direct causes already ordered: every statistic is zero
  have hzero : ∀ v ∈ s.psi, (∀ j, j < p → B v j ≠ 0 → j ∈ s.theta) → ∀ u ∈ s.psi, update c tau s v u ≤ 0 := by
    intro v hv hpa u hu
    have hvp := h.shared.lt (.inr hv)
    have hup := h.shared.lt (.inr hu)
    by_cases huv : u = v
    · subst huv; simp [update]
    · rw [update_eq hv huv]
      have hz : ∀ S, (∀ q ∈ S, q ∈ s.theta) → (∀ j, j < p → B v j ≠ 0 → j ∈ S) → tau S v u = 0 := by
        intro S hS hSp
        rw [hgap, residual_unique (gs_isResidual Y S (Y v)) (residual_error (K := K) hac hY hm hvp hSp (fun q => q ∈ s.theta)
          hclosed (fun hvt => h.shared.disjoint hvt hv) fun q hq => ⟨h.shared.lt (.inl (hS q hq)), hS q hq⟩)]
        exact gap_error hK hac hY hm hvp hup
      rcases stats_eq hc tau (v := v) hu huv with ⟨h0, hs⟩ | ⟨last, S, hlast, hmem, hS, hs⟩
      · rw [hs, hz [] (by simp) (by rw [h0] at hpa; simpa using hpa)]
        exact min_le_right _ _
      · by_cases hlp : ∃ j, j < p ∧ B v j ≠ 0 ∧ j = last
        · obtain ⟨j, hj, hb, rfl⟩ := hlp
          rw [hs, hz S hS fun i hi hbi => by rw [hone v i j hvp hi hj hbi hb]; exact hmem]
          exact (min_le_right _ _).trans (min_le_right _ _)
        · refine (min_le_left _ _).trans (h.zero (by rintro h0; rw [h0] at hlast; simp at hlast) v hv ?_ u hu)
          intro j hj hb
          have := hpa j hj hb
          have hd : s.theta = s.theta.dropLast ++ [last] := by
            rw [List.getLast?_eq_some_iff] at hlast
            obtain ⟨ys, hys⟩ := hlast
            rw [hys]; simp
          rw [hd] at this
          rcases List.mem_append.1 this with h1 | h1
          · exact h1
          · exact absurd ⟨j, hj, hb, by simpa using h1⟩ hlp
  -- a direct cause that is still to be ordered stays visible
  have hpos : ∀ v ∈ s.psi, ∀ u ∈ s.psi, B v u ≠ 0 → 0 < update c tau s v u := by
    intro v hv u hu hb
    have hvp := h.shared.lt (.inr hv)
    have hup := h.shared.lt (.inr hu)
    have huv := ne_of_cause hac hvp hb
    have hp : ∀ S, (∀ q ∈ S, q ∈ s.theta) → 0 < tau S v u := by
      intro S hS
      rw [hgap]
      refine lt_of_le_of_ne (momentGap_nonneg _ _ _) (Ne.symm ?_)
      refine hf v u S _ hvp hup hb (fun q hq => ⟨h.shared.lt (.inl (hS q hq)), ?_, ?_⟩)
        (fun hq => h.shared.disjoint (hS _ hq) hu) (gs_isResidual Y S (Y v))
      · rintro rfl; exact h.shared.disjoint (hS _ hq) hv
      · intro hvq; exact h.shared.disjoint (hanc v q hvq (hS q hq)) hv
    rw [update_eq hv huv]
    refine lt_min (h.pos v hv u hu hb) ?_
    rcases stats_eq hc tau (v := v) hu huv with ⟨h0, hs⟩ | ⟨last, S, -, -, hS, hs⟩
    · rw [hs]; exact hp [] (by simp)
    · rw [hs]; exact lt_min (by norm_num) (hp S hS)
  have hne : s.psi ≠ [] := by intro h0; rw [h0] at hl; simp at hl
  obtain ⟨i, r, hr, hrmin, -, hs⟩ := step_spec c tau s hne
  have hrm : r ∈ s.psi := List.mem_iff_getElem?.2 ⟨i, hr⟩
  obtain ⟨m, hmm, hmin⟩ := exists_minimal hac s.psi hne
  have hmp := h.shared.lt (.inr hmm)
  have hm0 : maxTau (update c tau s) s.psi m ≤ 0 := maxTau_le le_rfl (hzero m hmm fun j hj hb => by
    rcases h.shared.mem hj with h1 | h1
    · exact h1
    · exact absurd ⟨hj, hmp, by simpa using hb⟩ (hmin j h1))
  have hrpa : ∀ j, j < p → B r j ≠ 0 → j ∈ s.theta := by
    intro j hj hb
    rcases h.shared.mem hj with h1 | h1
    · exact h1
    · have h2 := hpos r hrm j h1 hb
      have h3 : update c tau s r j ≤ _ := le_maxTau (prune := update c tau s) (v := r) h1
      have h4 := hrmin m hmm
      linarith
  have hshared := h.shared.step (c := c) (tau := tau) hl
  rw [hs] at hshared ⊢
  refine ⟨hshared, ?_, ?_, ?_⟩
  · intro a b ha hb hab hmem
    rcases List.mem_append.1 hmem with h1 | h1
    · exact (h.sorted a b ha hb hab h1).of_append_left
    · have : a = r := by simpa using h1
      subst this
      exact Before.of_mem_append (hrpa b hb hab) (by simp)
  · intro _ v hv hpa u hu
    simp only [List.dropLast_concat] at hpa
    exact hzero v (List.mem_filter.1 hv).1 hpa u (List.mem_filter.1 hu).1
  · intro v hv u hu hb
    exact hpos v (List.mem_filter.1 hv).1 u (List.mem_filter.1 hu).1 hb

/-- Recovery when every variable has at most one direct cause. -/
theorem order_recovers {c : Config} (hc : ∀ l, (c.enum l).Perm l) {coef : Coef} (hco : Solves coef Y) (hK : 0 < K)
    (hac : Acyclic (Edge p B 0)) (hY : FollowsModel (Finset.range p) B Y e) (hm : MomentIndependent K p e)
    (hone : AtMostOneCause p B) (hf : VisibleCauses K p B Y) {o : List Nat} (ho : order c (dataTau K coef Y) p = some o)
    {i j : Nat} (hi : i < p) (hj : j < p) (hb : B i j ≠ 0) : Before o j i := by
  have h0 : Sound p B (init p) :=
    ⟨shared_init p, fun a b _ _ _ h => by simp [init] at h, fun h => by simp [init] at h, fun v hv u hu hvu => by
      have := ne_of_cause hac (by simpa [init] using hv) hvu
      simp only [init]; rw [if_neg (Ne.symm this)]; norm_num⟩
  obtain ⟨s, hs, hlen, rfl⟩ := loop_inv (Sound p B) (fun s hs hl => hs.step hc hco hK hac hY hm hone hf hl) _ _ _ h0 ho
  rcases hs.shared.mem hi with h1 | h1
  · exact (hs.sorted i j hi hj hb h1).of_append_left
  · rcases hs.shared.mem hj with h2 | h2
    · exact Before.of_mem_append h2 h1
    · exfalso
      have hne := ne_of_cause hac hi hb
      match hpsi : s.psi with
      | [] => rw [hpsi] at h1; simp at h1
      | [a] => rw [hpsi] at h1 h2; simp at h1 h2; exact hne (h2.trans h1.symm)
      | a :: b :: t => rw [hpsi] at hlen; simp at hlen

end model

/-! ### Large statistics -/

/-- All statistics at or above the starting value of the table: the columns come out in their original order. -/
theorem order_columns {c : Config} (hc : ∀ l, (c.enum l).Perm l) {tau : Tau} {p : Nat}
    (h : ∀ S v u, v < p → u < p → u ≠ v → (∀ q ∈ S, q < p) → v ∉ S → u ∉ S → 100000 ≤ tau S v u) :
    order c tau p = some (List.range p) := by
  obtain ⟨o, ho⟩ := order_some c tau p
  rw [ho]
  congr 1
  have hinv := loop_inv (c := c) (tau := tau)
    (fun s => (∃ k, k ≤ p ∧ s.theta = List.range k ∧ s.psi = List.range' k (p - k)) ∧
      ∀ v ∈ s.psi, ∀ u ∈ s.psi, u ≠ v → s.prune v u = 100000) (by
    rintro s ⟨⟨k, hk, hth, hps⟩, hpr⟩ hl
    have hne : s.psi ≠ [] := by intro h0; rw [h0] at hl; simp at hl
    have hlen : 1 < p - k := by rw [hps] at hl; simpa using hl
    have hlt : ∀ v ∈ s.psi, v < p := fun v hv => by rw [hps] at hv; simp at hv; omega
    have hnot : ∀ v ∈ s.psi, v ∉ s.theta := fun v hv hv' => by rw [hps] at hv; rw [hth] at hv'; simp at hv hv'; omega
    have hup : ∀ v ∈ s.psi, ∀ u ∈ s.psi, u ≠ v → update c tau s v u = 100000 := by
      intro v hv u hu huv
      rw [update_eq hv huv, hpr v hv u hu huv]
      refine min_eq_left ?_
      have hth' : ∀ q ∈ s.theta, q < p := fun q hq => by rw [hth] at hq; simp at hq; omega
      rcases stats_eq hc tau (v := v) hu huv with ⟨h0, hs⟩ | ⟨last, S, -, -, hS, hs⟩
      · rw [hs]; exact h [] v u (hlt v hv) (hlt u hu) huv (by simp) (by simp) (by simp)
      · rw [hs]
        exact le_min (by norm_num) (h S v u (hlt v hv) (hlt u hu) huv (fun q hq => hth' q (hS q hq))
          (fun hq => hnot v hv (hS v hq)) fun hq => hnot u hu (hS u hq))
    have hmax : ∀ v ∈ s.psi, maxTau (update c tau s) s.psi v = 100000 := by
      intro v hv
      refine le_antisymm (maxTau_le (by norm_num) fun u hu => ?_) ?_
      · by_cases huv : u = v
        · subst huv; simp [update]
        · exact (hup v hv u hu huv).le
      · obtain ⟨u, hu, huv⟩ : ∃ u ∈ s.psi, u ≠ v := by
          by_cases hvk : v = k
          · exact ⟨k + 1, by rw [hps]; simp; omega, by omega⟩
          · exact ⟨k, by rw [hps]; simp; omega, fun h => hvk h.symm⟩
        rw [← hup v hv u hu huv]
        exact le_maxTau hu
    obtain ⟨i, r, hr, -, hfirst, hs⟩ := step_spec c tau s hne
    have hrm : r ∈ s.psi := List.mem_iff_getElem?.2 ⟨i, hr⟩
    have hk0 : s.psi[0]? = some k := by
      rw [hps]; cases hpk : p - k with
      | zero => omega
      | succ m => simp [List.range'_succ]
    have hi : i = 0 := by
      by_contra hi
      have h1 := hfirst 0 k (by omega) hk0
      rw [hmax r hrm, hmax k (List.mem_iff_getElem?.2 ⟨0, hk0⟩)] at h1
      exact lt_irrefl _ h1
    subst hi
    have hrk : r = k := by rw [hk0] at hr; exact (Option.some.inj hr).symm
    subst hrk
    rw [hs]
    refine ⟨⟨r + 1, by omega, by simp only [hth]; rw [List.range_succ], ?_⟩, ?_⟩
    · simp only [hps]
      have h1 : p - r = (p - (r + 1)) + 1 := by omega
      rw [h1, List.range'_succ, List.filter_cons]
      simp only [ne_eq, not_true_eq_false, decide_false, Bool.false_eq_true, if_false]
      rw [List.filter_eq_self]
      intro a ha
      simp at ha
      simp; omega
    · intro v hv u hu huv
      exact hup v (List.mem_filter.1 hv).1 u (List.mem_filter.1 hu).1 huv)
    p (init p) o ⟨⟨0, by omega, rfl, by simp [init, List.range_eq_range']⟩, by
      intro v hv u hu huv; simp only [init]; rw [if_neg (Ne.symm huv)]⟩ ho
  obtain ⟨s, ⟨⟨k, hk, hth, hps⟩, -⟩, -, rfl⟩ := hinv
  rw [hth, hps, List.range_eq_range', List.range_eq_range']
  have h1 := List.range'_append_1 (s := 0) (m := k) (n := p - k)
  rw [zero_add] at h1
  rw [h1]
  congr 1; omega

end Verif.HighDim
