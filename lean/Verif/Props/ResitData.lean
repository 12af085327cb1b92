import Verif.Model.ResitData
import Verif.Spec.NoiseModel
import Verif.Props.HsicZero
import Verif.Props.Resit
import Verif.Proofs.ResitPopulation
import Verif.Proofs.Simulator
import Verif.Props.RcdUnits
import Verif.Proofs.LinearFit

/-! C232: RESIT finds a right order of the variables if the errors of the sample are exactly independent. -/
set_option autoImplicit false
set_option linter.unusedSectionVars false
namespace Verif.ResitData
open Finset

variable {N : Nat}

/-! ### Choosing the last variable -/

/-- As `Resit.order_of_sinks`, for statistics that may be NaN elsewhere. -/
theorem order_of_sinks {n : Nat} {E : Nat → Nat → Prop} (hac : Acyclic E) (hE : ∀ a b, E a b → a < n ∧ b < n)
    {stat : List Nat → Nat → Option ℝ}
    (hs : ∀ S : List Nat, ClosedSet n E S → 2 ≤ S.length → ∃ s : Nat → ℝ, (∀ k ∈ S, stat S k = some (s k)) ∧
      ∀ i ∈ S, ∀ j ∈ S, (∀ u ∈ S, ¬ E i u) → (∃ u ∈ S, E j u) → s i < s j)
    {pval : Nat → List Nat → Option ℝ} {alpha : ℝ} {order : List Nat} {Bh : Nat → Nat → ℚ}
    (h : Resit.fit stat pval alpha n = some (order, Bh)) : ∀ a b, E a b → Before order a b := by
  obtain ⟨pi, B', hf, hperm, h3⟩ := Resit.fit_spec stat pval alpha n
  rw [h] at hf
  simp only [Option.some.injEq, Prod.mk.injEq] at hf
  obtain ⟨rfl, rfl⟩ := hf
  have hmem : ∀ x, x ∈ order ↔ x < n := fun x => by rw [hperm.mem_iff, List.mem_range]
  have hclosed : ∀ (b a : List Nat), order = a ++ b → ∀ x y, E x y → y ∈ a → x ∈ a := by
    intro b
    induction b with
    | nil =>
      intro a ha x y hxy _
      rw [List.append_nil] at ha
      subst ha
      exact (hmem x).2 (hE x y hxy).1
    | cons k b ih =>
      intro a ha
      have hc := ih (a ++ [k]) (by rw [ha]; simp)
      have hSmem : ∀ x, x ∈ (List.range n).filter (fun x => decide (x ∈ a ++ [k])) ↔ x ∈ a ++ [k] := by
        intro x
        rw [List.mem_filter, decide_eq_true_eq, List.mem_range]
        refine ⟨fun h => h.2, fun h => ⟨(hmem x).1 ?_, h⟩⟩
        rw [ha]
        rcases List.mem_append.1 h with h | h
        · simp [h]
        · simp [List.mem_singleton.1 h]
      have hksink : ∀ u ∈ a, ¬ E k u := by
        intro u hu hku
        have hane : a ≠ [] := List.ne_nil_of_mem hu
        have hch := (h3 a k b ha).1 hane
        have hsort : ((List.range n).filter (fun x => decide (x ∈ a ++ [k]))).Pairwise (· < ·) := List.pairwise_lt_range.filter _
        have hcl : ClosedSet n E ((List.range n).filter (fun x => decide (x ∈ a ++ [k]))) :=
          ⟨List.nodup_range.filter _, fun u hu => List.mem_range.1 (List.mem_filter.1 hu).1,
            fun x y hxy hy => (hSmem x).2 (hc x y hxy ((hSmem y).1 hy))⟩
        have huk : u ≠ k := by rintro rfl; exact hac u (.single hku)
        generalize (List.range n).filter (fun x => decide (x ∈ a ++ [k])) = S at *
        have hlen : 2 ≤ S.length := by
          have h1 : u ∈ S := (hSmem u).2 (by simp [hu])
          have h2 : k ∈ S := (hSmem k).2 (by simp)
          match S, h1, h2 with
          | [x], h1, h2 => rw [List.mem_singleton] at h1 h2; exact absurd (h1.trans h2.symm) huk
          | _ :: _ :: _, _, _ => simp
        obtain ⟨s, hsome, hlt⟩ := hs S hcl hlen
        unfold Resit.Chosen at hch
        rw [Option.bind_eq_some_iff] at hch
        obtain ⟨p, hp, hk⟩ := hch
        have e : S.map (stat S) = S.map (fun x => some (s x)) := List.map_congr_left hsome
        rw [e] at hp
        obtain ⟨i, hi, hmax⟩ := exists_minimal (acyclic_flip hac) (a ++ [k]) (by simp)
        have h1 := hlt i ((hSmem i).2 hi) k ((hSmem k).2 (by simp)) (fun u hu => hmax u ((hSmem u).1 hu)) ⟨u, (hSmem u).2 (by simp [hu]), hku⟩
        exact (Direct.pick_spec hsort .kernel (s := s) (i := p) (m := k) (by simpa using hp) hk i ((hSmem i).2 hi)).1 h1
      intro x y hxy hy
      have := hc x y hxy (by simp [hy])
      rcases List.mem_append.1 this with h | h
      · exact h
      · rw [List.mem_singleton.1 h] at hxy
        exact absurd hxy (hksink y hy)
  intro a b hab
  obtain ⟨p, q, hq⟩ := List.append_of_mem ((hmem b).2 (hE a b hab).2)
  have hm := hclosed q (p ++ [b]) (by rw [hq]; simp) a b hab (by simp)
  have hne : a ≠ b := by rintro rfl; exact hac a (.single hab)
  have hap : a ∈ p := by
    rcases List.mem_append.1 hm with h | h
    · exact h
    · exact absurd (List.mem_singleton.1 h) hne
  obtain ⟨x, y, rfl⟩ := List.append_of_mem hap
  exact ⟨x, y, q, by rw [hq]; simp⟩

/-! ### Independence of an error and the variables that are no effects of it -/

variable {n : Nat} {E : Nat → Nat → Prop} {X e : Nat → Fin N → ℝ}

/-- A function of the second sample alone may be inserted. -/
theorem independent_of_determined {α β γ : Type} {x : Fin N → α} {y : Fin N → β} {z : Fin N → γ} (h : SampleIndependent x y)
    (hz : ∀ r s, y r = y s → z r = z s) : SampleIndependent x z := by
  classical
  intro f g
  have : ∀ r, g (z r) = (fun v => if hv : ∃ s, y s = v then g (z hv.choose) else 0) (y r) := by
    intro r
    have hex : ∃ s, y s = y r := ⟨r, rfl⟩
    show g (z r) = if hv : ∃ s, y s = y r then g (z hv.choose) else 0
    rw [dif_pos hex, hz _ _ hex.choose_spec]
  have h2 := h f (fun v => if hv : ∃ s, y s = v then g (z hv.choose) else 0)
  rw [Finset.sum_congr rfl fun r _ => congrArg (fun t => f (x r) * t) (this r), Finset.sum_congr rfl fun r _ => this r]
  exact h2

/-- Rows with the same errors of all variables but `k` have the same values of the variables that are no effects of `k`. -/
theorem determined (hac : Acyclic E) (hE : ∀ a b, E a b → a < n ∧ b < n) (hX : FunctionalModel n E X e) {k : Nat} {r s : Fin N}
    (hrs : ∀ m, m < n → m ≠ k → e m r = e m s) : ∀ j, j < n → ¬ Relation.ReflTransGen E k j → X j r = X j s := by
  refine Simulator.acyclic_induction n hac _ ?_
  intro v hv ih hk
  obtain ⟨g, hg, hx⟩ := hX v hv
  rw [hx r, hx s, hrs v hv (by rintro rfl; exact hk .refl)]
  congr 1
  refine hg _ _ fun j hj => ih j (hE j v hj).1 hj fun hkj => hk (hkj.tail hj)

theorem error_independent (hm : IndependentErrors n E e) (hX : FunctionalModel n E X e) {k : Nat} (hk : k < n) {l : List Nat}
    (hl : ∀ u ∈ l, u < n ∧ ¬ Relation.ReflTransGen E k u) : SampleIndependent (e k) (rowsOf X l) := by
  refine independent_of_determined (hm.indep k hk) fun r s hrs => ?_
  funext i
  obtain ⟨h1, h2⟩ := hl (l.get i) (List.get_mem l i)
  refine determined hm.acyclic hm.bound hX (fun m hm' hmk => ?_) _ h1 h2
  exact congrFun hrs ⟨⟨m, hm'⟩, hmk⟩

/-- A centred sample is independent of what the sample is independent of. -/
theorem independent_shift {β : Type} {x : Fin N → ℝ} {y : Fin N → β} (h : SampleIndependent x y) (c : ℝ) :
    SampleIndependent (fun r => x r - c) y := fun f g => h (fun v => f (v - c)) g

theorem independent_col {d : Nat} {x : Fin N → ℝ} {y : Hsic.Dat N d} : SampleIndependent (Mlhsicr.col x) y ↔ SampleIndependent x y := by
  constructor
  · intro h f g
    exact h (fun v => f (v 0)) g
  · intro h f g
    exact h (fun v => f fun _ => v) g

/-- A statistic is reported if both sides vary among the first 100 rows. -/
theorem stat_reported {d : Nat} (hN : 4 ≤ N) (sf : ℝ → ℝ → ℝ → ℝ) {x : Fin N → ℝ} {Y : Hsic.Dat N d} (hx : VariesEarly x)
    (hy : ∃ i j : Fin N, i.val < 100 ∧ j.val < 100 ∧ Y i ≠ Y j) : ∃ s p, Hsic.test sf (Mlhsicr.col x) Y = .ok (some s, p) := by
  have h1 : Hsic.kernelWidth (Mlhsicr.col x) ≠ none := by
    rw [Ne, Hsic.kernelWidth_eq_none]
    intro h
    obtain ⟨i, j, hi, hj, hne⟩ := hx
    exact hne (congrFun (h i j hi hj) 0)
  have h2 : Hsic.kernelWidth Y ≠ none := by
    rw [Ne, Hsic.kernelWidth_eq_none]
    intro h
    obtain ⟨i, j, hi, hj, hne⟩ := hy
    exact hne (h i j hi hj)
  obtain ⟨wx, hx⟩ := Option.ne_none_iff_exists'.1 h1
  obtain ⟨wy, hy⟩ := Option.ne_none_iff_exists'.1 h2
  unfold Hsic.test Hsic.testWith
  rw [if_neg (by omega), hx, hy]
  exact ⟨_, _, rfl⟩

/-- What is assumed about the sample: variables and errors vary among the first 100 rows, and in no set containing the causes of its members
does a variable with an effect in the set look like one without (a residual that is constant early on or exactly independent). -/
structure Identified (reg : Regression N) (n : Nat) (E : Nat → Nat → Prop) (X e : Nat → Fin N → ℝ) : Prop where
  vars : ∀ i, i < n → VariesEarly (X i)
  errors : ∀ i, i < n → VariesEarly (e i)
  others : ∀ S, ClosedSet n E S → ∀ k ∈ S, (∃ u ∈ S, E k u) → VariesEarly (residual reg X k (S.filter (fun i => decide (i ≠ k)))) ∧
    ¬ SampleIndependent (residual reg X k (S.filter (fun i => decide (i ≠ k)))) (rowsOf X (S.filter (fun i => decide (i ≠ k))))

/-- **C232.** If the errors are exactly independent, the regressor finds the functions, and the sample identifies the directions, the order
puts causes before effects. -/
theorem C232_order {reg : Regression N} {C : (q : Nat) → ((Fin q → ℝ) → ℝ) → Prop} (hN : 4 ≤ N) (sf : ℝ → ℝ → ℝ → ℝ) (alpha : ℝ)
    (hm : IndependentErrors n E e) (hX : FunctionalModel n E X e) (hl : Learns reg C)
    (hC : ∀ i, i < n → ∀ l : List Nat, l.Nodup → (∀ u ∈ l, u < n ∧ u ≠ i) → (∀ j, E j i → j ∈ l) →
      ∃ g, C l.length g ∧ ∀ r, X i r = g (rowsOf X l r) + e i r)
    (hi : Identified reg n E X e) :
    ∃ order B, fit sf reg alpha n X = some (order, B) ∧ IsOrder n order ∧ ∀ a b, E a b → Before order a b := by
  obtain ⟨order, Bh, h, ho, _⟩ := Resit.C31_order_and_matrix (stat sf reg X) (pval sf reg X) alpha n
  refine ⟨order, Bh, h, ho, order_of_sinks hm.acyclic hm.bound (fun S hS hlen => ?_) h⟩
  obtain ⟨hnd, hb, hcl⟩ := hS
  -- residuals of variables without effects in the set
  have hres : ∀ k ∈ S, (∀ u ∈ S, ¬ E k u) → residual reg X k (S.filter (fun i => decide (i ≠ k))) = fun r => e k r - (∑ s, e k s) / N := by
    intro k hk hsink
    have hdesc : ∀ u, Relation.ReflTransGen E k u → u ∈ S → u = k := by
      intro u hku hu
      rcases Relation.ReflTransGen.cases_head hku with h | ⟨v, hv, hvu⟩
      · exact h.symm
      · exfalso
        refine hsink v ?_ hv
        clear hku hv
        induction hvu using Relation.ReflTransGen.head_induction_on with
        | refl => exact hu
        | head h1 _ ih => exact hcl _ _ h1 ih
    have hmemf : ∀ u ∈ S.filter (fun i => decide (i ≠ k)), u ∈ S ∧ u ≠ k := fun u hu => by simpa using hu
    obtain ⟨g, hg, hx⟩ := hC k (hb k hk) (S.filter (fun i => decide (i ≠ k))) (hnd.filter _)
      (fun u hu => ⟨hb u (hmemf u hu).1, (hmemf u hu).2⟩) (fun j hj => by
        simp only [List.mem_filter, decide_eq_true_eq]
        exact ⟨hcl j k hj hk, by rintro rfl; exact hm.acyclic j (.single hj)⟩)
    have hind := error_independent hm hX (hb k hk) (l := S.filter (fun i => decide (i ≠ k))) (fun u hu =>
      ⟨hb u (hmemf u hu).1, fun hku => (hmemf u hu).2 (hdesc u hku (hmemf u hu).1)⟩)
    funext r
    exact hl _ _ _ g (e k) hg hx hind r
  have hvary : ∀ k ∈ S, VariesEarly (residual reg X k (S.filter (fun i => decide (i ≠ k)))) := by
    intro k hk
    by_cases hsink : ∀ u ∈ S, ¬ E k u
    · rw [hres k hk hsink]
      obtain ⟨i, j, h1, h2, h3⟩ := hi.errors k (hb k hk)
      exact ⟨i, j, h1, h2, fun h => h3 (by linarith)⟩
    · push Not at hsink
      exact (hi.others S ⟨hnd, hb, hcl⟩ k hk hsink).1
  have hrow : ∀ k ∈ S, ∃ i j : Fin N, i.val < 100 ∧ j.val < 100 ∧
      rowsOf X (S.filter (fun i => decide (i ≠ k))) i ≠ rowsOf X (S.filter (fun i => decide (i ≠ k))) j := by
    intro k hk
    have : S.filter (fun i => decide (i ≠ k)) ≠ [] := by
      intro h0
      have : ∀ u ∈ S, u = k := by
        intro u hu
        by_contra hne
        have : u ∈ S.filter (fun i => decide (i ≠ k)) := by simp [hu, hne]
        rw [h0] at this
        cases this
      match S, hnd, hlen, this with
      | [], _, hlen, _ => simp at hlen
      | [_], _, hlen, _ => simp at hlen
      | x :: y :: l, hnd, _, h1 =>
        have hx := h1 x (by simp)
        have hy := h1 y (by simp)
        rw [hx, hy] at hnd
        simp at hnd
    have hpos := List.length_pos_of_ne_nil this
    obtain ⟨i, j, h1, h2, h3⟩ := hi.vars ((S.filter (fun i => decide (i ≠ k))).get ⟨0, hpos⟩)
      (hb _ (List.mem_of_mem_filter (List.get_mem _ _)))
    exact ⟨i, j, h1, h2, fun h => h3 (congrFun h ⟨0, hpos⟩)⟩
  have hrep : ∀ k ∈ S, ∃ s p, Hsic.test sf (Mlhsicr.col (residual reg X k (S.filter (fun i => decide (i ≠ k)))))
      (rowsOf X (S.filter (fun i => decide (i ≠ k)))) = .ok (some s, p) := fun k hk => stat_reported hN sf (hvary k hk) (hrow k hk)
  have hsome : ∀ k ∈ S, stat sf reg X S k = some ((stat sf reg X S k).getD 0) ∧ 0 ≤ (stat sf reg X S k).getD 0 ∧
      ((stat sf reg X S k).getD 0 = 0 ↔ SampleIndependent (residual reg X k (S.filter (fun i => decide (i ≠ k))))
        (rowsOf X (S.filter (fun i => decide (i ≠ k))))) := by
    intro k hk
    obtain ⟨s, p, h⟩ := hrep k hk
    have h1 : stat sf reg X S k = some s := by
      unfold stat testOf
      rw [h]
    rw [h1]
    refine ⟨rfl, (Hsic.C116_hsic_statistic sf _ _ s p h).1, ?_⟩
    rw [Option.getD_some, Hsic.C231_zero_iff sf h, independent_col]
  refine ⟨fun k => (stat sf reg X S k).getD 0, fun k hk => (hsome k hk).1, fun i hi' j hj hsink hne => ?_⟩
  have h0 : (stat sf reg X S i).getD 0 = 0 := by
    rw [(hsome i hi').2.2, hres i hi' hsink]
    refine independent_shift (error_independent hm hX (hb i hi') fun u hu => ?_) _
    have hu' : u ∈ S ∧ u ≠ i := by simpa using hu
    refine ⟨hb u hu'.1, fun hiu => ?_⟩
    rcases Relation.ReflTransGen.cases_head hiu with h | ⟨v, hv, hvu⟩
    · exact hu'.2 h.symm
    · refine hsink v ?_ hv
      clear hiu hv
      induction hvu using Relation.ReflTransGen.head_induction_on with
      | refl => exact hu'.1
      | head h1 _ ih => exact hcl _ _ h1 ih
  beta_reduce
  rw [h0]
  refine lt_of_le_of_ne (hsome j hj).2.1 fun h => ?_
  exact (hi.others S ⟨hnd, hb, hcl⟩ j hj hne).2 ((hsome j hj).2.2.1 h.symm)

/-! ### Regressors that find the functions -/

/-- The residual of a least squares fit, if the target is written as a linear function plus something uncorrelated with the regressors. -/
theorem fit_residual {q : Nat} {Z : Fin N → Fin q → ℝ} {y ε : Fin N → ℝ} {b c : Fin q → ℝ} (hls : LeastSquaresFit (fun k r => Z r k) y c)
    (hy : ∀ r, y r = ∑ k, b k * Z r k + ε r) (hi : ∀ k, N * ∑ r, ε r * Z r k = (∑ r, ε r) * ∑ r, Z r k) (r : Fin N) :
    RcdData.residOf c (fun k r => Z r k) y r = ε r - (∑ s, ε s) / N := by
  have hN : (N : ℝ) ≠ 0 := by
    have : N ≠ 0 := by rintro rfl; exact r.elim0
    exact_mod_cast this
  obtain ⟨h0, h1⟩ := RcdData.residOf_normal hls
  have hb' : ∀ r, RcdData.residOf b (fun k r => Z r k) y r = ε r - (∑ s, ε s) / N := by
    intro r
    unfold RcdData.residOf
    have e1 : RcdData.mean y = ∑ k, b k * RcdData.mean (fun r => Z r k) + (∑ s, ε s) / N := by
      unfold RcdData.mean
      have : ∑ r, y r = ∑ k, b k * ∑ r, Z r k + ∑ r, ε r := by
        rw [Finset.sum_congr rfl fun r _ => hy r, Finset.sum_add_distrib]
        congr 1
        simp only [mul_sum]
        rw [sum_comm]
      rw [this, add_div, sum_div]
      congr 1
      exact sum_congr rfl fun k _ => by ring
    rw [e1, hy r]
    ring
  have u := RcdData.residOf_unique h0 h1 (c' := b) (by
      simp only [hb', sum_sub_distrib, sum_const, card_univ, Fintype.card_fin, nsmul_eq_mul]
      field_simp
      ring) (fun k => by
      simp only [hb', sub_mul, sum_sub_distrib]
      have := hi k
      rw [← Finset.mul_sum]
      field_simp
      linarith)
  rw [u, hb']

/-- The residual of least squares, if the target is written as a linear function plus something uncorrelated with the regressors. -/
theorem linear_residual {reg : Regression N} (hr : IsLinearFit reg) {q : Nat} {Z : Fin N → Fin q → ℝ} {y ε : Fin N → ℝ} {b : Fin q → ℝ}
    (hy : ∀ r, y r = ∑ k, b k * Z r k + ε r) (hi : ∀ k, N * ∑ r, ε r * Z r k = (∑ r, ε r) * ∑ r, Z r k) (r : Fin N) :
    y r - reg q Z y r = ε r - (∑ s, ε s) / N := by
  have hN : (N : ℝ) ≠ 0 := by
    have : N ≠ 0 := by rintro rfl; exact r.elim0
    exact_mod_cast this
  obtain ⟨b0, c, hf, hmin⟩ := hr q Z y
  have hls : LeastSquaresFit (fun k r => Z r k) y c := by
    refine ⟨b0, fun b' c' => ?_⟩
    have := hmin b' c'
    simpa only [sub_sub] using this
  obtain ⟨n0, n1⟩ := RcdData.normal (b := b0) (c := c) (Z := fun k r => Z r k) (y := y) (by
    intro b' c'
    simpa only [sub_sub] using hmin b' c')
  have hres : ∀ r, RcdData.residOf c (fun k r => Z r k) y r = y r - reg q Z y r := by
    intro r
    rw [hf]
    unfold RcdData.residOf
    have hs : ∑ r, (y r - b0 - ∑ k, c k * Z r k) = ∑ r, y r - N * b0 - ∑ k, c k * ∑ r, Z r k := by
      rw [sum_sub_distrib, sum_sub_distrib, sum_comm]
      simp only [mul_sum, sum_const, card_univ, Fintype.card_fin, nsmul_eq_mul]
    rw [hs] at n0
    have e1 : ∑ k, c k * RcdData.mean (fun r => Z r k) = (∑ k, c k * ∑ r, Z r k) / N := by
      rw [sum_div]
      exact sum_congr rfl fun k _ => by unfold RcdData.mean; ring
    rw [e1]
    unfold RcdData.mean
    field_simp
    linarith
  rw [← hres, fit_residual hls hy hi r]

/-- Least squares finds linear functions. -/
theorem linear_learns {reg : Regression N} (hr : IsLinearFit reg) : Learns reg (fun q g => ∃ b : Fin q → ℝ, ∀ v, g v = ∑ k, b k * v k) := by
  rintro q Z y g ε ⟨b, hb⟩ hy hi r
  exact linear_residual hr (b := b) (fun r => by rw [hy r, hb]) (fun k => hi (fun v => v) (fun v => v k)) r

/-- The mean of the observations with the same regressors finds all functions. -/
theorem mean_learns {reg : Regression N} (hr : IsGroupMean reg) : Learns reg (fun _ _ => True) := by
  intro q Z y g ε _ hy hi r
  have hN : (N : ℝ) ≠ 0 := by
    have : N ≠ 0 := by rintro rfl; exact r.elim0
    exact_mod_cast this
  have h := hr q Z y r
  have h1 := hi (fun v => v) (fun v => if v = Z r then 1 else 0)
  have hpos : (∑ s, (if Z s = Z r then (1 : ℝ) else 0)) ≠ 0 := by
    have : (0 : ℝ) < ∑ s, (if Z s = Z r then (1 : ℝ) else 0) := by
      refine Finset.sum_pos' (fun s _ => by split <;> norm_num) ⟨r, Finset.mem_univ r, by simp⟩
    exact this.ne'
  have e1 : ∑ s, (if Z s = Z r then y s else 0) = g (Z r) * ∑ s, (if Z s = Z r then (1 : ℝ) else 0) + ∑ s, ε s * (if Z s = Z r then 1 else 0) := by
    rw [Finset.mul_sum, ← Finset.sum_add_distrib]
    refine Finset.sum_congr rfl fun s _ => ?_
    by_cases hs : Z s = Z r
    · rw [if_pos hs, if_pos hs, hy s, hs]; ring
    · rw [if_neg hs, if_neg hs]; ring
  have e2 : reg q Z y r = g (Z r) + (∑ s, ε s) / N := by
    rw [e1] at h
    generalize (∑ s, (if Z s = Z r then (1 : ℝ) else 0)) = m at *
    have h2 : ∑ s, ε s * (if Z s = Z r then (1 : ℝ) else 0) = (∑ s, ε s) * m / N := by
      rw [eq_div_iff hN, ← h1]; ring
    rw [h2] at h
    have : (reg q Z y r - (g (Z r) + (∑ s, ε s) / N)) * m = 0 := by
      rw [sub_mul, h]; ring
    rcases mul_eq_zero.1 this with h3 | h3
    · linarith
    · exact absurd h3 hpos
  rw [e2, hy r]
  ring

/-- **C232, linear regression.** -/
theorem C232_linear {reg : Regression N} {B : Nat → Nat → ℝ} (hN : 4 ≤ N) (sf : ℝ → ℝ → ℝ → ℝ) (alpha : ℝ)
    (hm : IndependentErrors n (Edge n B 0) e) (hX : LinearNoise n B X e) (hr : IsLinearFit reg) (hi : Identified reg n (Edge n B 0) X e) :
    ∃ order A, fit sf reg alpha n X = some (order, A) ∧ IsOrder n order ∧ ∀ i j, i < n → j < n → B i j ≠ 0 → Before order j i := by
  have hF : FunctionalModel n (Edge n B 0) X e := by
    intro i hi
    refine ⟨fun u => ∑ j ∈ range n, B i j * u j, fun u v huv => ?_, fun r => hX i hi r⟩
    refine Finset.sum_congr rfl fun j hj => ?_
    by_cases hB : B i j = 0
    · rw [hB]; ring
    · rw [huv j ⟨Finset.mem_range.1 hj, hi, abs_pos.2 hB⟩]
  obtain ⟨order, A, h1, h2, h3⟩ := C232_order hN sf alpha hm hF (linear_learns hr) (fun i hi l hnd hl hcause => by
    refine ⟨fun v => ∑ k, B i (l.get k) * v k, ⟨fun k => B i (l.get k), fun _ => rfl⟩, fun r => ?_⟩
    rw [hX i hi r]
    congr 1
    have e1 : ∑ k : Fin l.length, B i (l.get k) * rowsOf X l r k = (l.map (fun j => B i j * X j r)).sum := by
      rw [← List.sum_ofFn]
      congr 1
      refine List.ext_getElem (by simp) fun m h1 h2 => ?_
      simp [rowsOf]
    beta_reduce
    rw [e1, ← List.sum_toFinset _ hnd]
    symm
    refine Finset.sum_subset (fun u hu => Finset.mem_range.2 (hl u (List.mem_toFinset.1 hu)).1) fun j hj hjl => ?_
    have : B i j = 0 := by
      by_contra hB
      exact hjl (List.mem_toFinset.2 (hcause j ⟨Finset.mem_range.1 hj, hi, abs_pos.2 hB⟩))
    rw [this, zero_mul]) hi
  exact ⟨order, A, h1, h2, fun i j hi hj hB => h3 j i ⟨hj, hi, abs_pos.2 hB⟩⟩

/-- **C232, regression by group means:** every acyclic additive noise model, whatever the functions. -/
theorem C232_nonlinear {reg : Regression N} (hN : 4 ≤ N) (sf : ℝ → ℝ → ℝ → ℝ) (alpha : ℝ) (hm : IndependentErrors n E e)
    (hX : FunctionalModel n E X e) (hr : IsGroupMean reg) (hi : Identified reg n E X e) :
    ∃ order A, fit sf reg alpha n X = some (order, A) ∧ IsOrder n order ∧ ∀ a b, E a b → Before order a b := by
  refine C232_order hN sf alpha hm hX (mean_learns hr) (fun i hi l hnd hl hcause => ?_) hi
  obtain ⟨g, hg, hx⟩ := hX i hi
  refine ⟨fun v => g (fun j => if hj : l.idxOf j < l.length then v ⟨l.idxOf j, hj⟩ else 0), trivial, fun r => ?_⟩
  rw [hx r]
  congr 1
  refine hg _ _ fun j hj => ?_
  have hjl := List.idxOf_lt_length_iff.2 (hcause j hj)
  simp only [dif_pos hjl, rowsOf, List.get_eq_getElem, List.getElem_idxOf]

/-! ### A case meeting the hypotheses: the sum of two throws of a coin -/

/-- Errors: the two coins. -/
noncomputable def coinE : Nat → Fin 8 → ℝ := fun j r => if j = 0 then Hsic.coinA r 0 else Hsic.coinB r 0

/-- Variables: the first coin, and the sum. -/
noncomputable def coinX : Nat → Fin 8 → ℝ := fun j r => if j = 0 then Hsic.coinA r 0 else Hsic.coinA r 0 + Hsic.coinB r 0

/-- Regression by group means. -/
noncomputable def groupMean : Regression N := fun _ Z y r =>
  (∑ s, if Z s = Z r then y s else 0) / ∑ s, if Z s = Z r then 1 else 0

theorem groupMean_isGroupMean : IsGroupMean (N := N) groupMean := by
  intro q Z y r
  have hpos : (0 : ℝ) < ∑ s, (if Z s = Z r then (1 : ℝ) else 0) :=
    Finset.sum_pos' (fun s _ => by split <;> norm_num) ⟨r, Finset.mem_univ r, by simp⟩
  unfold groupMean
  rw [div_mul_cancel₀ _ hpos.ne']

theorem coin_residual (r : Fin 8) : residual groupMean coinX 0 [1] r = (Hsic.coinA r 0 - Hsic.coinB r 0) / 2 := by
  have e : ∀ s : Fin 8, rowsOf coinX [1] s = rowsOf coinX [1] r ↔ coinX 1 s = coinX 1 r := by
    intro s
    constructor
    · intro h; exact congrFun h ⟨0, by simp⟩
    · intro h; funext k
      have : k = ⟨0, by simp⟩ := Fin.ext (Nat.lt_one_iff.1 k.isLt)
      subst this
      exact h
  unfold residual groupMean
  simp only [e, Fin.sum_univ_eight]
  fin_cases r <;> norm_num [coinX, Hsic.coinA, Hsic.coinB, Fin.sum_univ_eight]

/-- Least squares has the same residual here. -/
theorem coin_residual_linear {reg : Regression 8} (hr : IsLinearFit reg) (r : Fin 8) :
    residual reg coinX 0 [1] r = (Hsic.coinA r 0 - Hsic.coinB r 0) / 2 := by
  have h := linear_residual hr (q := [1].length) (Z := rowsOf coinX [1]) (y := coinX 0) (b := fun _ => 1 / 2)
    (ε := fun r => (Hsic.coinA r 0 - Hsic.coinB r 0) / 2)
    (fun r => by
      have : ∑ k : Fin [1].length, (1 / 2 : ℝ) * rowsOf coinX [1] r k = 1 / 2 * coinX 1 r := Fin.sum_univ_one _
      rw [this]
      simp only [coinX, if_true, one_ne_zero, if_false]
      ring)
    (fun k => by
      have : k = ⟨0, by simp⟩ := Fin.ext (Nat.lt_one_iff.1 k.isLt)
      subst this
      norm_num [rowsOf, coinX, Hsic.coinA, Hsic.coinB, Fin.sum_univ_eight]) r
  unfold residual
  rw [h]
  norm_num [Hsic.coinA, Hsic.coinB, Fin.sum_univ_eight]

theorem coin_identified {reg : Regression 8} (hreg : ∀ r, residual reg coinX 0 [1] r = (Hsic.coinA r 0 - Hsic.coinB r 0) / 2) :
    Identified reg 2 (fun a b => a = 0 ∧ b = 1) coinX coinE := by
  refine ⟨?_, ?_, ?_⟩
  · intro i hi
    have : i = 0 ∨ i = 1 := by omega
    rcases this with rfl | rfl
    · exact ⟨0, 4, by norm_num, by norm_num, by norm_num [coinX, Hsic.coinA]⟩
    · exact ⟨0, 2, by norm_num, by norm_num, by norm_num [coinX, Hsic.coinA, Hsic.coinB]⟩
  · intro i hi
    have : i = 0 ∨ i = 1 := by omega
    rcases this with rfl | rfl
    · exact ⟨0, 4, by norm_num, by norm_num, by norm_num [coinE, Hsic.coinA]⟩
    · exact ⟨0, 2, by norm_num, by norm_num, by norm_num [coinE, Hsic.coinA, Hsic.coinB]⟩
  · rintro S ⟨hnd, hb, _⟩ k hk ⟨u, hu, rfl, rfl⟩
    have hf : S.filter (fun i => decide (i ≠ 0)) = [1] := by
      have h1 : (S.filter (fun i => decide (i ≠ 0))).Perm [1] := by
        rw [List.perm_ext_iff_of_nodup (hnd.filter _) (by simp)]
        intro v
        simp only [List.mem_filter, decide_eq_true_eq, List.mem_singleton]
        constructor
        · rintro ⟨hv, h0⟩
          have := hb v hv
          omega
        · rintro rfl
          exact ⟨hu, by norm_num⟩
      exact List.perm_singleton.1 h1
    rw [hf]
    constructor
    · refine ⟨0, 2, by norm_num, by norm_num, ?_⟩
      rw [hreg, hreg]
      norm_num [Hsic.coinA, Hsic.coinB]
    · intro hi
      have := hi (fun v => v ^ 2) (fun v => if v ⟨0, by simp⟩ = 1 then 1 else 0)
      simp only [hreg, Fin.sum_univ_eight] at this
      norm_num [rowsOf, coinX, Hsic.coinA, Hsic.coinB, Fin.sum_univ_eight] at this

theorem coin_errors : IndependentErrors 2 (fun a b => a = 0 ∧ b = 1) coinE := by
  refine ⟨?_, ?_, ?_⟩
  · intro i hi
    have key : ∀ a b, Relation.TransGen (fun a b : Nat => a = 0 ∧ b = 1) a b → a = 0 ∧ b = 1 := by
      intro a b h
      induction h with
      | single h => exact h
      | tail _ h ih => exact ⟨ih.1, h.2⟩
    have := key i i hi
    omega
  · rintro a b ⟨rfl, rfl⟩; norm_num
  · intro i hi
    have : i = 0 ∨ i = 1 := by omega
    rcases this with rfl | rfl
    · refine independent_of_determined (y := fun r => Hsic.coinB r) (fun f g => Hsic.coins_independent (fun v => f (v 0)) g) fun r s h => ?_
      funext j
      simp only [coinE, if_neg j.2]
      exact congrFun h 0
    · refine independent_of_determined (y := fun r => Hsic.coinA r) (fun f g => ?_) fun r s h => ?_
      · have := Hsic.coins_independent g (fun v => f (v 0))
        rw [mul_comm (∑ r, f (coinE 1 r)), ← Finset.sum_congr rfl fun r _ => mul_comm (g (Hsic.coinA r)) (f (coinE 1 r))]
        exact this
      · funext j
        have h0 : j.1.val = 0 := by have := j.2; have := j.1.isLt; omega
        simp only [coinE, h0, if_true]
        exact congrFun h 0

theorem coin_model : FunctionalModel 2 (fun a b => a = 0 ∧ b = 1) coinX coinE := by
  · intro i hi
    have : i = 0 ∨ i = 1 := by omega
    rcases this with rfl | rfl
    · exact ⟨fun _ => 0, fun _ _ _ => rfl, fun r => by simp [coinX, coinE]⟩
    · exact ⟨fun u => u 0, fun u v h => h 0 ⟨rfl, rfl⟩, fun r => by simp [coinX, coinE]⟩

example (sf : ℝ → ℝ → ℝ → ℝ) (alpha : ℝ) : ∃ order A, fit sf groupMean alpha 2 coinX = some (order, A) ∧ IsOrder 2 order ∧ Before order 0 1 := by
  obtain ⟨order, A, h1, h2, h3⟩ := C232_nonlinear (by norm_num) sf alpha coin_errors coin_model groupMean_isGroupMean
    (coin_identified coin_residual)
  exact ⟨order, A, h1, h2, h3 0 1 ⟨rfl, rfl⟩⟩

/-- The same with least squares (`exists_linearFit`: there is such a regression). -/
example (sf : ℝ → ℝ → ℝ → ℝ) (alpha : ℝ) : ∃ reg : Regression 8, IsLinearFit reg ∧ ∃ order A, fit sf reg alpha 2 coinX = some (order, A) ∧
    IsOrder 2 order ∧ Before order 0 1 := by
  obtain ⟨reg, hr⟩ := exists_linearFit (N := 8)
  let B : Nat → Nat → ℝ := fun i j => if i = 1 ∧ j = 0 then 1 else 0
  have hE : Edge 2 B 0 = fun a b => a = 0 ∧ b = 1 := by
    funext a b
    refine propext ⟨fun ⟨_, _, h⟩ => ?_, ?_⟩
    · by_contra hc
      have : B b a = 0 := if_neg fun h => hc ⟨h.2, h.1⟩
      rw [this] at h
      norm_num at h
    · rintro ⟨rfl, rfl⟩
      exact ⟨by norm_num, by norm_num, by norm_num [B]⟩
  obtain ⟨order, A, h1, h2, h3⟩ := C232_linear (B := B) (by norm_num) sf alpha (hE ▸ coin_errors) (fun i hi r => by
    have : i = 0 ∨ i = 1 := by omega
    rcases this with rfl | rfl
    · norm_num [B, coinX, coinE]
    · norm_num [B, coinX, coinE, Finset.sum_range_succ]) hr (hE ▸ coin_identified (coin_residual_linear hr))
  exact ⟨reg, hr, order, A, h1, h2, h3 1 0 (by norm_num) (by norm_num) (by norm_num [B])⟩

end Verif.ResitData
