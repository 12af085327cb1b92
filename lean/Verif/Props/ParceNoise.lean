import Verif.Model.ParceData
import Verif.Props.ResitData
import Verif.Props.Parce

/-! C233: BottomUpParceLiNGAM finds a right order of all variables if the errors of the sample are exactly independent. -/
set_option autoImplicit false
set_option linter.unusedSectionVars false
namespace Verif.ParceData
open Finset RcdData
open Direct (Part)

variable {N : Nat}

/-! ### The search, when the best candidate is always without effects -/

theorem search_sinks {n : Nat} {E : Nat → Nat → Prop} (hac : Acyclic E) (hE : ∀ a b, E a b → a < n ∧ b < n) {c : Parce.Cfg ℝ} (hpk : c.pk = none)
    {thresh : ℝ} (hb : ∀ S, ClosedSet n E S → 2 ≤ S.length → (∃ j ∈ S, Parce.cost c S j ≠ ⊤) ∧
      ∀ w ∈ S, (∀ j ∈ S, Parce.cost c S w ≤ Parce.cost c S j) →
        (∀ u ∈ S, ¬ E w u) ∧ Parce.isReject c thresh ((Parce.eval c S w : ℝ) : WithTop ℝ) = false) :
    ∀ (fuel : Nat) (K U : List Nat) (po : List (Nat × Nat)) (K' : List Nat), Part n K U → 2 ≤ U.length → (∀ a b, E a b → b ∈ U → a ∈ U) →
      (∀ a b, E a b → a ∈ K → Before K a b) → Parce.searchOrder c thresh fuel K U po = some (.ok K') →
      IsOrder n K' ∧ ∀ a b, E a b → Before K' a b
  | 0, _, _, _, _, _, _, _, _, h => by simp [Parce.searchOrder] at h
  | fuel + 1, K, U, po, K', hp, hU, hcl, hK, h => by
    have hcand : Parce.searchCandidate c po U = U := by unfold Parce.searchCandidate; rw [hpk]
    have hlt : ∀ u ∈ U, u < n := fun u hu => (hp.2.2.2 u).1 (Or.inr hu)
    obtain ⟨⟨j0, hj0, hfin⟩, hbest⟩ := hb U ⟨hp.2.1, hlt, hcl⟩ hU
    rcases Parce.search_cases hU h with ⟨hrej, rfl⟩ | ⟨x, e, hx, hbx, hr, hh⟩ | ⟨_, hall, _, _⟩
    · exfalso
      rw [hcand] at hrej
      rcases Parce.findExo_cases c U U with ⟨x, e, hx, hfe, hbx⟩ | ⟨_, _, hall⟩
      · rcases hbx with ⟨h1, _⟩ | ⟨_, he, _, hmin⟩
        · have := congrArg List.length h1; simp at this; omega
        · rw [hfe, he, (hbest x hx hmin).2] at hrej
          cases hrej
      · exact hfin (hall j0 hj0)
    · rw [hcand] at hx hbx
      rcases hbx with ⟨h1, _⟩ | ⟨_, he, _, hmin⟩
      · have := congrArg List.length h1; simp at this; omega
      · have hsink := (hbest x hx hmin).1
        have hp' := Parce.Part.cons hp hx
        have hK' : ∀ a b, E a b → a ∈ x :: K → Before (x :: K) a b := by
          intro a b hab ha
          rcases List.mem_cons.1 ha with rfl | ha
          · refine Before.of_mem_append (l := [a]) (by simp) ?_
            rcases (hp.2.2.2 b).2 (hE a b hab).2 with h | h
            · exact h
            · exact absurd hab (hsink b h)
          · exact (hK a b hab ha).of_append_right (l := [x])
        have hcl' : ∀ a b, E a b → b ∈ U.filter (fun i => decide (i ≠ x)) → a ∈ U.filter (fun i => decide (i ≠ x)) := by
          intro a b hab hb'
          simp only [List.mem_filter, decide_eq_true_eq] at hb' ⊢
          exact ⟨hcl a b hab hb'.1, by rintro rfl; exact hsink b hb'.1 hab⟩
        rcases hh with ⟨hl, rfl⟩ | ⟨hl, hs⟩
        · generalize hW : U.filter (fun i => decide (i ≠ x)) = W at *
          match W, hl, hp' with
          | [], _, hp' =>
            refine ⟨⟨hp'.1, fun i => ?_⟩, fun a b hab => hK' a b hab ?_⟩
            · rw [← hp'.2.2.2 i]; simp
            · have := (hp'.2.2.2 a).2 (hE a b hab).1
              simpa using this
          | [y], _, hp' =>
            have hq := Parce.Part.cons hp' (m := y) (by simp)
            have hmem : ∀ i, i ∈ [y] ++ x :: K ↔ i < n := by
              intro i
              have := hq.2.2.2 i
              simpa using this
            refine ⟨⟨by simpa using hq.1, hmem⟩, fun a b hab => ?_⟩
            rcases List.mem_append.1 ((hmem a).2 (hE a b hab).1) with ha | ha
            · refine Before.of_mem_append ha ?_
              rcases List.mem_append.1 ((hmem b).2 (hE a b hab).2) with hb' | hb'
              · rw [List.mem_singleton] at ha hb'
                subst ha; subst hb'
                exact absurd (Relation.TransGen.single hab) (hac _)
              · exact hb'
            · exact (hK' a b hab ha).of_append_right
        · exact search_sinks hac hE hpk hb fuel _ _ _ _ hp' (by omega) hcl' hK' hs
    · exact absurd (hall j0 hj0) hfin

/-! ### The tests -/

variable {n : Nat} {B : Nat → Nat → ℝ} {X e : Nat → Fin N → ℝ} {L : Lib N}

/-- What is assumed about the sample (for sets containing the causes of their members): the tests give numbers, and the residual of a
variable with an effect in the set depends on some other variable of the set. -/
structure IdentifiedPairs (L : Lib N) (n : Nat) (E : Nat → Nat → Prop) (X : Nat → Fin N → ℝ) : Prop where
  reported : ∀ S, ClosedSet n E S → ∀ k ∈ S, ∀ z ∈ S, z ≠ k →
    ∃ s p, Hsic.test L.gammaSf (Mlhsicr.col (X z)) (Mlhsicr.col (resid L X k (rest S k))) = .ok (some s, some p)
  others : ∀ S, ClosedSet n E S → ∀ k ∈ S, (∃ u ∈ S, E k u) → ∃ z ∈ S, z ≠ k ∧ ¬ SampleIndependent (X z) (resid L X k (rest S k))

theorem functional_of_linear (hX : LinearNoise n B X e) : FunctionalModel n (Edge n B 0) X e := by
  intro i hi
  refine ⟨fun u => ∑ j ∈ range n, B i j * u j, fun u v huv => ?_, fun r => hX i hi r⟩
  refine Finset.sum_congr rfl fun j hj => ?_
  by_cases hB : B i j = 0
  · rw [hB]; ring
  · rw [huv j ⟨Finset.mem_range.1 hj, hi, abs_pos.2 hB⟩]

theorem independent_symm {α β : Type} {x : Fin N → α} {y : Fin N → β} (h : SampleIndependent x y) : SampleIndependent y x := by
  intro f g
  have := h g f
  rw [mul_comm (∑ r, f (y r)), ← this]
  exact congrArg _ (Finset.sum_congr rfl fun r _ => mul_comm _ _)

/-- The error of a variable without effects in the set is independent of every other variable of the set. -/
theorem sink_independent (hm : IndependentErrors n (Edge n B 0) e) (hX : LinearNoise n B X e) {S : List Nat} (hS : ClosedSet n (Edge n B 0) S) {k : Nat}
    (hk : k ∈ S) (hsink : ∀ u ∈ S, ¬ Edge n B 0 k u) {z : Nat} (hz : z ∈ S) (hzk : z ≠ k) : SampleIndependent (e k) (X z) := by
  have := ResitData.error_independent hm (functional_of_linear hX) (hS.2.1 k hk) (l := [z]) (by
    intro u hu
    rw [List.mem_singleton] at hu
    subst hu
    refine ⟨hS.2.1 u hz, fun hku => ?_⟩
    rcases Relation.ReflTransGen.cases_head hku with h | ⟨v, hv, hvu⟩
    · exact hzk h.symm
    · refine hsink v ?_ hv
      clear hku hv
      induction hvu using Relation.ReflTransGen.head_induction_on with
      | refl => exact hz
      | head h1 _ ih => exact hS.2.2 _ _ h1 ih)
  exact ResitData.independent_of_determined this fun r s hrs => congrFun hrs ⟨0, by simp⟩

/-- The residual of a variable without effects in the set is its centred error. -/
theorem sink_residual (hm : IndependentErrors n (Edge n B 0) e) (hX : LinearNoise n B X e) (hL : OlsRight L) {S : List Nat}
    (hS : ClosedSet n (Edge n B 0) S) {k : Nat} (hk : k ∈ S) (hsink : ∀ u ∈ S, ¬ Edge n B 0 k u) :
    resid L X k (rest S k) = fun r => e k r - (∑ s, e k s) / N := by
  funext r
  have hmem : ∀ u, u ∈ rest S k ↔ u ∈ S ∧ u ≠ k := fun u => by simp [rest]
  have hkn := hS.2.1 k hk
  refine ResitData.fit_residual (Z := fun r j => X ((rest S k).get j) r) (b := fun j => B k ((rest S k).get j)) (hL _ _ _) (fun r => ?_) (fun j => ?_) r
  · rw [hX k hkn r]
    congr 1
    have e1 : ∑ j : Fin (rest S k).length, B k ((rest S k).get j) * X ((rest S k).get j) r = ((rest S k).map (fun j => B k j * X j r)).sum := by
      rw [← List.sum_ofFn]
      congr 1
      conv_rhs => rw [← List.ofFn_get (rest S k)]
      rw [List.map_ofFn]
      rfl
    rw [e1, ← List.sum_toFinset _ (show (rest S k).Nodup from hS.1.filter _)]
    symm
    refine Finset.sum_subset (fun u hu => Finset.mem_range.2 (hS.2.1 u ((hmem u).1 (List.mem_toFinset.1 hu)).1)) fun u hu hnot => ?_
    have hB : B k u = 0 := by
      by_contra hB
      have hEd : Edge n B 0 u k := ⟨Finset.mem_range.1 hu, hkn, abs_pos.2 hB⟩
      exact hnot (List.mem_toFinset.2 ((hmem u).2 ⟨hS.2.2 u k hEd hk, by rintro rfl; exact hm.acyclic u (.single hEd)⟩))
    rw [hB]; ring
  · obtain ⟨h1, h2⟩ := (hmem _).1 (List.get_mem (rest S k) j)
    exact sink_independent hm hX hS hk hsink h1 h2 (fun v => v) (fun v => v)

/-- What is used of the library: the survival function of the gamma distribution and the distribution function of chi-square. -/
structure RightTails (L : Lib N) (chi2 : Nat → ℝ → ℝ) : Prop where
  zero : ∀ a b, 0 < a → 0 < b → L.gammaSf 0 a b = 1
  pos : ∀ x a b, 0 < x → 0 < a → 0 < b → L.gammaSf x a b < 1
  nonneg : ∀ x a b, 0 < x → 0 < a → 0 < b → 0 ≤ L.gammaSf x a b
  chi : ∀ d, 0 < d → chi2 d 0 = 0

theorem pair_col {a b : Fin N → ℝ} : SampleIndependent (Mlhsicr.col a) (Mlhsicr.col b) ↔ SampleIndependent a b := by
  constructor
  · intro h f g
    exact h (fun v => f (v 0)) (fun v => g (v 0))
  · intro h f g
    exact h (fun v => f fun _ => v) (fun v => g fun _ => v)

/-- One test, of independent and of dependent samples. -/
theorem pair_zero {chi2 : Nat → ℝ → ℝ} (hT : RightTails L chi2) {a b : Fin N → ℝ}
    (h : ∃ s p, Hsic.test L.gammaSf (Mlhsicr.col a) (Mlhsicr.col b) = .ok (some s, some p)) :
    (SampleIndependent a b → hsicPair L a b = (0, 1)) ∧
      (¬ SampleIndependent a b → 0 < (hsicPair L a b).1 ∧ 0 ≤ (hsicPair L a b).2 ∧ (hsicPair L a b).2 < 1) := by
  obtain ⟨s, p, h⟩ := h
  have he : hsicPair L a b = (s, p) := by unfold hsicPair; rw [h]; rfl
  rw [he]
  constructor
  · intro hi
    rw [(Hsic.C231_zero_iff _ h).2 (pair_col.2 hi), Hsic.C231_accepted hT.zero h (pair_col.2 hi)]
  · intro hi
    obtain ⟨h1, h2⟩ := Hsic.C231_dependent hT.pos h (fun hc => hi (pair_col.1 hc))
    refine ⟨h1, ?_, h2⟩
    obtain ⟨_, _, a', b', _, _, _, _, ha, hb, rfl, _⟩ := Hsic.C116_hsic_p_value _ _ _ s p h
    exact hT.nonneg s a' b' h1 ha hb

theorem fisherTerm_one : fisherTerm 1 = 0 := by
  unfold fisherTerm
  rw [if_neg one_ne_zero, Real.log_one, mul_zero]
  rfl

theorem fisherTerm_pos {p : ℝ} (h0 : 0 ≤ p) (h1 : p < 1) : 0 < fisherTerm p := by
  unfold fisherTerm
  split
  · exact WithTop.top_pos
  · rename_i hp
    have := Real.log_neg (lt_of_le_of_ne h0 (Ne.symm hp)) h1
    rw [WithTop.coe_pos]
    linarith

/-- Fisher's statistic for variables that are all independent of the residual. -/
theorem fisher_zero {chi2 : Nat → ℝ → ℝ} (hT : RightTails L chi2) {Z : List (Fin N → ℝ)} {R : Fin N → ℝ} (hne : Z ≠ [])
    (hrep : ∀ z ∈ Z, ∃ s p, Hsic.test L.gammaSf (Mlhsicr.col z) (Mlhsicr.col R) = .ok (some s, some p))
    (hi : ∀ z ∈ Z, SampleIndependent z R) : fisherHsic L chi2 Z R = (0, 1) := by
  unfold fisherHsic
  split
  · rename_i z
    rw [(pair_zero hT (hrep z (by simp))).1 (hi z (by simp))]
    rfl
  · have : (Z.map (fun z => fisherTerm (hsicPair L z R).2)).sum = ((0 : ℝ) : WithTop ℝ) := by
      refine List.sum_eq_zero fun t ht => ?_
      obtain ⟨z, hz, rfl⟩ := List.mem_map.1 ht
      rw [(pair_zero hT (hrep z hz)).1 (hi z hz), fisherTerm_one]
    rw [this]
    simp only
    rw [hT.chi _ (by have := List.length_pos_of_ne_nil hne; omega), sub_zero]
    rfl

/-- Fisher's statistic if some variable depends on the residual. -/
theorem fisher_pos {chi2 : Nat → ℝ → ℝ} (hT : RightTails L chi2) {Z : List (Fin N → ℝ)} {R : Fin N → ℝ}
    (hrep : ∀ z ∈ Z, ∃ s p, Hsic.test L.gammaSf (Mlhsicr.col z) (Mlhsicr.col R) = .ok (some s, some p))
    (hd : ∃ z ∈ Z, ¬ SampleIndependent z R) : 0 < (fisherHsic L chi2 Z R).1 := by
  have hterm : ∀ z ∈ Z, 0 ≤ fisherTerm (hsicPair L z R).2 := by
    intro z hz
    by_cases hi : SampleIndependent z R
    · rw [(pair_zero hT (hrep z hz)).1 hi, fisherTerm_one]
    · obtain ⟨_, h1, h2⟩ := (pair_zero hT (hrep z hz)).2 hi
      exact (fisherTerm_pos h1 h2).le
  obtain ⟨z, hz, hi⟩ := hd
  obtain ⟨h0, h1, h2⟩ := (pair_zero hT (hrep z hz)).2 hi
  unfold fisherHsic
  split
  · rename_i z'
    rw [List.mem_singleton] at hz
    subst hz
    exact WithTop.coe_pos.2 h0
  · have hs : 0 < (Z.map (fun z => fisherTerm (hsicPair L z R).2)).sum := by
      refine lt_of_lt_of_le (fisherTerm_pos h1 h2) ?_
      refine List.single_le_sum (fun t ht => ?_) _ (List.mem_map.2 ⟨z, hz, rfl⟩)
      obtain ⟨w, hw, rfl⟩ := List.mem_map.1 ht
      exact hterm w hw
    split
    · exact WithTop.top_pos
    · rename_i s hsum
      rw [hsum] at hs
      exact hs

/-! ### The order -/

theorem centred_model (hX : LinearNoise n B X e) : LinearNoise n B (centre X) (centre e) := by
  intro i hi r
  unfold centre
  have : mean (X i) = ∑ j ∈ range n, B i j * mean (X j) + mean (e i) := by
    unfold mean
    rw [Finset.sum_congr rfl fun r _ => hX i hi r, Finset.sum_add_distrib, Finset.sum_comm, add_div, Finset.sum_div]
    congr 1
    exact Finset.sum_congr rfl fun j _ => by rw [← Finset.mul_sum]; ring
  rw [this, hX i hi r, Finset.sum_congr rfl fun j _ => mul_sub (B i j) (X j r) (mean (X j)), Finset.sum_sub_distrib]
  ring

theorem centred_errors {E : Nat → Nat → Prop} (hm : IndependentErrors n E e) : IndependentErrors n E (centre e) := by
  refine ⟨hm.acyclic, hm.bound, fun i hi => ?_⟩
  refine ResitData.independent_shift (ResitData.independent_of_determined (hm.indep i hi) fun r s h => ?_) _
  funext j
  show e _ r - _ = e _ s - _
  have := congrFun h j
  rw [show e j.1.val r = e j.1.val s from this]

/-- C233: if the sample follows a linear acyclic model with exactly independent errors, and the residuals of variables that still have
effects are not all independent of the other variables, BottomUpParceLiNGAM (without prior knowledge, with HSIC) resolves all variables and
puts causes before effects. -/
theorem C233_order (hn : 2 ≤ n) (hm : IndependentErrors n (Edge n B 0) e) (hX : LinearNoise n B X e) (hL : OlsRight L) {chi2 : Nat → ℝ → ℝ}
    (hT : RightTails L chi2) (lin : Pairwise.Lin N) (lars : Pairwise.Lars N) {alpha : ℝ} (ha : alpha ≤ (n : ℝ) - 1) (indCorr : ℝ)
    (hi : IdentifiedPairs L n (Edge n B 0) (centre X)) :
    ∃ o A, fit L lin lars chi2 none false alpha indCorr n n X = some (.ok (o, A)) ∧ o.block = [] ∧ IsOrder n o.rest ∧
      ∀ i j, i < n → j < n → B i j ≠ 0 → Before o.rest j i := by
  obtain ⟨o, A, h⟩ := Parce.C32_no_error (cfgOf L chi2 none false alpha indCorr X) rfl
    (fun ps t p => Pairwise.predict lin lars (centre X) ps t (ps.idxOf p)) n hn
  obtain ⟨po, _, _, hs, hbl, _⟩ := Parce.fit_ok h
  have hpos : (0 : ℝ) < (n : ℝ) - 1 := by
    have : (2 : ℝ) ≤ n := by exact_mod_cast hn
    linarith
  have key := search_sinks hm.acyclic hm.bound (c := cfgOf L chi2 none false alpha indCorr X) rfl
    (thresh := alpha / ((n : ℝ) - 1)) (fun S hS hlen => by
      have hrest : ∀ k, rest S k ≠ [] := by
        intro k h0
        have : ∀ u ∈ S, u = k := by
          intro u hu
          by_contra hne
          have : u ∈ rest S k := by simp [rest, hu, hne]
          rw [h0] at this
          cases this
        match S, hS.1, hlen, this with
        | [], _, hlen, _ => simp at hlen
        | [_], _, hlen, _ => simp at hlen
        | x :: y :: l, hnd, _, h1 =>
          have hx := h1 x (by simp)
          have hy := h1 y (by simp)
          rw [hx, hy] at hnd
          simp at hnd
      have hrep : ∀ k ∈ S, ∀ v ∈ (rest S k).map (centre X), ∃ s p,
          Hsic.test L.gammaSf (Mlhsicr.col v) (Mlhsicr.col (resid L (centre X) k (rest S k))) = .ok (some s, some p) := by
        intro k hk v hv
        obtain ⟨z, hz, rfl⟩ := List.mem_map.1 hv
        have hz' : z ∈ S ∧ z ≠ k := by simpa [rest] using hz
        exact hi.reported S hS k hk z hz'.1 hz'.2
      have hgood : ∀ k ∈ S, (∀ u ∈ S, ¬ Edge n B 0 k u) →
          fisherHsic L chi2 ((rest S k).map (centre X)) (resid L (centre X) k (rest S k)) = (0, 1) := by
        intro k hk hsink
        refine fisher_zero hT (by simpa using hrest k) (hrep k hk) fun v hv => ?_
        obtain ⟨z, hz, rfl⟩ := List.mem_map.1 hv
        have hz' : z ∈ S ∧ z ≠ k := by simpa [rest] using hz
        rw [sink_residual (centred_errors hm) (centred_model hX) hL hS hk hsink]
        exact independent_symm (ResitData.independent_shift (sink_independent (centred_errors hm) (centred_model hX) hS hk hsink hz'.1 hz'.2) _)
      have hbad : ∀ k ∈ S, (∃ u ∈ S, Edge n B 0 k u) →
          0 < (fisherHsic L chi2 ((rest S k).map (centre X)) (resid L (centre X) k (rest S k))).1 := by
        intro k hk hne
        obtain ⟨z, hz, hzk, hdep⟩ := hi.others S hS k hk hne
        exact fisher_pos hT (hrep k hk) ⟨centre X z, List.mem_map.2 ⟨z, by simp [rest, hz, hzk], rfl⟩, hdep⟩
      obtain ⟨i, hiS, hsink⟩ := exists_minimal (acyclic_flip hm.acyclic) S (by rintro rfl; simp at hlen)
      have hci : Parce.cost (cfgOf L chi2 none false alpha indCorr X) S i = 0 := congrArg Prod.fst (hgood i hiS hsink)
      refine ⟨⟨i, hiS, by rw [hci]; exact WithTop.zero_ne_top⟩, fun w hw hmin => ?_⟩
      have hws : ∀ u ∈ S, ¬ Edge n B 0 w u := by
        by_contra hne
        push Not at hne
        have h1 := hbad w hw hne
        have h2 := hmin i hiS
        rw [hci] at h2
        exact absurd h1 (not_lt.2 h2)
      refine ⟨hws, ?_⟩
      have he : Parce.eval (cfgOf L chi2 none false alpha indCorr X) S w = 1 := congrArg Prod.snd (hgood w hw hws)
      rw [he]
      show decide (((1 : ℝ) : WithTop ℝ) < ((alpha / ((n : ℝ) - 1) : ℝ) : WithTop ℝ)) = false
      rw [decide_eq_false_iff_not, WithTop.coe_lt_coe, not_lt, div_le_one hpos]
      exact ha) n [] (List.range n) po o.rest (Part.init n) (by simpa using hn)
    (fun a b hab _ => List.mem_range.2 (hm.bound a b hab).1) (fun a b _ ha => by cases ha) hs
  refine ⟨o, A, h, ?_, key.1, fun i j hi' hj hB => key.2 j i ⟨hj, hi', abs_pos.2 hB⟩⟩
  have hf : (List.range n).filter (fun i => decide (i ∉ o.rest)) = [] := by
    rw [List.filter_eq_nil_iff]
    intro i hi' hc
    rw [decide_eq_true_eq] at hc
    exact hc ((key.1.2 i).2 (List.mem_range.1 hi'))
  rw [hbl, hf]
  rfl

/-! ### A case meeting the hypotheses: the sum of two throws of a coin -/

/-- The effect of the first coin on the sum. -/
noncomputable def coinCoef : Nat → Nat → ℝ := fun i j => if i = 1 ∧ j = 0 then 1 else 0

theorem coin_edge : Edge 2 coinCoef 0 = fun a b => a = 0 ∧ b = 1 := by
  funext a b
  refine propext ⟨fun ⟨_, _, h⟩ => ?_, ?_⟩
  · by_contra hc
    have : coinCoef b a = 0 := if_neg fun h => hc ⟨h.2, h.1⟩
    rw [this] at h
    norm_num at h
  · rintro ⟨rfl, rfl⟩
    exact ⟨by norm_num, by norm_num, by norm_num [coinCoef]⟩

theorem coin_linear : LinearNoise 2 coinCoef ResitData.coinX ResitData.coinE := by
  intro i hi r
  have : i = 0 ∨ i = 1 := by omega
  rcases this with rfl | rfl
  · norm_num [coinCoef, ResitData.coinX, ResitData.coinE]
  · norm_num [coinCoef, ResitData.coinX, ResitData.coinE, Finset.sum_range_succ]

theorem rest_pair {S : List Nat} (hS : ClosedSet 2 (fun a b => a = 0 ∧ b = 1) S) {k z : Nat} (hk : k ∈ S) (hz : z ∈ S) (hzk : z ≠ k) : rest S k = [z] := by
  have h1 : (rest S k).Perm [z] := by
    rw [List.perm_ext_iff_of_nodup (show (rest S k).Nodup from hS.1.filter _) (List.nodup_singleton z)]
    intro v
    simp only [rest, List.mem_filter, decide_eq_true_eq, List.mem_singleton]
    constructor
    · rintro ⟨hv, h0⟩
      have := hS.2.1 v hv
      have := hS.2.1 k hk
      have := hS.2.1 z hz
      omega
    · rintro rfl
      exact ⟨hz, hzk⟩
  exact List.perm_singleton.1 h1

theorem coin_centre : centre ResitData.coinX = fun j r => if j = 0 then Hsic.coinA r 0 - 1 / 2 else Hsic.coinA r 0 + Hsic.coinB r 0 - 1 := by
  funext j r
  unfold centre mean ResitData.coinX
  by_cases hj : j = 0
  · simp only [hj, if_true]
    norm_num [Hsic.coinA, Fin.sum_univ_eight]
  · simp only [if_neg hj]
    norm_num [Hsic.coinA, Hsic.coinB, Fin.sum_univ_eight]

theorem coin_resid_effect {L : Lib 8} (hL : OlsRight L) : resid L (centre ResitData.coinX) 1 [0] = fun r => Hsic.coinB r 0 - 1 / 2 := by
  funext r
  have h := ResitData.fit_residual (q := [0].length) (Z := fun r k => centre ResitData.coinX ([0].get k) r) (y := centre ResitData.coinX 1)
    (b := fun _ => 1) (ε := fun r => Hsic.coinB r 0 - 1 / 2) (hL _ _ _)
    (fun r => by
      have : ∑ k : Fin [0].length, (1 : ℝ) * centre ResitData.coinX ([0].get k) r = 1 * centre ResitData.coinX 0 r := Fin.sum_univ_one _
      rw [this, coin_centre]
      norm_num
      ring)
    (fun k => by
      have : k = ⟨0, by simp⟩ := Fin.ext (Nat.lt_one_iff.1 k.isLt)
      subst this
      rw [coin_centre]
      norm_num [Hsic.coinA, Hsic.coinB, Fin.sum_univ_eight]) r
  refine Eq.trans h ?_
  norm_num [Hsic.coinB, Fin.sum_univ_eight]

theorem coin_resid_cause {L : Lib 8} (hL : OlsRight L) :
    resid L (centre ResitData.coinX) 0 [1] = fun r => (Hsic.coinA r 0 - Hsic.coinB r 0) / 2 := by
  funext r
  have h := ResitData.fit_residual (q := [1].length) (Z := fun r k => centre ResitData.coinX ([1].get k) r) (y := centre ResitData.coinX 0)
    (b := fun _ => 1 / 2) (ε := fun r => (Hsic.coinA r 0 - Hsic.coinB r 0) / 2) (hL _ _ _)
    (fun r => by
      have : ∑ k : Fin [1].length, (1 / 2 : ℝ) * centre ResitData.coinX ([1].get k) r = 1 / 2 * centre ResitData.coinX 1 r := Fin.sum_univ_one _
      rw [this, coin_centre]
      norm_num
      ring)
    (fun k => by
      have : k = ⟨0, by simp⟩ := Fin.ext (Nat.lt_one_iff.1 k.isLt)
      subst this
      rw [coin_centre]
      norm_num [Hsic.coinA, Hsic.coinB, Fin.sum_univ_eight]) r
  refine Eq.trans h ?_
  norm_num [Hsic.coinA, Hsic.coinB, Fin.sum_univ_eight]

theorem coin_pairs {L : Lib 8} (hL : OlsRight L) : IdentifiedPairs L 2 (Edge 2 coinCoef 0) (centre ResitData.coinX) := by
  rw [coin_edge]
  have rep : ∀ a b : Fin 8 → ℝ, a 0 = a 1 → b 0 = b 1 → a 0 ≠ a 4 → b 0 ≠ b 2 →
      ∃ s p, Hsic.test L.gammaSf (Mlhsicr.col a) (Mlhsicr.col b) = .ok (some s, some p) := by
    intro a b h1 h2 h3 h4
    exact Hsic.C231_reported (by norm_num) _ ⟨0, 4, by decide, by decide, fun h => h3 (congrFun h 0)⟩
      ⟨0, 2, by decide, by decide, fun h => h4 (congrFun h 0)⟩ (i := 0) (j := 1) (by decide) (by funext _; exact h1) (by funext _; exact h2)
  refine ⟨?_, ?_⟩
  · intro S hS k hk z hz hzk
    rw [rest_pair hS hk hz hzk]
    have hk2 := hS.2.1 k hk
    have hz2 := hS.2.1 z hz
    have : (k = 1 ∧ z = 0) ∨ (k = 0 ∧ z = 1) := by omega
    rcases this with ⟨rfl, rfl⟩ | ⟨rfl, rfl⟩
    · rw [coin_resid_effect hL, coin_centre]
      apply rep <;> norm_num [Hsic.coinA, Hsic.coinB]
    · rw [coin_resid_cause hL, coin_centre]
      apply rep <;> norm_num [Hsic.coinA, Hsic.coinB]
  · rintro S hS k hk ⟨u, hu, rfl, rfl⟩
    refine ⟨1, hu, by norm_num, fun hi => ?_⟩
    rw [rest_pair hS hk hu (by norm_num), coin_resid_cause hL, coin_centre] at hi
    have := hi (fun v => if v = 0 then 1 else 0) (fun v => v ^ 2)
    simp only [Fin.sum_univ_eight] at this
    norm_num [Hsic.coinA, Hsic.coinB] at this

/-- There is a library with the required properties, and the hypotheses hold for the coins. -/
example (lin : Pairwise.Lin 8) (lars : Pairwise.Lars 8) : ∃ (L : Lib 8) (chi2 : Nat → ℝ → ℝ) (o : Parce.Order) (A : Nat → Nat → Option ℝ),
    OlsRight L ∧ RightTails L chi2 ∧ fit L lin lars chi2 none false (1 / 100) 0 2 2 ResitData.coinX = some (.ok (o, A)) ∧ o.block = [] ∧
      Before o.rest 0 1 := by
  choose b c h using fun (q : Nat) (Z : Fin q → Fin 8 → ℝ) (y : Fin 8 → ℝ) => exists_best_fit q (fun r k => Z k r) y
  let L : Lib 8 :=
    { ols := c, shapiro := fun _ => 0, pearsonSf := fun _ => 0, gammaSf := fun x _ _ => Real.exp (-x), R := ⟨fun _ M => (0, M), fun _ _ l => l, fun _ _ => 0⟩, opt := fun _ _ x => x }
  have hL : OlsRight L := fun q Z y => ⟨b q Z y, fun b' c' => by
    have := h q Z y b' c'
    simpa only [sub_sub] using this⟩
  have hT : RightTails L (fun _ x => x) :=
    ⟨fun _ _ _ _ => by simp [L], fun x _ _ hx _ _ => Real.exp_lt_one_iff.2 (by linarith), fun _ _ _ _ _ _ => (Real.exp_pos _).le, fun _ _ => rfl⟩
  obtain ⟨o, A, h1, h2, _, h4⟩ := C233_order (by norm_num) (coin_edge ▸ ResitData.coin_errors) coin_linear hL hT lin lars
    (alpha := 1 / 100) (by norm_num) 0 (coin_pairs hL)
  exact ⟨L, _, o, A, hL, hT, h1, h2, h4 1 0 (by norm_num) (by norm_num) (by norm_num [coinCoef])⟩

end Verif.ParceData
