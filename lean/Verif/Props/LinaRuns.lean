import Verif.Props.Lim

/-! The optimisation loops of LiNA. -/
set_option autoImplicit false
set_option linter.unusedSectionVars false
namespace Verif.Lim

variable {K : Type} [Field K] [LinearOrder K] [IsStrictOrderedRing K]

/-! ### C112: what LiNA returns -/

theorem linaInner_terminates [Archimedean K] (d : Nat) (rhoMax : K) (rho : K)
    (hr : 0 < rho) : ∃ N, ∀ fuel, N ≤ fuel → ∀ (opt : K → Dbl K) (h : Option K) r cur, rho ≤ r →
      (linaInner d rhoMax opt h fuel r cur).isSome := by
  obtain ⟨n, hn⟩ := pow_unbounded_of_one_lt (rhoMax / rho) (show (1 : K) < 10 by norm_num)
  have hn : rhoMax < rho * 10 ^ n := by
    have := (div_lt_iff₀ hr).1 hn
    linarith
  have key : ∀ (opt : K → Dbl K) (h : Option K) m fuel, m + 1 ≤ fuel → ∀ r cur, rhoMax < r * 10 ^ m →
      (linaInner d rhoMax opt h fuel r cur).isSome := by
    intro opt h m
    induction m with
    | zero =>
      intro fuel hf r cur hr
      obtain ⟨g, rfl⟩ : ∃ g, fuel = g + 1 := ⟨fuel - 1, by omega⟩
      unfold linaInner
      rw [if_neg (by rw [pow_zero, mul_one] at hr; exact not_lt.2 hr.le)]
      rfl
    | succ m ih =>
      intro fuel hf r cur hr
      obtain ⟨g, rfl⟩ : ∃ g, fuel = g + 1 := ⟨fuel - 1, by omega⟩
      unfold linaInner
      split
      · simp only
        split
        · exact ih g (by omega) _ _ (by rw [pow_succ] at hr; linarith)
        · rfl
      · rfl
  refine ⟨n + 1, fun fuel hf opt h r cur hr' => key opt h n fuel hf r cur (lt_of_lt_of_le hn ?_)⟩
  exact mul_le_mul_of_nonneg_right hr' (by positivity)

/-- A pass that starts below the limit gives a solution: accepted, or computed with a penalty within a factor 10 of
the limit. -/
theorem linaInner_spec (d : Nat) (rhoMax : K) (opt : K → Dbl K) (h : Option K) (fuel : Nat) :
    ∀ rho cur r x, 1 ≤ rho → (rho < rhoMax ∨ ∃ p, 1 ≤ p ∧ p < rhoMax ∧ rho = p * 10 ∧ cur = some (opt p, hVal d (adj (opt p)))) →
      linaInner d rhoMax opt h fuel rho cur = some (r, x) →
      1 ≤ r ∧ ∃ p, 1 ≤ p ∧ p < rhoMax ∧ x = some (opt p, hVal d (adj (opt p))) ∧
        ((r = p ∧ ∀ y, h = some y → hVal d (adj (opt p)) ≤ 1 / 4 * y) ∨ (r = p * 10 ∧ rhoMax ≤ r)) := by
  induction fuel with
  | zero => intro rho cur r x _ _ h; simp [linaInner] at h
  | succ f ih =>
    intro rho cur r x h1 hcur hin
    unfold linaInner at hin
    by_cases hlt : rho < rhoMax
    · rw [if_pos hlt] at hin
      simp only [] at hin
      by_cases hq : gtQuarter (hVal d (adj (opt rho))) h = true
      · rw [if_pos hq] at hin
        exact ih _ _ r x (by linarith) (Or.inr ⟨rho, h1, hlt, rfl, rfl⟩) hin
      · rw [if_neg hq] at hin
        cases hin
        refine ⟨h1, rho, h1, hlt, rfl, Or.inl ⟨rfl, ?_⟩⟩
        intro y hy
        subst hy
        simp only [gtQuarter, decide_eq_true_eq] at hq
        exact not_lt.1 hq
    · rw [if_neg hlt] at hin
      cases hin
      rcases hcur with hc | ⟨p, hp1, hp2, hp3, hp4⟩
      · exact absurd hc hlt
      · exact ⟨h1, p, hp1, hp2, hp4, Or.inr ⟨hp3, not_lt.1 hlt⟩⟩

theorem linaOuter_spec [Archimedean K] (d : Nat) (c : Cfg K) (fuel : Nat)
    (hN : ∀ (opt : K → Dbl K) (h : Option K) r cur, 1 ≤ r → (linaInner d c.rhoMax opt h fuel r cur).isSome)
    (opt : K → K → Dbl K → Dbl K) : ∀ (n : Nat) (w : Dbl K) (rho alpha : K) (x : K), 1 ≤ rho → rho < c.rhoMax →
      hVal d (adj w) ≤ x → (∃ r a w0, 1 ≤ r ∧ r < c.rhoMax ∧ w = opt r a w0) →
      ∃ r a w0, 1 ≤ r ∧ r < c.rhoMax ∧ linaOuter d c fuel opt n w rho alpha (some x) = some (Except.ok (opt r a w0)) ∧
        (hVal d (adj (opt r a w0)) ≤ c.hTol ∨ c.rhoMax ≤ r * 10 ∨ hVal d (adj (opt r a w0)) ≤ (1 / 4) ^ n * x) := by
  intro n
  induction n with
  | zero =>
    intro w rho alpha x _ _ hx ⟨r, a, w0, h1, h2, h3⟩
    subst h3
    exact ⟨r, a, w0, h1, h2, rfl, Or.inr (Or.inr (by simpa using hx))⟩
  | succ n ih =>
    intro w rho alpha x hr1 hr2 hx _
    unfold linaOuter
    cases hi : linaInner d c.rhoMax (fun r => opt r alpha w) (some x) fuel rho none with
    | none =>
      have := hN (fun r => opt r alpha w) (some x) rho none hr1
      rw [hi] at this
      cases this
    | some q =>
      obtain ⟨rho', y⟩ := q
      obtain ⟨h1, p, hp1, hp2, hp3, hp4⟩ := linaInner_spec d _ _ _ _ _ _ _ _ hr1 (Or.inl hr2) hi
      rw [hp3]
      simp only []
      by_cases hs : hVal d (adj (opt p alpha w)) ≤ c.hTol ∨ c.rhoMax ≤ rho'
      · rw [if_pos hs]
        refine ⟨p, alpha, w, hp1, hp2, rfl, ?_⟩
        rcases hs with hs | hs
        · exact Or.inl hs
        · right; left
          rcases hp4 with ⟨e, _⟩ | ⟨e, _⟩
          · rw [e] at hs; exact absurd hs (not_le.2 hp2)
          · rw [← e]; exact hs
      · rw [if_neg hs]
        push Not at hs
        have hq : hVal d (adj (opt p alpha w)) ≤ 1 / 4 * x := by
          rcases hp4 with ⟨_, e⟩ | ⟨_, e⟩
          · exact e x rfl
          · exact absurd e (not_le.2 hs.2)
        obtain ⟨r, a, w0, g1, g2, g3, g4⟩ := ih (opt p alpha w) rho' (alpha + rho' * hVal d (adj (opt p alpha w)))
          (hVal d (adj (opt p alpha w))) h1 hs.2 (le_refl _) ⟨p, alpha, w, hp1, hp2, rfl⟩
        refine ⟨r, a, w0, g1, g2, g3, ?_⟩
        rcases g4 with g4 | g4 | g4
        · exact Or.inl g4
        · exact Or.inr (Or.inl g4)
        · right; right
          refine le_trans g4 ?_
          rw [pow_succ, mul_assoc]
          exact mul_le_mul_of_nonneg_left hq (by positivity)

/-- **C112.** With a penalty limit above 1 and at least one pass, LiNA's optimisation ends without an exception, for every
optimiser.  The result is a thresholded solution of the optimiser for an admissible penalty.  Before thresholding this
solution meets the tolerance, or its penalty is within a factor 10 of the limit, or all passes have been used, each of
which reduced the violation of acyclicity of the first solution to a quarter or less. -/
theorem C112_lina_result [Archimedean K] (d : Nat) (c : Cfg K) (hr : 1 < c.rhoMax) (hm : 0 < c.maxIter) :
    ∃ N, ∀ fuel, N ≤ fuel → ∀ (opt : K → K → Dbl K → Dbl K),
      ∃ r a w0, 1 ≤ r ∧ r < c.rhoMax ∧ linaEstimate d c fuel opt = some (Except.ok (threshold c.wThr (adj (opt r a w0)))) ∧
        (hVal d (adj (opt r a w0)) ≤ c.hTol ∨ c.rhoMax ≤ r * 10 ∨
          hVal d (adj (opt r a w0)) ≤ (1 / 4) ^ (c.maxIter - 1) * hVal d (adj (opt 1 0 (fun _ _ => 0, fun _ _ => 0)))) := by
  obtain ⟨N, hN⟩ := linaInner_terminates (K := K) d c.rhoMax 1 one_pos
  refine ⟨N + 1, fun fuel hf opt => ?_⟩
  obtain ⟨m, hm'⟩ : ∃ m, c.maxIter = m + 1 := ⟨c.maxIter - 1, by omega⟩
  obtain ⟨g, rfl⟩ : ∃ g, fuel = g + 1 := ⟨fuel - 1, by omega⟩
  have hstep : linaOuter d c (g + 1) opt (m + 1) (fun _ _ => 0, fun _ _ => 0) 1 0 none =
      (if hVal d (adj (opt 1 0 (fun _ _ => 0, fun _ _ => 0))) ≤ c.hTol ∨ c.rhoMax ≤ 1 then
        some (Except.ok (opt 1 0 (fun _ _ => 0, fun _ _ => 0)))
      else linaOuter d c (g + 1) opt m (opt 1 0 (fun _ _ => 0, fun _ _ => 0)) 1
        (0 + 1 * hVal d (adj (opt 1 0 (fun _ _ => 0, fun _ _ => 0))))
        (some (hVal d (adj (opt 1 0 (fun _ _ => 0, fun _ _ => 0)))))) := by
    conv_lhs => unfold linaOuter
    unfold linaInner
    simp only [hr, if_true, gtQuarter, Bool.false_eq_true, if_false]
  unfold linaEstimate
  rw [hm', hstep]
  by_cases hs : hVal d (adj (opt 1 0 (fun _ _ => 0, fun _ _ => 0))) ≤ c.hTol ∨ c.rhoMax ≤ 1
  · rw [if_pos hs]
    refine ⟨1, 0, (fun _ _ => 0, fun _ _ => 0), le_refl _, hr, rfl, ?_⟩
    rcases hs with hs | hs
    · exact Or.inl hs
    · exact absurd hs (not_le.2 hr)
  · rw [if_neg hs]
    obtain ⟨r, a, w0, g1, g2, g3, g4⟩ := linaOuter_spec d c (g + 1)
      (fun opt h r cur h1 => hN (g + 1) (by omega) opt h r cur h1) opt m (opt 1 0 (fun _ _ => 0, fun _ _ => 0)) 1
      (0 + 1 * hVal d (adj (opt 1 0 (fun _ _ => 0, fun _ _ => 0))))
      (hVal d (adj (opt 1 0 (fun _ _ => 0, fun _ _ => 0)))) (le_refl _) hr (le_refl _) ⟨1, 0, _, le_refl _, hr, rfl⟩
    refine ⟨r, a, w0, g1, g2, ?_, ?_⟩
    · rw [g3]; rfl
    · simpa using g4

/-- **C112 (no unnecessary passes).** If the first solution meets the tolerance, it is the result. -/
theorem C112_lina_first (d : Nat) (c : Cfg K) (hr : 1 < c.rhoMax) (hm : 0 < c.maxIter) (fuel : Nat) (hf : 0 < fuel)
    (opt : K → K → Dbl K → Dbl K) (h : hVal d (adj (opt 1 0 (fun _ _ => 0, fun _ _ => 0))) ≤ c.hTol) :
    linaEstimate d c fuel opt = some (Except.ok (threshold c.wThr (adj (opt 1 0 (fun _ _ => 0, fun _ _ => 0))))) := by
  obtain ⟨m, hm'⟩ : ∃ m, c.maxIter = m + 1 := ⟨c.maxIter - 1, by omega⟩
  obtain ⟨g, rfl⟩ : ∃ g, fuel = g + 1 := ⟨fuel - 1, by omega⟩
  unfold linaEstimate
  rw [hm']
  unfold linaOuter linaInner
  simp only [hr, if_true, gtQuarter, Bool.false_eq_true, if_false, h, true_or, Option.map_some]
  rfl

/-- The hypotheses are met by the default configuration and an optimiser that returns one edge. -/
example : 1 < (⟨100, 1 / 10 ^ 8, 10 ^ 16, 3 / 10⟩ : Cfg ℚ).rhoMax ∧
    hVal 2 (adj ((fun i j => if i = 0 ∧ j = 1 then (1 : ℚ) else 0), fun _ _ => (0 : ℚ))) ≤ 1 / 10 ^ 8 := by
  constructor
  · norm_num
  · decide +kernel

end Verif.Lim
