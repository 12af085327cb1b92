import Verif.Props.Lim

/-! C230: what LiM's optimisation phase does with a solution that meets the tolerance. -/
set_option autoImplicit false
set_option linter.unusedSectionVars false
namespace Verif.Lim

variable {K : Type} [Field K] [LinearOrder K] [IsStrictOrderedRing K]

/-- A pass that ends below the limit of the penalty has reduced the violation to less than a quarter, and its solution is the
optimiser's answer for the penalty the pass ends with. -/
theorem C230_progress {d : Nat} {rhoMax : K} {opt : K → Dbl K} {h0 : K} {fuel : Nat} {rho rho' : K} {cur : Option (Dbl K × K)} {w : Dbl K} {hn : K}
    (h : inner d rhoMax opt (some h0) fuel rho cur = some (rho', some (w, hn))) (hlt : rho' < rhoMax) :
    hn < h0 / 4 ∧ w = opt rho' ∧ hn = hVal d (adj w) := by
  induction fuel generalizing rho cur with
  | zero => simp [inner] at h
  | succ f ih =>
    unfold inner at h
    by_cases hr : rho < rhoMax
    · rw [if_pos hr] at h
      by_cases hq : geQuarter (hVal d (adj (opt rho))) (some h0) = true
      · simp only [hq, if_true] at h
        exact ih h
      · simp only [hq] at h
        simp only [Bool.false_eq_true, if_false, Option.some.injEq, Prod.mk.injEq] at h
        obtain ⟨rfl, rfl, rfl⟩ := h
        refine ⟨?_, rfl, rfl⟩
        simp only [geQuarter, decide_eq_true_eq, not_le] at hq
        linarith
    · rw [if_neg hr] at h
      simp only [Option.some.injEq, Prod.mk.injEq] at h
      rw [h.1] at hr
      exact absurd hlt hr

/-- After an exactly acyclic solution every answer counts as no progress, so that the penalty is raised to its limit. -/
theorem inner_exact {d : Nat} (hd : 0 < d) {rhoMax : K} (opt : K → Dbl K) (k : Nat) :
    ∀ (fuel : Nat) (rho : K) (cur : Option (Dbl K × K)), 0 < rho → k + 2 ≤ fuel → rho * 10 ^ k < rhoMax → rhoMax ≤ rho * 10 ^ (k + 1) →
      inner d rhoMax opt (some 0) fuel rho cur = some (rho * 10 ^ (k + 1), some (opt (rho * 10 ^ k), hVal d (adj (opt (rho * 10 ^ k))))) := by
  induction k with
  | zero =>
    intro fuel rho cur h0 hf h1 h2
    obtain ⟨f, rfl⟩ : ∃ f, fuel = f + 1 + 1 := ⟨fuel - 2, by omega⟩
    rw [pow_zero, mul_one] at h1
    have hq : geQuarter (hVal d (adj (opt rho))) (some 0) = true := by
      simp only [geQuarter, mul_zero, decide_eq_true_eq]
      exact hVal_nonneg d _ hd
    unfold inner
    simp only [h1, if_true, hq]
    unfold inner
    rw [if_neg]
    · simp
    · have : rho * 10 ^ (0 + 1) = rho * 10 := by ring
      rw [this] at h2
      exact not_lt.2 h2
  | succ k ih =>
    intro fuel rho cur h0 hf h1 h2
    obtain ⟨f, rfl⟩ : ∃ f, fuel = f + 1 := ⟨fuel - 1, by omega⟩
    have e : ∀ n, rho * 10 ^ (n + 1) = rho * 10 * 10 ^ n := fun n => by ring
    have hp : (1 : K) ≤ 10 ^ (k + 1) := one_le_pow₀ (by norm_num)
    have hlt : rho < rhoMax := lt_of_le_of_lt (by nlinarith) h1
    have hq : geQuarter (hVal d (adj (opt rho))) (some 0) = true := by
      simp only [geQuarter, mul_zero, decide_eq_true_eq]
      exact hVal_nonneg d _ hd
    unfold inner
    simp only [hlt, if_true, hq]
    rw [e] at h1 h2
    rw [ih f (rho * 10) _ (by positivity) (by omega) h1 h2, ← e, ← e]

/-- If the first solution meets the tolerance but is not exactly acyclic, it is kept. -/
theorem C230_kept_partial (d : Nat) (c : Cfg K) (fuel : Nat) (opt : K → K → Dbl K → Dbl K) (rnd : Nat → Dbl K)
    (hf : 0 < fuel) (hm : 0 < c.maxIter) (hr : 1 < c.rhoMax)
    (h : hVal d (adj (opt 1 0 (rnd 0))) ≤ c.hTol) (h0 : 0 < hVal d (adj (opt 1 0 (rnd 0)))) :
    globalPhase d c fuel opt rnd = some (Except.ok (threshold c.wThr (adj (opt 1 0 (rnd 0))))) :=
  globalPhase_first d c fuel opt rnd hm hf hr ⟨h, h0.ne'⟩

/-- If the first solution is exactly acyclic, the search goes on with the penalty raised to its limit, and the result is the
last answer of the optimiser, whatever this is. -/
theorem C230_exact_discarded {d : Nat} (hd : 0 < d) (c : Cfg K) {k fuel : Nat} (opt : K → K → Dbl K → Dbl K) (rnd : Nat → Dbl K)
    (hf : k + 2 ≤ fuel) (hm : 2 ≤ c.maxIter) (h1 : 10 ^ k < c.rhoMax) (h2 : c.rhoMax ≤ 10 ^ (k + 1))
    (hex : hVal d (adj (opt 1 0 (rnd 0))) = 0) (hbig : 9 / 100 ≤ absSum d (adj (opt 1 0 (rnd 0))))
    (hlast : hVal d (adj (opt (10 ^ k) 0 (opt 1 0 (rnd 0)))) ≤ 100000) :
    globalPhase d c fuel opt rnd = some (Except.ok (threshold c.wThr (adj (opt (10 ^ k) 0 (opt 1 0 (rnd 0)))))) := by
  obtain ⟨m, hm'⟩ : ∃ m, c.maxIter = m + 1 + 1 := ⟨c.maxIter - 2, by omega⟩
  obtain ⟨f, hf'⟩ : ∃ f, fuel = f + 1 := ⟨fuel - 1, by omega⟩
  have hr : 1 < c.rhoMax := lt_of_le_of_lt (one_le_pow₀ (by norm_num)) h1
  have first : inner d c.rhoMax (fun rho => opt rho 0 (rnd 0)) none fuel 1 none = some (1, some (opt 1 0 (rnd 0), 0)) := by
    rw [hf']
    unfold inner
    simp only [hr, if_true, geQuarter, Bool.false_eq_true, if_false, hex]
  have second := inner_exact hd (rhoMax := c.rhoMax) (fun rho => opt rho 0 (opt 1 0 (rnd 0))) k fuel 1 none one_pos hf
    (by rwa [one_mul]) (by rwa [one_mul])
  rw [one_mul, one_mul] at second
  unfold globalPhase
  rw [hm']
  have step1 : outer d c fuel opt rnd (m + 1 + 1) (initSt rnd) = outer d c fuel opt rnd (m + 1) ⟨opt 1 0 (rnd 0), 1, 0, some 0, 1⟩ := by
    conv_lhs => unfold outer
    simp only [initSt, first]
    unfold afterInner
    rw [if_neg (by simp), if_neg (by rintro ⟨_, h⟩; norm_num at h), if_neg (not_le.2 hr), if_neg (not_lt.2 hbig)]
    simp
  rw [step1]
  unfold outer
  simp only [second]
  unfold afterInner
  by_cases hs : hVal d (adj (opt (10 ^ k) 0 (opt 1 0 (rnd 0)))) ≤ c.hTol ∧ hVal d (adj (opt (10 ^ k) 0 (opt 1 0 (rnd 0)))) ≠ 0
  · simp only [if_pos hs]
    rfl
  · simp only [if_neg hs]
    rw [if_neg (fun h => absurd h.2 (not_lt.2 hlast)), if_pos h2]
    rfl

/-- An optimiser that finds one edge at the first penalty and a cycle of two variables afterwards. -/
def laterEnv : Env ℚ := ⟨fun _ r _ _ => (fun i j => if i = 0 ∧ j = 1 then 1 else if i = 1 ∧ j = 0 ∧ r ≠ 1 then 1 else 0, fun _ _ => 0),
  fun _ => (fun _ _ => 0, fun _ _ => 0), fun _ => 0⟩

/-- The claim fails with the default settings: the optimiser finds an exactly acyclic graph at once, and LiM returns a cycle. -/
theorem C230_violated (og : Bool) (lt : LossType) :
    hVal 2 (adj (laterEnv.opt lt 1 0 (laterEnv.rnd 0))) = 0 ∧
    ∃ lt' W, fit 2 defaults 17 laterEnv og lt = some (Except.ok (lt', W)) ∧ ¬ Acyclic (Edge 2 (fun i j => W j i) 0) := by
  have e1 : hVal 2 (adj (laterEnv.opt lt 1 0 (laterEnv.rnd 0))) = 0 := by
    show hVal 2 (adj (laterEnv.opt LossType.mixed 1 0 (laterEnv.rnd 0))) = 0
    decide +kernel
  have e2 : (9 : ℚ) / 100 ≤ absSum 2 (adj (laterEnv.opt lt 1 0 (laterEnv.rnd 0))) := by
    show (9 : ℚ) / 100 ≤ absSum 2 (adj (laterEnv.opt LossType.mixed 1 0 (laterEnv.rnd 0)))
    decide +kernel
  have e3 : hVal 2 (adj (laterEnv.opt lt (10 ^ 15) 0 (laterEnv.opt lt 1 0 (laterEnv.rnd 0)))) ≤ 100000 := by
    show hVal 2 (adj (laterEnv.opt LossType.mixed (10 ^ 15) 0 (laterEnv.opt LossType.mixed 1 0 (laterEnv.rnd 0)))) ≤ 100000
    decide +kernel
  have hg := C230_exact_discarded (d := 2) (by norm_num) defaults (k := 15) (fuel := 17) (laterEnv.opt lt) laterEnv.rnd (by norm_num) (by unfold defaults; norm_num)
    (by unfold defaults; norm_num) (by unfold defaults; norm_num) e1 e2 e3
  refine ⟨e1, ?_⟩
  have hl : ∀ W, localSearch 2 defaults.hTol laterEnv.score W = W := by
    intro W
    rcases acc_localSearch 2 defaults.hTol laterEnv.score W with h | h
    · exact h.2
    · exact absurd h.2.1 (lt_irrefl _)
  refine ⟨if og then lt else LossType.mixedDag, threshold defaults.wThr (adj (laterEnv.opt lt (10 ^ 15) 0 (laterEnv.opt lt 1 0 (laterEnv.rnd 0)))), ?_, ?_⟩
  · unfold fit
    rw [hg]
    cases og <;> simp [Except.map, hl]
  · have w01 : threshold defaults.wThr (adj (laterEnv.opt lt (10 ^ 15) 0 (laterEnv.opt lt 1 0 (laterEnv.rnd 0)))) 0 1 = 1 := by
      show threshold defaults.wThr (adj (laterEnv.opt LossType.mixed (10 ^ 15) 0 (laterEnv.opt LossType.mixed 1 0 (laterEnv.rnd 0)))) 0 1 = 1
      decide +kernel
    have w10 : threshold defaults.wThr (adj (laterEnv.opt lt (10 ^ 15) 0 (laterEnv.opt lt 1 0 (laterEnv.rnd 0)))) 1 0 = 1 := by
      show threshold defaults.wThr (adj (laterEnv.opt LossType.mixed (10 ^ 15) 0 (laterEnv.opt LossType.mixed 1 0 (laterEnv.rnd 0)))) 1 0 = 1
      decide +kernel
    intro hac
    refine hac 0 (Relation.TransGen.head (b := 1) ?_ (Relation.TransGen.single ?_))
    · refine ⟨by norm_num, by norm_num, ?_⟩
      beta_reduce
      rw [w01]
      norm_num
    · refine ⟨by norm_num, by norm_num, ?_⟩
      beta_reduce
      rw [w10]
      norm_num

/-- The assumptions of `C230_kept_partial` are met by the run of `C43_default_cycle`. -/
example : 0 < hVal 4 (adj (cycleEnv.opt LossType.mixed 1 0 (cycleEnv.rnd 0))) ∧ hVal 4 (adj (cycleEnv.opt LossType.mixed 1 0 (cycleEnv.rnd 0))) ≤ defaults.hTol :=
  ⟨lt_of_le_of_ne (hVal_nonneg 4 _ (by norm_num)) (Ne.symm cycle4_h.2), cycle4_h.1⟩

end Verif.Lim
