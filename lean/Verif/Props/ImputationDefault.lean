import Verif.Model.ImputationDefault
import Verif.Props.Imputation
import Verif.Props.MultiGroup
import Verif.Props.DirectLingam

/-! # bootstrap_with_imputation with its defaults (C211) -/
set_option linter.unusedSectionVars false
set_option autoImplicit false
namespace Verif.Imputation

variable {K : Type} [Field K]

theorem mapM_ok' {A B E : Type} (f : A → Except E B) : ∀ (l : List A) (bs : List B), l.mapM f = Except.ok bs →
    bs.length = l.length ∧ ∀ (i : Nat) (a : A), l[i]? = some a → ∃ b, bs[i]? = some b ∧ f a = Except.ok b
  | [], bs, h => by
    simp only [List.mapM_nil] at h
    cases h
    exact ⟨rfl, fun i a h => by simp at h⟩
  | a :: l, bs, h => by
    rw [List.mapM_cons] at h
    cases hf : f a with
    | error e => rw [hf] at h; cases h
    | ok b =>
      rw [hf] at h
      cases hl : l.mapM f with
      | error e => rw [hl] at h; cases h
      | ok bs' =>
        rw [hl] at h
        cases h
        obtain ⟨h1, h2⟩ := mapM_ok' f l bs' hl
        refine ⟨by simp [h1], ?_⟩
        intro i x hx
        cases i with
        | zero => simp only [List.getElem?_cons_zero, Option.some.injEq] at hx; subst hx; exact ⟨b, by simp, hf⟩
        | succ i => simpa using h2 i x (by simpa using hx)

theorem mapM_all' {A B E : Type} (f : A → Except E B) (l : List A) (h : ∀ a ∈ l, ∃ b, f a = Except.ok b) :
    ∃ bs, l.mapM f = Except.ok bs := by
  induction l with
  | nil => exact ⟨[], rfl⟩
  | cons a l ih =>
    obtain ⟨b, hb⟩ := h a (by simp)
    obtain ⟨bs, hbs⟩ := ih (fun x hx => h x (by simp [hx]))
    exact ⟨b :: bs, by rw [List.mapM_cons, hb, hbs]; rfl⟩

theorem defaultImputer_ok_iff (S : Data K) {N n reps : Nat} (hr : 0 < reps) (fill : Nat → Nat → Nat → K) :
    imputerOk N n (defaultImputer reps N n fill S) ↔ ∀ c, c < n → ∃ r, r < N ∧ S r c ≠ none := by
  rw [← observed_all S N n]
  unfold imputerOk
  constructor
  · rintro ⟨_, _, h, _⟩; exact h
  · intro h
    refine ⟨hr, rfl, h, ?_⟩
    intro k hk r hr c hc
    simp only [defaultImputer]
    rw [List.getElem?_eq_getElem (by rw [h]; exact hc)]
    rfl

/-- The result of a joint fit passes the check of the causal discovery result. -/
theorem discoveryOk_order {n k reps : Nat} {o : List Nat} (ho : IsOrder n o) (Bs : List (Nat → Nat → K)) :
    discoveryOk k n ⟨o.map (fun i : Nat => (i : Int)), [reps, n, n], Bs⟩ = true := by
  have hl : o.length = n := by
    have := (List.perm_ext_iff_of_nodup ho.1 List.nodup_range).2 (fun x => by rw [ho.2 x, List.mem_range])
    rw [this.length_eq, List.length_range]
  unfold discoveryOk
  have hu := (unique_iff (o.map (fun i : Nat => (i : Int)))).2 ⟨o, by rw [List.length_map, hl]; exact ho, rfl⟩
  simp [hl, hu]

theorem defaultStep_ok_iff (X : Data K) {N n reps : Nat} (hr : 0 < reps) (pk : Option Direct.PK) (soft : Bool)
    (stat : Data K → MultiGroup.Data K) (idx : Nat → Nat) (fill : Nat → Nat → Nat → K) (s : Sample K) :
    defaultStep X N n reps pk soft stat idx fill = .ok s ↔
      (∀ c, c < n → ∃ r, r < N ∧ X (idx r) c ≠ none) ∧ 2 ≤ reps ∧ ∃ order Bs,
        MultiGroup.fit pk soft ((List.range reps).map (fun k => stat ((defaultImputer reps N n fill (rowsOf X idx)).val k))) n =
            .ok (order, Bs) ∧
          s = ⟨order.map (fun i : Nat => (i : Int)), [reps, n, n], Bs, idx, reps,
            record (rowsOf X idx) (defaultImputer reps N n fill (rowsOf X idx))⟩ := by
  have hi := defaultImputer_ok_iff (rowsOf X idx) (N := N) (n := n) hr fill
  unfold defaultStep
  by_cases h : imputerOk N n (defaultImputer reps N n fill (rowsOf X idx))
  · have h' := hi.1 h
    simp only [h, if_true]
    unfold defaultDiscovery
    have hreps : (defaultImputer reps N n fill (rowsOf X idx)).reps = reps := rfl
    rw [hreps]
    by_cases h2 : reps < 2
    · simp only [h2, if_true]
      constructor
      · intro e; cases e
      · rintro ⟨_, h3, _⟩; omega
    · simp only [h2, if_false]
      cases hf : MultiGroup.fit pk soft
          ((List.range reps).map (fun k => stat ((defaultImputer reps N n fill (rowsOf X idx)).val k))) n with
      | error e =>
        simp only
        constructor
        · intro e; cases e
        · rintro ⟨_, _, o, Bs, h4, _⟩; cases h4
      | ok q =>
        obtain ⟨o, Bs⟩ := q
        simp only
        rw [if_pos (discoveryOk_order (MultiGroup.C89_common_order pk soft _ n o Bs hf).1 Bs)]
        constructor
        · intro e
          cases e
          exact ⟨h', by omega, o, Bs, rfl, rfl⟩
        · rintro ⟨_, _, o', Bs', h4, rfl⟩
          cases h4
          rfl
  · simp only [h, if_false]
    constructor
    · intro e; cases e
    · rintro ⟨h3, _⟩
      exact absurd (hi.2 h3) h

/-- The joint fit succeeds for every prior knowledge without contradictions, and for none other. -/
theorem fit_ok_iff (pk : Option Direct.PK) (gs : List (MultiGroup.Data K)) (n : Nat) :
    (∃ order Bs, MultiGroup.fit pk false gs n = .ok (order, Bs)) ↔ ∀ p, pk = some p → Acyclic (MustPrecede n p) := by
  have key : (∃ order Bs, MultiGroup.fit pk false gs n = .ok (order, Bs)) ↔
      ∃ order, Direct.fitOrder ⟨pk, false, .pwling⟩ (MultiGroup.groupScore gs) n = .ok order := by
    unfold MultiGroup.fit MultiGroup.fitOrder
    cases h : Direct.fitOrder ⟨pk, false, .pwling⟩ (MultiGroup.groupScore gs) n with
    | error e => simp
    | ok o => simp
  rw [key]
  cases pk with
  | none => simp [Direct.fitOrder_none_total]
  | some p =>
    have := Direct.C05_hard_prior_fails_iff_cyclic (K := K) (cfg := ⟨some p, false, .pwling⟩) (pk := p) rfl rfl (by simp)
      (MultiGroup.groupScore gs) (fun _ _ _ => 0) n
    constructor
    · rintro ⟨o, ho⟩ p' hp'
      cases hp'
      by_contra hc
      obtain ⟨e, he⟩ := this.2 hc
      unfold Direct.fit at he
      rw [ho] at he
      cases he
    · intro h
      by_contra hne
      refine absurd (h p rfl) (this.1 ?_)
      cases ho : Direct.fitOrder ⟨some p, false, .pwling⟩ (MultiGroup.groupScore gs) n with
      | error e => exact ⟨e, by unfold Direct.fit; rw [ho]⟩
      | ok o => exact absurd ⟨o, ho⟩ hne

/-- C211, partial: the call with default imputer and default causal discovery completes exactly when there is a repetition, at least
two data sets per repetition, prior knowledge (if any) without contradictions, and an observed value in every column of every resample.
Missing: completion for `n_repeats = 1`, which the argument check lets pass, and for every data set with observed values in all
columns. -/
theorem C211_completes_iff_partial (X : Data K) (N n : Nat) (nSampling nRepeats : Int) (pk : Option Direct.PK)
    (stat : Nat → Data K → MultiGroup.Data K) (idx : Nat → Nat → Nat) (fill : Nat → Nat → Nat → Nat → K) :
    (∃ res, defaultRun X N n nSampling nRepeats pk false stat idx fill = .ok res) ↔
      1 ≤ nSampling ∧ 2 ≤ nRepeats ∧ (∀ p, pk = some p → Acyclic (MustPrecede n p)) ∧
        ∀ i : Nat, (i : Int) < nSampling → ∀ c, c < n → ∃ r, r < N ∧ X (idx i r) c ≠ none := by
  unfold defaultRun
  by_cases h1 : nSampling < 1
  · rw [if_pos h1]
    constructor
    · rintro ⟨_, h⟩; cases h
    · rintro ⟨h, _⟩; omega
  rw [if_neg h1]
  by_cases h2 : nRepeats < 1
  · rw [if_pos h2]
    constructor
    · rintro ⟨_, h⟩; cases h
    · rintro ⟨_, h, _⟩; omega
  rw [if_neg h2]
  have hr : 0 < nRepeats.toNat := by omega
  constructor
  · rintro ⟨res, h⟩
    obtain ⟨_, hall⟩ := mapM_ok' _ _ _ h
    have each : ∀ i : Nat, (i : Int) < nSampling → (∀ c, c < n → ∃ r, r < N ∧ X (idx i r) c ≠ none) ∧ 2 ≤ nRepeats.toNat ∧
        (∀ p, pk = some p → Acyclic (MustPrecede n p)) := by
      intro i hi
      have hi' : i < nSampling.toNat := by omega
      obtain ⟨s, _, hs⟩ := hall i i (by rw [List.getElem?_range hi'])
      obtain ⟨h3, h4, o, Bs, h5, _⟩ := (defaultStep_ok_iff X hr pk false (stat i) (idx i) (fill i) s).1 hs
      exact ⟨h3, h4, (fit_ok_iff pk _ n).1 ⟨o, Bs, h5⟩⟩
    have h0 := each 0 (by simp; omega)
    exact ⟨by omega, by omega, h0.2.2, fun i hi => (each i hi).1⟩
  · rintro ⟨_, h3, h4, h5⟩
    refine mapM_all' _ _ ?_
    intro i hi
    have hi' := List.mem_range.1 hi
    obtain ⟨o, Bs, hf⟩ := (fit_ok_iff pk ((List.range nRepeats.toNat).map (fun k =>
      (stat i) ((defaultImputer nRepeats.toNat N n (fill i) (rowsOf X (idx i))).val k))) n).2 h4
    exact ⟨_, (defaultStep_ok_iff X hr pk false (stat i) (idx i) (fill i) _).2
      ⟨h5 i (by omega), by omega, o, Bs, hf, rfl⟩⟩

/-- C211 is violated for one data set per repetition: the arguments pass their check, but the call always fails. -/
theorem C211_one_repeat_violated (X : Data K) (N n : Nat) (nSampling : Int) (pk : Option Direct.PK) (soft : Bool)
    (stat : Nat → Data K → MultiGroup.Data K) (idx : Nat → Nat → Nat) (fill : Nat → Nat → Nat → Nat → K) :
    ¬ ∃ res, defaultRun X N n nSampling 1 pk soft stat idx fill = .ok res := by
  rintro ⟨res, h⟩
  unfold defaultRun at h
  by_cases h1 : nSampling < 1
  · rw [if_pos h1] at h; cases h
  rw [if_neg h1, if_neg (by omega)] at h
  obtain ⟨_, hall⟩ := mapM_ok' _ _ _ h
  have hi' : 0 < nSampling.toNat := by omega
  obtain ⟨s, _, hs⟩ := hall 0 0 (by rw [List.getElem?_range hi'])
  obtain ⟨_, h4, _⟩ := (defaultStep_ok_iff X (by decide) pk soft (stat 0) (idx 0) (fill 0) s).1 hs
  simp at h4

/-- C211: every completed call returns, for each repetition, a permutation of the columns and one matrix for each data set, whose
arrows all follow that order and contain none that the prior knowledge excludes; with hard prior knowledge the order respects it. -/
theorem C211_result {X : Data K} {N n : Nat} {nSampling nRepeats : Int} {pk : Option Direct.PK} {soft : Bool}
    {stat : Nat → Data K → MultiGroup.Data K} {idx : Nat → Nat → Nat} {fill : Nat → Nat → Nat → Nat → K} {res : List (Sample K)}
    (h : defaultRun X N n nSampling nRepeats pk soft stat idx fill = .ok res) :
    (res.length : Int) = nSampling ∧ ∀ (i : Nat) (s : Sample K), res[i]? = some s →
      ∃ o, IsOrder n o ∧ s.order = o.map (fun i : Nat => (i : Int)) ∧ (s.mats.length : Int) = nRepeats ∧
        (∀ B ∈ s.mats, (∀ r c, B r c ≠ 0 → Before o c r) ∧ ∀ p, pk = some p → ∀ r c, p r c = 0 → B r c = 0) ∧
        (soft = false → ∀ p, pk = some p → ∀ r c, r < n → c < n →
          (p r c = 1 → Before o c r) ∧ (p r c = 0 → p c r ≠ 0 → Before o r c)) := by
  unfold defaultRun at h
  by_cases h1 : nSampling < 1
  · rw [if_pos h1] at h; cases h
  rw [if_neg h1] at h
  by_cases h2 : nRepeats < 1
  · rw [if_pos h2] at h; cases h
  rw [if_neg h2] at h
  have hr : 0 < nRepeats.toNat := by omega
  obtain ⟨hl, hall⟩ := mapM_ok' _ _ _ h
  rw [List.length_range] at hl
  refine ⟨by omega, ?_⟩
  intro i s hs
  have hi : i < nSampling.toNat := by
    rw [← hl]
    exact (List.getElem?_eq_some_iff.1 hs).1
  obtain ⟨s', hs', hstep⟩ := hall i i (by rw [List.getElem?_range hi])
  rw [hs] at hs'
  cases hs'
  obtain ⟨_, _, o, Bs, hf, rfl⟩ := (defaultStep_ok_iff X hr pk soft (stat i) (idx i) (fill i) s).1 hstep
  obtain ⟨ho, hlen, hB⟩ := MultiGroup.C89_common_order pk soft _ n o Bs hf
  have hfo : Direct.fitOrder ⟨pk, soft, .pwling⟩ (MultiGroup.groupScore ((List.range nRepeats.toNat).map (fun k =>
      (stat i) ((defaultImputer nRepeats.toNat N n (fill i) (rowsOf X (idx i))).val k)))) n = .ok o ∧
      Bs = ((List.range nRepeats.toNat).map (fun k =>
      (stat i) ((defaultImputer nRepeats.toNat N n (fill i) (rowsOf X (idx i))).val k))).map
        (fun g => Direct.estimateAdj pk g.lasso o) := by
    unfold MultiGroup.fit MultiGroup.fitOrder at hf
    split at hf
    · cases hf
    · rename_i o' ho'
      cases hf
      exact ⟨ho', rfl⟩
  have hfit : ∀ lasso : Direct.Lasso K, Direct.fit ⟨pk, soft, .pwling⟩ (MultiGroup.groupScore
      ((List.range nRepeats.toNat).map (fun k =>
      (stat i) ((defaultImputer nRepeats.toNat N n (fill i) (rowsOf X (idx i))).val k)))) lasso n =
      .ok (o, Direct.estimateAdj pk lasso o) := fun lasso => Direct.fit_of_order lasso hfo.1
  refine ⟨o, ho, rfl, ?_, ?_, ?_⟩
  · simp only [hlen, List.length_map, List.length_range]
    omega
  · intro B hBm
    refine ⟨hB B hBm, ?_⟩
    intro p hp r c hz
    simp only [hfo.2] at hBm
    obtain ⟨g, _, rfl⟩ := List.mem_map.1 hBm
    exact Direct.C03_prior_zero_no_edge (cfg := ⟨pk, soft, .pwling⟩) hp (hfit g.lasso) r c hz
  · intro hs0 p hp r c hr hc
    exact Direct.C04_hard_prior_respected (cfg := ⟨pk, soft, .pwling⟩) hp hs0 (by simp) (hfit (fun _ _ _ => 0)) r c hr hc

/-- Two rows, two columns, one value missing; `stat` always prefers the first column as the source. -/
def smallX : Data ℚ := fun r c => if r = 1 ∧ c = 0 then none else some (r + c + 1)

/-- The statistics and regressions of the small example. -/
def smallStat : Data ℚ → MultiGroup.Data ℚ := fun D => ⟨2, fun _ _ _ _ i => some (i : ℚ), fun _ _ _ => (D 1 0).getD 0⟩

/-- Two completed data sets with the fill-ins 5 and 6: one repetition gives the order of the columns and one matrix for each. -/
example : ((defaultRun smallX 2 2 1 2 none false (fun _ => smallStat) (fun _ r => r) (fun _ k _ _ => 5 + k)).toOption.map
    (fun res => res.map (fun s => (s.order, s.mats.map (fun B => B 1 0), s.imputed 1 1 0, s.imputed 1 0 0)))) =
      some [([0, 1], [5, 6], some 6, none)] := by decide +kernel

/-- With one data set per repetition the same call fails. -/
example : (defaultRun smallX 2 2 1 1 none false (fun _ => smallStat) (fun _ r => r) (fun _ k _ _ => 5 + k)).toOption.isNone = true := by
  decide +kernel

end Verif.Imputation
