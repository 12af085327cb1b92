import Verif.Props.Simulator
import Mathlib.Tactic.Ring
import Mathlib.Tactic.LinearCombination
import Mathlib.Tactic.IntervalCases

/-!
The equations a simulated data set satisfies, written out (C45), shuffled residuals (C108), coefficients given by the user
(C109), and results with unknown coefficients (C45).
-/
set_option autoImplicit false
set_option linter.unusedSectionVars false
namespace Verif.Simulator

variable {K : Type} [Field K] [LinearOrder K] [IsStrictOrderedRing K]
variable (I : Impl K) (fitM : Nat → List (Col K) → Col K → Predictor K)

/-! ### Specification -/

/-- The parents a variable has in the training graph: coefficients larger than `1e-8` in absolute value. -/
def graphParents (v : Nat) : List Nat := (List.range I.n).filter (fun j => decide ((1 / 10 ^ 8 : K) < |I.graph v j|))

/-- The residuals of the training data: for a root the data, otherwise data minus prediction. -/
def trainResidual (v r : Nat) : K :=
  if graphParents I v = [] then I.data v r
  else I.data v r - fitM v ((graphParents I v).map I.data) (I.data v) ((graphParents I v).map I.data) r

/-- The error used in row `r`: the user's if given, otherwise the training residual; of row `σ r` when shuffled. -/
def usedError (ce : Nat → Option (Col K)) (sh : Option (Nat → Nat)) (v r : Nat) : K :=
  ((ce v).getD (trainResidual I fitM v)) ((sh.getD id) r)

/-- What `g`, the simulated data, has to satisfy at variable `v`. -/
def Equation (ce : Nat → Option (Col K)) (cm : Nat → Option (Change K)) (sh : Option (Nat → Nat)) (g : Nat → Col K) (v : Nat) :
    Prop :=
  match cm v with
  | none =>
    (graphParents I v = [] → I.discrete v = true → ∀ r, g v r = I.data v r) ∧
    (graphParents I v = [] → I.discrete v = false → ∀ r, g v r = usedError I fitM ce sh v r) ∧
    (graphParents I v ≠ [] → ∀ r, g v r =
      fitM v ((graphParents I v).map I.data) (I.data v) ((graphParents I v).map g) r +
        if I.discrete v then 0 else usedError I fitM ce sh v r)
  | some c =>
    (c.parents = [] → I.discrete v = true → ∀ r, g v r = I.data v r) ∧
    (c.parents = [] → I.discrete v = false → ∀ r, g v r = usedError I fitM ce sh v r) ∧
    (c.parents ≠ [] → ∀ r, g v r = c.model (c.parents.map g) r +
        if I.discrete v then 0 else usedError I fitM ce sh v r)

/-- A model that predicts row by row, as all regression models do. -/
def RowWise (m : Predictor K) : Prop := ∀ (X : List (Col K)) (σ : Nat → Nat) (r : Nat), m (X.map (fun c r => c (σ r))) r = m X (σ r)

/-! ### Helper lemmas -/

theorem error_eq (ce : Nat → Option (Col K)) (sh : Option (Nat → Nat)) (v : Nat) (hd : I.discrete v = false) :
    errorOf I fitM ce sh v = some (usedError I fitM ce sh v) := by
  have h1 : (trainVar I fitM v).residual = some (trainResidual I fitM v) := by
    unfold trainVar
    by_cases h : parents I.graph I.n v = []
    · rw [h]
      simp only [List.isEmpty_nil, if_true, Option.some.injEq]
      funext r
      unfold trainResidual
      rw [if_pos (by exact h)]
    · have h2 : (parents I.graph I.n v).isEmpty = false := by
        cases hx : parents I.graph I.n v with
        | nil => exact absurd hx h
        | cons a l => rfl
      simp only [h2, Bool.false_eq_true, if_false, hd, Option.some.injEq]
      funext r
      unfold trainResidual
      rw [if_neg (by exact h)]
      rfl
  unfold errorOf usedError
  rw [h1]
  cases ce v <;> cases sh <;> rfl

theorem equation_of_solution (ce : Nat → Option (Col K)) (cm : Nat → Option (Change K)) (sh : Option (Nat → Nat))
    (hk : Known I.n cm) (s : Nat → Option (Col K)) (hsol : Solution I fitM ce cm sh s) (v : Nat) (hv : v < I.n) :
    Equation I fitM ce cm sh (fun u => (s u).getD (fun _ => 0)) v := by
  obtain ⟨c, hc, heq⟩ := hsol v hv
  have hg : ∀ p ∈ parentsOf I cm v, s p = some ((fun u => (s u).getD (fun _ => 0)) p) := by
    intro p hp
    obtain ⟨cp, hcp, _⟩ := hsol p (parent_edge I cm hk v p hv hp).1
    simp only [hcp]; rfl
  have hcv : (fun u => (s u).getD (fun _ => 0)) v = c := by simp only [hc]; rfl
  generalize (fun u => (s u).getD (fun _ => 0)) = g at hg hcv
  -- the two cases share their shape
  have key : ∀ (P : List Nat) (m : Predictor K), parentsOf I cm v = P → (P ≠ [] → modelOf I fitM cm v = some m) →
      (P = [] → I.discrete v = true → ∀ r, g v r = I.data v r) ∧
      (P = [] → I.discrete v = false → ∀ r, g v r = usedError I fitM ce sh v r) ∧
      (P ≠ [] → ∀ r, g v r = m (P.map g) r + if I.discrete v then 0 else usedError I fitM ce sh v r) := by
    intro P m hP hm
    subst hP
    rw [hcv]
    unfold simVar at heq
    refine ⟨fun h0 hd r => ?_, fun h0 hd r => ?_, fun h0 r => ?_⟩
    · simp only [h0, List.isEmpty_nil, if_true, hd, Except.ok.injEq] at heq
      rw [heq]
    · simp only [h0, List.isEmpty_nil, if_true, hd, Bool.false_eq_true, if_false, error_eq I fitM ce sh v hd,
        Except.ok.injEq] at heq
      rw [heq]
    · have hemp : (parentsOf I cm v).isEmpty = false := by
        cases hx : parentsOf I cm v with
        | nil => exact absurd hx h0
        | cons a l => rfl
      rw [columns_map s g _ hg] at heq
      simp only [hemp, Bool.false_eq_true, if_false, hm h0] at heq
      cases hd : I.discrete v with
      | true =>
        simp only [hd, if_true, Except.ok.injEq] at heq
        rw [← heq, if_pos rfl, add_zero]
      | false =>
        simp only [hd, Bool.false_eq_true, if_false, error_eq I fitM ce sh v hd, Except.ok.injEq] at heq
        rw [← heq, if_neg Bool.false_ne_true]
  unfold Equation
  cases hcm : cm v with
  | none =>
    have := key (graphParents I v) (fitM v ((graphParents I v).map I.data) (I.data v)) (by unfold parentsOf; rw [hcm]; rfl) ?_
    · exact this
    · intro h0
      unfold modelOf
      rw [hcm]
      simp only
      unfold trainVar
      have h2 : (parents I.graph I.n v).isEmpty = false := by
        cases hx : parents I.graph I.n v with
        | nil => exact absurd hx h0
        | cons a l => rfl
      simp only [h2, Bool.false_eq_true, if_false]
      rfl
  | some c' =>
    have := key c'.parents c'.model (by unfold parentsOf; rw [hcm]) (fun _ => by unfold modelOf; rw [hcm])
    exact this

theorem run_solution (ce : Nat → Option (Col K)) (cm : Nat → Option (Change K)) (sh : Option (Nat → Nat))
    (hk : Known I.n cm) (s : Nat → Option (Col K)) (h : run I fitM ce cm sh = Except.ok s) :
    Acyclic (Edge I.n (changedGraph I.graph cm) 0) ∧ Solution I fitM ce cm sh s := by
  have hac : Acyclic (Edge I.n (changedGraph I.graph cm) 0) := by
    by_contra hc; rw [run_cyclic I fitM ce cm sh hc] at h; cases h
  obtain ⟨s0, h0, hsol⟩ := run_acyclic I fitM ce cm sh hk hac
  rw [h] at h0; cases h0
  exact ⟨hac, hsol⟩

/-! ### C45, written out -/

/-- **C45.** Every successful run returns a value for every variable and row, and these values satisfy the structural
equations: the fitted model, or the one given by the user, applied to the *simulated* parents, plus the training residual,
or the exogenous values given by the user, in the order of the shuffle. -/
theorem C45_equations (ce : Nat → Option (Col K)) (cm : Nat → Option (Change K)) (sh : Option (Nat → Nat))
    (hk : Known I.n cm) (s : Nat → Option (Col K)) (h : run I fitM ce cm sh = Except.ok s) :
    ∃ g : Nat → Col K, (∀ v, v < I.n → s v = some (g v)) ∧ ∀ v, v < I.n → Equation I fitM ce cm sh g v := by
  obtain ⟨_, hsol⟩ := run_solution I fitM ce cm sh hk s h
  refine ⟨fun u => (s u).getD (fun _ => 0), fun v hv => ?_, fun v hv => equation_of_solution I fitM ce cm sh hk s hsol v hv⟩
  obtain ⟨c, hc, _⟩ := hsol v hv
  simp only [hc]; rfl

/-- **C45.** The equations determine the simulated data. -/
theorem C45_unique (ce : Nat → Option (Col K)) (cm : Nat → Option (Change K)) (sh : Option (Nat → Nat))
    (hk : Known I.n cm) (hac : Acyclic (Edge I.n (changedGraph I.graph cm) 0)) (g g' : Nat → Col K)
    (hg : ∀ v, v < I.n → Equation I fitM ce cm sh g v) (hg' : ∀ v, v < I.n → Equation I fitM ce cm sh g' v) :
    ∀ v, v < I.n → g v = g' v := by
  refine acyclic_induction I.n hac _ (fun v hv ih => ?_)
  have hpar : ∀ p ∈ parentsOf I cm v, g p = g' p := fun p hp =>
    ih p (parent_edge I cm hk v p hv hp).1 (parent_edge I cm hk v p hv hp)
  have h1 := hg v hv
  have h2 := hg' v hv
  unfold Equation at h1 h2
  have fin : ∀ (P : List Nat) (m : Predictor K), (∀ p ∈ P, g p = g' p) →
      ((P = [] → I.discrete v = true → ∀ r, g v r = I.data v r) ∧
      (P = [] → I.discrete v = false → ∀ r, g v r = usedError I fitM ce sh v r) ∧
      (P ≠ [] → ∀ r, g v r = m (P.map g) r + if I.discrete v then 0 else usedError I fitM ce sh v r)) →
      ((P = [] → I.discrete v = true → ∀ r, g' v r = I.data v r) ∧
      (P = [] → I.discrete v = false → ∀ r, g' v r = usedError I fitM ce sh v r) ∧
      (P ≠ [] → ∀ r, g' v r = m (P.map g') r + if I.discrete v then 0 else usedError I fitM ce sh v r)) → g v = g' v := by
    rintro P m hP ⟨a1, a2, a3⟩ ⟨b1, b2, b3⟩
    funext r
    by_cases h0 : P = []
    · cases hd : I.discrete v with
      | true => rw [a1 h0 hd, b1 h0 hd]
      | false => rw [a2 h0 hd, b2 h0 hd]
    · rw [a3 h0, b3 h0, List.map_congr_left hP]
  cases hcm : cm v with
  | none =>
    rw [hcm] at h1 h2
    refine fin (graphParents I v) _ (fun p hp => hpar p ?_) h1 h2
    unfold parentsOf; rw [hcm]; exact hp
  | some c =>
    rw [hcm] at h1 h2
    refine fin c.parents _ (fun p hp => hpar p ?_) h1 h2
    unfold parentsOf; rw [hcm]; exact hp

/-- **C45.** Results of `BottomUpParceLiNGAM`: the parents of a variable are the variables with a known coefficient larger
than `1e-8`; an unknown coefficient (NaN) is no edge, also for the acyclicity check. -/
theorem C45_unknown_coefficients (n : Nat) (G : Nat → Nat → Option K) (data : Nat → Col K) (disc : Nat → Bool) (v : Nat) :
    (∀ j, j ∈ parentsOf (unobsImpl n G data disc) noModels v ↔ j < n ∧ ∃ w, G v j = some w ∧ 1 / 10 ^ 8 < |w|) ∧
    (train (unobsImpl n G data disc) = Except.ok () ↔
      Acyclic (fun j i => j < n ∧ i < n ∧ ∃ w, G i j = some w ∧ w ≠ 0)) := by
  constructor
  · intro j
    show j ∈ parents (unobsGraph G) n v ↔ _
    unfold parents unobsGraph
    rw [List.mem_filter, List.mem_range, decide_eq_true_eq]
    cases hG : G v j with
    | none =>
      simp only [Option.getD_none, abs_zero]
      constructor
      · rintro ⟨_, h⟩
        exact absurd h (not_lt.2 (by positivity))
      · rintro ⟨_, w, h, _⟩; cases h
    | some w => simp
  · rw [(C45_train_iff _).1]
    have : Edge n (unobsGraph G) 0 = fun j i => j < n ∧ i < n ∧ ∃ w, G i j = some w ∧ w ≠ 0 := by
      funext j i
      unfold Edge unobsGraph
      cases hG : G i j with
      | none => simp
      | some w => simp
    show Acyclic (Edge n (unobsGraph G) 0) ↔ _
    rw [this]

/-! ### C108: shuffled residuals -/

/-- **C108.** With row-wise models and without discrete variables, a run with shuffled residuals is the run without
shuffling with its rows permuted, whatever is changed: rows are kept together, no new combination of values arises. -/
theorem C108_shuffle_permutes_rows (ce : Nat → Option (Col K)) (cm : Nat → Option (Change K)) (σ : Nat → Nat)
    (hk : Known I.n cm) (hd : ∀ v, I.discrete v = false) (hfit : ∀ v X y, RowWise (fitM v X y))
    (hcm : ∀ v c, cm v = some c → RowWise c.model) (s s' : Nat → Option (Col K))
    (h : run I fitM ce cm none = Except.ok s) (h' : run I fitM ce cm (some σ) = Except.ok s') :
    ∀ v, v < I.n → s' v = (s v).map (fun c r => c (σ r)) := by
  obtain ⟨hac, _⟩ := run_solution I fitM ce cm none hk s h
  obtain ⟨g, h1, h2⟩ := C45_equations I fitM ce cm none hk s h
  obtain ⟨g', h3, h4⟩ := C45_equations I fitM ce cm (some σ) hk s' h'
  have h5 : ∀ v, v < I.n → Equation I fitM ce cm (some σ) (fun v r => g v (σ r)) v := by
    intro v hv
    have := h2 v hv
    unfold Equation at this ⊢
    have hu : ∀ r, usedError I fitM ce (some σ) v r = usedError I fitM ce none v (σ r) := fun r => rfl
    have fin : ∀ (P : List Nat) (m : Predictor K), RowWise m →
        ((P = [] → I.discrete v = true → ∀ r, g v r = I.data v r) ∧
        (P = [] → I.discrete v = false → ∀ r, g v r = usedError I fitM ce none v r) ∧
        (P ≠ [] → ∀ r, g v r = m (P.map g) r + if I.discrete v then 0 else usedError I fitM ce none v r)) →
        ((P = [] → I.discrete v = true → ∀ r, g v (σ r) = I.data v r) ∧
        (P = [] → I.discrete v = false → ∀ r, g v (σ r) = usedError I fitM ce (some σ) v r) ∧
        (P ≠ [] → ∀ r, g v (σ r) = m (P.map (fun v r => g v (σ r))) r +
          if I.discrete v then 0 else usedError I fitM ce (some σ) v r)) := by
      rintro P m hm ⟨_, a2, a3⟩
      refine ⟨fun _ hd' => ?_, fun h0 hd' r => ?_, fun h0 r => ?_⟩
      · rw [hd v] at hd'; cases hd'
      · rw [hu, a2 h0 hd']
      · rw [hu, a3 h0]
        congr 1
        have := hm (P.map g) σ r
        rw [List.map_map] at this
        exact this.symm
    cases hc : cm v with
    | none => rw [hc] at this; exact fin _ _ (hfit v _ _) this
    | some c => rw [hc] at this; exact fin _ _ (hcm v c hc) this
  intro v hv
  rw [h3 v hv, h1 v hv]
  show some (g' v) = some (fun r => g v (σ r))
  rw [C45_unique I fitM ce cm (some σ) hk hac g' _ h4 h5 v hv]

/-- **C108.** In particular, shuffling alone returns the rows of the training data in another order. -/
theorem C108_shuffled_training_rows (σ : Nat → Nat) (hac : Acyclic (Edge I.n I.graph 0)) (hd : ∀ v, I.discrete v = false)
    (hfit : ∀ v X y, RowWise (fitM v X y)) :
    ∃ s, run I fitM noExog noModels (some σ) = Except.ok s ∧
      ∀ v, v < I.n → s v = some (fun r => I.data v (σ r)) := by
  obtain ⟨s, h1, h2⟩ := C44_reproduces_numeric I fitM hac hd
  obtain ⟨s', h3, _⟩ := run_acyclic I fitM noExog noModels (some σ) (known_none I.n) hac
  refine ⟨s', h3, fun v hv => ?_⟩
  rw [C108_shuffle_permutes_rows I fitM noExog noModels σ (known_none I.n) hd hfit (by intro v c h; cases h) s s' h1 h3 v hv,
    h2 v hv]
  rfl

/-! ### C109: a model given by its coefficients -/

/-- The fitted model of `v` is linear with intercept `a` and coefficients `b`. -/
def FittedLinear (v : Nat) (a : K) (b : List K) : Prop :=
  ∀ X r, fitM v ((graphParents I v).map I.data) (I.data v) X r = a + ((b.zip X).map (fun p => p.1 * p.2 r)).sum

/-- **C109, what happens.** Give one variable its own parents and its own fitted coefficients as "changed model": all other
non-descendants keep their data, and the variable itself loses the intercept of the regression. -/
theorem C109_intercept_dropped (hac : Acyclic (Edge I.n I.graph 0)) (hd : ∀ v, I.discrete v = false) (v : Nat) (hv : v < I.n)
    (hp : graphParents I v ≠ []) (a : K) (b : List K) (hm : FittedLinear I fitM v a b)
    (s : Nat → Option (Col K))
    (h : run I fitM noExog (fun u => if u = v then some ⟨graphParents I v, coefModel b⟩ else none) none = Except.ok s) :
    s v = some (fun r => I.data v r - a) := by
  have hk : Known I.n (fun u => if u = v then some (⟨graphParents I v, coefModel b⟩ : Change K) else none) := by
    intro u c hc p hpc
    simp only at hc
    split at hc
    · cases hc
      exact List.mem_range.1 (List.mem_filter.1 hpc).1
    · cases hc
  obtain ⟨hac', hsol⟩ := run_solution I fitM _ _ none hk s h
  obtain ⟨g, h1, h2⟩ := C45_equations I fitM _ _ none hk s h
  obtain ⟨s0, h3, h4⟩ := C44_reproduces_numeric I fitM hac hd
  have hedge : ∀ p, p ∈ graphParents I v → Edge I.n I.graph 0 p v := fun p hp =>
    parent_edge I noModels (known_none I.n) v p hv hp
  have hpar : ∀ p ∈ graphParents I v, g p = I.data p := by
    intro p hpp
    have hpn := (hedge p hpp).1
    have := C45_non_descendants I fitM noExog
      (fun u => if u = v then some (⟨graphParents I v, coefModel b⟩ : Change K) else none) none hk s s0 h h3 p hpn ?_
    · rw [h1 p hpn, h4 p hpn] at this
      exact Option.some.inj this
    · rintro ⟨u, hu, hu'⟩
      obtain rfl : u = v := by
        by_contra hne
        rcases hu with hu | hu
        · exact Bool.noConfusion hu
        · simp [hne] at hu
      have hpe : Edge I.n (changedGraph I.graph
          (fun w => if w = u then some (⟨graphParents I u, coefModel b⟩ : Change K) else none)) 0 p u := by
        refine ⟨hpn, hv, ?_⟩
        unfold changedGraph
        simp [hpp]
      rcases hu' with rfl | hu'
      · exact hac _ (Relation.TransGen.single (hedge _ hpp))
      · exact hac' u (hu'.tail hpe)
  rw [h1 v hv]
  congr 1
  have := h2 v hv
  unfold Equation at this
  simp only [if_true] at this
  funext r
  rw [this.2.2 hp r, hd v]
  have e1 : (graphParents I v).map g = (graphParents I v).map I.data := List.map_congr_left hpar
  have e2 : usedError I fitM noExog none v r = I.data v r -
      fitM v ((graphParents I v).map I.data) (I.data v) ((graphParents I v).map I.data) r := by
    show trainResidual I fitM v r = _
    unfold trainResidual
    rw [if_neg hp]
  simp only [Bool.false_eq_true, if_false]
  rw [e1, e2, hm]
  unfold coefModel
  ring

/-- **C109, partial.** Restating a fitted coefficient changes nothing exactly when the fitted intercept is zero.
Missing: nonzero intercepts, where the data are shifted (`C109_intercept_dropped`). -/
theorem C109_restated_coefficients_partial (hac : Acyclic (Edge I.n I.graph 0)) (hd : ∀ v, I.discrete v = false) (v : Nat)
    (hv : v < I.n) (hp : graphParents I v ≠ []) (a : K) (b : List K) (hm : FittedLinear I fitM v a b)
    (s : Nat → Option (Col K))
    (h : run I fitM noExog (fun u => if u = v then some ⟨graphParents I v, coefModel b⟩ else none) none = Except.ok s) :
    s v = some (I.data v) ↔ a = 0 := by
  rw [C109_intercept_dropped I fitM hac hd v hv hp a b hm s h, Option.some.injEq]
  constructor
  · intro h
    have := congrFun h 0
    linear_combination -this
  · rintro rfl
    funext r
    ring

/-! ### Concrete cases -/

theorem chain_acyclic : Acyclic (Edge (chain false).n (chain false).graph 0) := by
  refine acyclic_of_before (l := [0, 1, 2]) (by decide) ?_
  rintro a b ⟨ha, hb, hw⟩
  have hab : b = a + 1 := by
    by_contra hne
    simp [chain, hne] at hw
  have ha : a < 3 := ha
  have hb : b < 3 := hb
  subst hab
  interval_cases a
  · exact ⟨[], [], [2], rfl⟩
  · exact ⟨[0], [], [], rfl⟩
  · omega

/-- C108, C109: the models of `addSeven` are row-wise and linear with intercept 7. -/
example : ∀ v X y, RowWise (addSeven v X y) := by
  intro v X y Z σ r
  cases Z <;> simp [addSeven]

/-- C109: the model of variable 2 of the chain is linear with intercept 7. -/
example : FittedLinear (chain false) addSeven 2 7 [1] := by
  intro X r
  cases X with
  | nil => simp [addSeven]
  | cons c X => simp [addSeven]; ring

/-- C109: restating the coefficient 1 of variable 2 moves its rows by 7. -/
example : graphParents (chain false) 2 = [1] ∧
    ((run (chain false) addSeven noExog (fun u => if u = 2 then some ⟨[1], coefModel [1]⟩ else none) none).toOption.bind
      (fun s => (s 2).map (fun c => c 3))) = some (3 - 7) := by
  decide +kernel

/-- C108: rows 0 and 1 swapped. -/
example : ((run (chain false) addSeven noExog noModels (some (fun r => if r = 0 then 1 else if r = 1 then 0 else r))).toOption.bind
      (fun s => (s 2).map (fun c => (c 0, c 1, c 2)))) = some (1, 0, 2) := by
  decide +kernel

/-- C45, unknown coefficients: `0 → 1` known, both directions between 1 and 2 unknown. -/
example : train (unobsImpl 3 (fun i j => if i = 1 ∧ j = 0 then some (2 : ℚ) else if (i = 1 ∧ j = 2) ∨ (i = 2 ∧ j = 1) then none
      else some 0) (fun _ _ => 0) (fun _ => false)) = Except.ok () := by
  rw [(C45_unknown_coefficients 3 _ _ _ 0).2]
  refine acyclic_of_before (l := [0, 1, 2]) (by decide) ?_
  rintro a b ⟨ha, hb, w, hw, hw0⟩
  have h2 : b = 1 ∧ a = 0 := by
    by_contra hne
    rw [if_neg hne] at hw
    split at hw
    · cases hw
    · injection hw with hw; exact hw0 hw.symm
  obtain ⟨rfl, rfl⟩ := h2
  exact ⟨[], [], [2], rfl⟩

end Verif.Simulator
