import Verif.Proofs.Simulator
import Mathlib.Algebra.Order.Field.Rat
import Mathlib.Algebra.Field.Rat
import Mathlib.Tactic.NormNum

/-! Properties of the causal based simulator. -/
set_option autoImplicit false
set_option linter.unusedSectionVars false
namespace Verif.Simulator

variable {K : Type} [Field K] [LinearOrder K] [IsStrictOrderedRing K]
variable (I : Impl K) (fitM : Nat → List (Col K) → Col K → Predictor K)

/-- No changes. -/
def noExog : Nat → Option (Col K) := fun _ => none
/-- No changed models. -/
def noModels : Nat → Option (Change K) := fun _ => none

theorem known_none (n : Nat) : Known n (noModels : Nat → Option (Change K)) := by
  intro v c h; cases h

theorem changed_none (G : Nat → Nat → K) : changedGraph G noModels = G := rfl

/-- `v` or an ancestor of `v` satisfies `bad`. -/
def Reaches (E : Nat → Nat → Prop) (bad : Nat → Prop) (v : Nat) : Prop :=
  ∃ u, bad u ∧ (u = v ∨ Relation.TransGen E u v)

theorem not_reaches_parent {E : Nat → Nat → Prop} {bad : Nat → Prop} {p v : Nat} (h : ¬ Reaches E bad v)
    (hE : E p v) : ¬ Reaches E bad p := by
  rintro ⟨u, hu, h1⟩
  apply h
  refine ⟨u, hu, Or.inr ?_⟩
  rcases h1 with rfl | h1
  · exact Relation.TransGen.single hE
  · exact h1.tail hE

/-! ### C44 -/

/-- **C44 (partial).** `run()` without changes and without shuffling returns the training data, row by row, for
every variable that is not, and does not descend from, a discrete variable with parents; whatever models are
used.  Missing: numeric descendants of such discrete variables, where it is false (`C44_discrete_parent`). -/
theorem C44_reproduces_partial (hac : Acyclic (Edge I.n I.graph 0)) :
    ∃ s, run I fitM noExog noModels none = Except.ok s ∧
      ∀ v, v < I.n → ¬ Reaches (Edge I.n I.graph 0)
        (fun u => I.discrete u = true ∧ parents I.graph I.n u ≠ []) v → s v = some (I.data v) := by
  obtain ⟨s, hs, hsol⟩ := run_acyclic I fitM noExog noModels none (known_none I.n) hac
  refine ⟨s, hs, ?_⟩
  refine acyclic_induction I.n hac _ (fun v hv ih hno => ?_)
  obtain ⟨c, hc, heq⟩ := hsol v hv
  have hpe : ∀ p ∈ parents I.graph I.n v, Edge I.n I.graph 0 p v := fun p hp =>
    parent_edge I noModels (known_none I.n) v p hv hp
  have hpar : ∀ p ∈ parents I.graph I.n v, s p = some (I.data p) := fun p hp =>
    ih p (hpe p hp).1 (hpe p hp) (not_reaches_parent hno (hpe p hp))
  rw [hc]
  unfold simVar at heq
  have hP : parentsOf I noModels v = parents I.graph I.n v := rfl
  rw [hP] at heq
  cases he : (parents I.graph I.n v).isEmpty with
  | true =>
    rw [he] at heq
    simp only [if_true] at heq
    cases hd : I.discrete v with
    | true =>
      rw [hd] at heq
      simp only [if_true, Except.ok.injEq] at heq
      rw [heq]
    | false =>
      rw [hd] at heq
      simp only [Bool.false_eq_true, if_false, errorOf, noExog, trainVar, he, if_true, Except.ok.injEq] at heq
      rw [heq]
  | false =>
    rw [he] at heq
    have hd : I.discrete v = false := by
      cases hd : I.discrete v with
      | false => rfl
      | true =>
        refine absurd ⟨v, ⟨hd, ?_⟩, Or.inl rfl⟩ hno
        intro h0; rw [h0] at he; cases he
    rw [columns_map s I.data _ hpar] at heq
    simp only [Bool.false_eq_true, if_false, modelOf, noModels, trainVar, he, hd, errorOf, noExog,
      Except.ok.injEq] at heq
    rw [← heq]
    congr 1
    funext r
    ring

/-- In particular all columns are reproduced when no variable is discrete. -/
theorem C44_reproduces_numeric (hac : Acyclic (Edge I.n I.graph 0)) (hd : ∀ v, I.discrete v = false) :
    ∃ s, run I fitM noExog noModels none = Except.ok s ∧ ∀ v, v < I.n → s v = some (I.data v) := by
  obtain ⟨s, h1, h2⟩ := C44_reproduces_partial I fitM hac
  refine ⟨s, h1, fun v hv => h2 v hv ?_⟩
  rintro ⟨u, ⟨h, _⟩, _⟩
  rw [hd u] at h
  cases h

/-- Chain `0 → 1 → 2` with a discrete middle variable; the data are the row numbers; every model predicts 5. -/
def chain (disc : Bool) : Impl ℚ :=
  ⟨3, fun i j => if i = j + 1 then 1 else 0, fun v r => if v = 1 then 1 else r, fun v => disc && v == 1⟩

/-- A regression model that returns its first input column plus 7. -/
def addSeven : Nat → List (Col ℚ) → Col ℚ → Predictor ℚ := fun _ _ _ X r => (X.headD (fun _ => 0)) r + 7

/-- **C44 fails below a discrete variable**: the discrete variable is replaced by its prediction, and the numeric
variable computed from it differs from the training data. -/
theorem C44_discrete_parent : ∃ s, run (chain true) addSeven noExog noModels none = Except.ok s ∧
    (chain true).discrete 2 = false ∧ (s 2).map (fun c => c 0) = some 6 ∧ (chain true).data 2 0 = 0 := by
  have hac : Acyclic (Edge (chain true).n (chain true).graph 0) := by
    intro i hi
    have : ∀ a b, Relation.TransGen (Edge (chain true).n (chain true).graph 0) a b → a < b := by
      intro a b h
      induction h with
      | single h =>
        obtain ⟨_, _, h3⟩ := h
        simp only [chain] at h3
        split at h3
        · omega
        · simp at h3
      | tail _ h ih =>
        obtain ⟨_, _, h3⟩ := h
        simp only [chain] at h3
        split at h3
        · omega
        · simp at h3
    exact absurd (this i i hi) (lt_irrefl i)
  obtain ⟨s, hs, _⟩ := run_acyclic (chain true) addSeven noExog noModels none (known_none _) hac
  refine ⟨s, hs, rfl, ?_, by norm_num [chain]⟩
  have key : ((run (chain true) addSeven noExog noModels none).toOption.bind (fun s => (s 2).map (fun c => c 0))) =
      some 6 := by decide +kernel
  rw [hs] at key
  exact key

/-- Without discrete variables the same run reproduces the data. -/
example : ((run (chain false) addSeven noExog noModels none).toOption.bind (fun s => (s 2).map (fun c => c 3))) =
    some 3 := by decide +kernel

/-! ### C45 -/

/-- **C45.** A run is refused with `ValueError` exactly when the changed graph is cyclic, otherwise it succeeds. -/
theorem C45_accepts_iff (ce : Nat → Option (Col K)) (cm : Nat → Option (Change K)) (sh : Option (Nat → Nat))
    (hk : Known I.n cm) :
    (Acyclic (Edge I.n (changedGraph I.graph cm) 0) → ∃ s, run I fitM ce cm sh = Except.ok s) ∧
    (¬ Acyclic (Edge I.n (changedGraph I.graph cm) 0) → run I fitM ce cm sh = Except.error Err.valueError) :=
  ⟨fun h => (run_acyclic I fitM ce cm sh hk h).imp (fun _ h => h.1), run_cyclic I fitM ce cm sh⟩

/-- Training is refused exactly for cyclic graphs. -/
theorem C45_train_iff : (train I = Except.ok () ↔ Acyclic (Edge I.n I.graph 0)) ∧
    (train I = Except.error Err.valueError ↔ ¬ Acyclic (Edge I.n I.graph 0)) := by
  rw [← calcOrder_acyclic]
  unfold train
  cases calcOrder I.graph I.n <;> simp

/-- **C45 (locality).** Compare two runs with different changes.  If the changes agree on `v` and on all ancestors
of `v` (in the graph of the first run), both runs give `v` the same values. -/
theorem C45_local (ce ce' : Nat → Option (Col K)) (cm cm' : Nat → Option (Change K)) (sh : Option (Nat → Nat))
    (hk : Known I.n cm) (hk' : Known I.n cm') (s s' : Nat → Option (Col K))
    (h : run I fitM ce cm sh = Except.ok s) (h' : run I fitM ce' cm' sh = Except.ok s') (v : Nat) (hv : v < I.n)
    (hno : ¬ Reaches (Edge I.n (changedGraph I.graph cm) 0)
      (fun u => ¬ (ce u = ce' u ∧ cm u = cm' u)) v) : s v = s' v := by
  have hac : Acyclic (Edge I.n (changedGraph I.graph cm) 0) := by
    by_contra hc; rw [run_cyclic I fitM ce cm sh hc] at h; cases h
  have hac' : Acyclic (Edge I.n (changedGraph I.graph cm') 0) := by
    by_contra hc; rw [run_cyclic I fitM ce' cm' sh hc] at h'; cases h'
  obtain ⟨s0, h0, hsol⟩ := run_acyclic I fitM ce cm sh hk hac
  obtain ⟨s1, h1, hsol'⟩ := run_acyclic I fitM ce' cm' sh hk' hac'
  rw [h] at h0; cases h0
  rw [h'] at h1; cases h1
  revert hno
  revert v
  refine acyclic_induction I.n hac _ (fun v hv ih hno => ?_)
  obtain ⟨c, hc, heq⟩ := hsol v hv
  obtain ⟨c', hc', heq'⟩ := hsol' v hv
  have hsame : ce v = ce' v ∧ cm v = cm' v := by
    by_contra hb; exact hno ⟨v, hb, Or.inl rfl⟩
  have hP : parentsOf I cm v = parentsOf I cm' v := by unfold parentsOf; rw [hsame.2]
  have hpar : ∀ p ∈ parentsOf I cm v, s p = s' p := fun p hp =>
    ih p (parent_edge I cm hk v p hv hp).1 (parent_edge I cm hk v p hv hp)
      (not_reaches_parent hno (parent_edge I cm hk v p hv hp))
  have key : simVar I fitM ce cm sh s v = simVar I fitM ce' cm' sh s' v := by
    rw [simVar_congr I fitM ce cm sh s s' v hpar]
    unfold simVar
    rw [hP]
    have hM : modelOf I fitM cm v = modelOf I fitM cm' v := by unfold modelOf; rw [hsame.2]
    have hE : errorOf I fitM ce sh v = errorOf I fitM ce' sh v := by unfold errorOf; rw [hsame.1]
    rw [hM, hE]
  rw [heq, heq', Except.ok.injEq] at key
  rw [hc, hc', key]

/-- **C45.** Non-descendants of the changed variables keep the values of the unchanged run. -/
theorem C45_non_descendants (ce : Nat → Option (Col K)) (cm : Nat → Option (Change K)) (sh : Option (Nat → Nat))
    (hk : Known I.n cm) (s s' : Nat → Option (Col K)) (h : run I fitM ce cm sh = Except.ok s)
    (h' : run I fitM noExog noModels sh = Except.ok s') (v : Nat) (hv : v < I.n)
    (hno : ¬ Reaches (Edge I.n (changedGraph I.graph cm) 0)
      (fun u => (ce u).isSome ∨ (cm u).isSome) v) : s v = s' v := by
  refine C45_local I fitM ce noExog cm noModels sh hk (known_none I.n) s s' h h' v hv ?_
  rintro ⟨u, hu, h1⟩
  refine hno ⟨u, ?_, h1⟩
  by_contra hc
  push Not at hc
  apply hu
  constructor
  · cases hx : ce u with
    | none => rfl
    | some x => rw [hx] at hc; exact absurd rfl hc.1
  · cases hx : cm u with
    | none => rfl
    | some x => rw [hx] at hc; exact absurd rfl hc.2

/-- **C45 (structural equations).** In every successful run each numeric variable with parents is the prediction
from its simulated parents plus its error term, and each numeric variable without parents is its error term. -/
theorem C45_structural (ce : Nat → Option (Col K)) (cm : Nat → Option (Change K)) (sh : Option (Nat → Nat))
    (hk : Known I.n cm) (s : Nat → Option (Col K)) (h : run I fitM ce cm sh = Except.ok s) (v : Nat) (hv : v < I.n)
    (hd : I.discrete v = false) :
    ∃ (g : Nat → Col K) (c e : Col K), s v = some c ∧ errorOf I fitM ce sh v = some e ∧
      (∀ p ∈ parentsOf I cm v, s p = some (g p)) ∧
      (parentsOf I cm v = [] → c = e) ∧
      (parentsOf I cm v ≠ [] → ∃ m, modelOf I fitM cm v = some m ∧
        ∀ r, c r = m ((parentsOf I cm v).map g) r + e r) := by
  have hac : Acyclic (Edge I.n (changedGraph I.graph cm) 0) := by
    by_contra hc; rw [run_cyclic I fitM ce cm sh hc] at h; cases h
  obtain ⟨s0, h0, hsol⟩ := run_acyclic I fitM ce cm sh hk hac
  rw [h] at h0; cases h0
  obtain ⟨c, hc, heq⟩ := hsol v hv
  obtain ⟨e, he⟩ := error_some I fitM ce sh v hd
  have hg : ∀ p ∈ parentsOf I cm v, s p = some ((s p).getD (fun _ => 0)) := by
    intro p hp
    obtain ⟨cp, hcp, _⟩ := hsol p (parent_edge I cm hk v p hv hp).1
    rw [hcp]; rfl
  refine ⟨fun p => (s p).getD (fun _ => 0), c, e, hc, he, hg, ?_, ?_⟩
  · intro h0
    unfold simVar at heq
    simp only [h0, List.isEmpty_nil, if_true, hd, Bool.false_eq_true, if_false, he, Except.ok.injEq] at heq
    exact heq.symm
  · intro h0
    have hemp : (parentsOf I cm v).isEmpty = false := by
      cases hx : parentsOf I cm v with
      | nil => exact absurd hx h0
      | cons a l => rfl
    obtain ⟨m, hm⟩ := model_some I fitM cm v hemp
    refine ⟨m, hm, ?_⟩
    unfold simVar at heq
    rw [columns_map s (fun p => (s p).getD (fun _ => 0)) _ hg] at heq
    simp only [hemp, Bool.false_eq_true, if_false, hm, hd, he, Except.ok.injEq] at heq
    intro r
    rw [← heq]

/-- Changing the exogenous part of variable 1 of the chain leaves variable 0 alone and moves variable 2. -/
example : ((run (chain false) addSeven (fun v => if v = 1 then some (fun _ => 10) else none) noModels none).toOption.bind
      (fun s => (s 0).map (fun c => c 3))) = some 3 ∧
    ((run (chain false) addSeven (fun v => if v = 1 then some (fun _ => 10) else none) noModels none).toOption.bind
      (fun s => (s 2).map (fun c => c 3))) = some 22 := by decide +kernel

/-- A tiny coefficient (at most `1e-8`) is no parent for `get_parent_names` but an edge for the causal order, so a
graph whose used parents form no cycle is refused. -/
theorem C45_tiny_coefficient_refused :
    train (⟨2, fun i j => if i = 0 ∧ j = 1 then 1 / 10 ^ 9 else if i = 1 ∧ j = 0 then 1 else 0, fun _ _ => 0,
      fun _ => false⟩ : Impl ℚ) = Except.error Err.valueError ∧
    parents (fun i j => if i = 0 ∧ j = 1 then (1 / 10 ^ 9 : ℚ) else if i = 1 ∧ j = 0 then 1 else 0) 2 0 = [] := by
  constructor
  · have : ∀ x : Except Err Unit, x.toOption = none → x = Except.error Err.valueError ∨ x = Except.error Err.missing := by
      intro x hx
      cases x with
      | error e => cases e <;> simp
      | ok u => cases hx
    unfold train
    have h : calcOrder (fun i j => if i = 0 ∧ j = 1 then (1 / 10 ^ 9 : ℚ) else if i = 1 ∧ j = 0 then 1 else 0) 2 = none := by
      decide +kernel
    rw [h]
  · decide +kernel

/-! ### C84: time series -/

theorem ts_edge (n L : Nat) (B : Nat → Nat → Nat → K) (a b : Nat) :
    Edge (n * (L + 1)) (tsGraph n B) 0 a b → b < n := by
  rintro ⟨_, _, h⟩
  by_contra hb
  simp [tsGraph, hb] at h

/-- **C84.** A VAR graph is accepted exactly when its instantaneous part is acyclic. -/
theorem C84_accepts_iff (n L : Nat) (B : Nat → Nat → Nat → K) :
    Acyclic (Edge (n * (L + 1)) (tsGraph n B) 0) ↔ Acyclic (Edge n (B 0) 0) := by
  constructor
  · intro h i hi
    refine h i (Relation.TransGen.mono (fun a b hab => ?_) _ _ hi)
    obtain ⟨ha, hb, hw⟩ := hab
    have hnL : n ≤ n * (L + 1) := Nat.le_mul_of_pos_right n (by omega)
    refine ⟨by omega, by omega, ?_⟩
    simp only [tsGraph, hb, if_true, Nat.div_eq_of_lt ha, Nat.mod_eq_of_lt ha]
    exact hw
  · intro h i hi
    have hin : i < n := by
      rcases Relation.TransGen.tail'_iff.1 hi with ⟨b, _, hb⟩
      exact ts_edge n L B _ _ hb
    have : ∀ a b, Relation.TransGen (Edge (n * (L + 1)) (tsGraph n B) 0) a b → a < n →
        Relation.TransGen (Edge n (B 0) 0) a b := by
      intro a b hab ha
      have step : ∀ x y, x < n → Edge (n * (L + 1)) (tsGraph n B) 0 x y → Edge n (B 0) 0 x y := by
        intro x y hx hxy
        have hy := ts_edge n L B x y hxy
        refine ⟨hx, hy, ?_⟩
        have := hxy.2.2
        simpa only [tsGraph, hy, if_true, Nat.div_eq_of_lt hx, Nat.mod_eq_of_lt hx] using this
      induction hab with
      | single h1 => exact Relation.TransGen.single (step _ _ ha h1)
      | tail hab h1 ih =>
        rcases Relation.TransGen.tail'_iff.1 hab with ⟨c, _, hc⟩
        exact ih.tail (step _ _ (ts_edge n L B _ _ hc) h1)
    exact h i (this i i hi hin)

/-- **C84 (partial).** Without changes the simulated data of a VAR model (numeric variables) are the observed
series: row `r` of variable `i` at lag `k` is `X[L - k + r, i]`; hence lag `k + 1` in row `r + 1` equals lag `k` in
row `r`.  Missing: runs with changes, where it is false (`C84_inconsistent`). -/
theorem C84_series_partial (n L : Nat) (B : Nat → Nat → Nat → K) (X : Nat → Nat → K) (hB : Acyclic (Edge n (B 0) 0)) :
    ∃ s, run (tsImpl n L B X (fun _ => false)) fitM noExog noModels none = Except.ok s ∧
      (∀ k i, k ≤ L → i < n → s (n * k + i) = some (fun r => X (L - k + r) i)) ∧
      (∀ k i, k < L → i < n → ∃ c c', s (n * k + i) = some c ∧ s (n * (k + 1) + i) = some c' ∧
        ∀ r, c' (r + 1) = c r) := by
  obtain ⟨s, h1, h2⟩ := C44_reproduces_numeric (tsImpl n L B X (fun _ => false)) fitM
    ((C84_accepts_iff n L B).2 hB) (fun _ => rfl)
  have h3 : ∀ k i, k ≤ L → i < n → s (n * k + i) = some (fun r => X (L - k + r) i) := by
    intro k i hk hi
    have hlt : n * k + i < n * (L + 1) := by
      calc n * k + i < n * k + n := by omega
        _ = n * (k + 1) := by ring
        _ ≤ n * (L + 1) := Nat.mul_le_mul_left n (by omega)
    rw [h2 (n * k + i) hlt]
    congr 1
    funext r
    show tsData n L X (n * k + i) r = _
    unfold tsData
    rw [Nat.mul_add_div (by omega), Nat.div_eq_of_lt hi, Nat.mul_add_mod, Nat.mod_eq_of_lt hi, Nat.add_zero]
  refine ⟨s, h1, h3, fun k i hk hi => ⟨_, _, h3 k i (by omega) hi, h3 (k + 1) i (by omega) hi, fun r => ?_⟩⟩
  show X (L - (k + 1) + (r + 1)) i = X (L - k + r) i
  congr 1
  omega

/-- Lagged variables are never simulated: unless changed themselves they keep the observed values, whatever is
changed at time `t`. -/
theorem C84_lags_fixed (n L : Nat) (B : Nat → Nat → Nat → K) (X : Nat → Nat → K) (ce : Nat → Option (Col K))
    (cm : Nat → Option (Change K)) (hk : Known (n * (L + 1)) cm) (s : Nat → Option (Col K))
    (h : run (tsImpl n L B X (fun _ => false)) fitM ce cm none = Except.ok s) (v : Nat) (hv : v < n * (L + 1))
    (hlag : n ≤ v) (hce : ce v = none) (hcm : cm v = none) : s v = some (tsData n L X v) := by
  obtain ⟨g, c, e, h1, h2, _, h4, _⟩ := C45_structural (tsImpl n L B X (fun _ => false)) fitM ce cm none hk s h v hv rfl
  have hP : parents (tsGraph n B) (n * (L + 1)) v = [] := by
    unfold parents
    rw [List.filter_eq_nil_iff]
    intro j _
    simp [tsGraph, show ¬ v < n by omega]
  have hP' : parentsOf (tsImpl n L B X (fun _ => false)) cm v = [] := by
    unfold parentsOf; rw [hcm]; exact hP
  rw [h1, h4 hP']
  have : errorOf (tsImpl n L B X (fun _ => false)) fitM ce none v = some (tsData n L X v) := by
    unfold errorOf
    rw [hce]
    simp only [trainVar]
    have : parents (tsImpl n L B X (fun _ => false)).graph (tsImpl n L B X (fun _ => false)).n v = [] := hP
    rw [this]
    rfl
  rw [this] at h2
  exact h2.symm

/-- One variable with the lag coefficient 1; the data are the row numbers. -/
def walkB : Nat → Nat → Nat → ℚ := fun k _ _ => if k = 1 then 1 else 0
/-- The simulator input of the walk. -/
def walk : Impl ℚ := tsImpl 1 1 walkB (fun t _ => t) (fun _ => false)
/-- The shock of `x[t]` set to 10. -/
def shock : Nat → Option (Col ℚ) := fun v => if v = 0 then some (fun _ => 10) else none

theorem walk_run : ∃ s, run walk addSeven shock noModels none = Except.ok s := by
  have hB : Acyclic (Edge 1 (walkB 0) 0) := by
    intro i hi
    rcases Relation.TransGen.tail'_iff.1 hi with ⟨b, _, hb⟩
    exact absurd hb.2.2 (by simp [walkB])
  obtain ⟨s, hs, _⟩ := run_acyclic walk addSeven shock noModels none (known_none _)
    ((C84_accepts_iff 1 1 walkB).2 hB)
  exact ⟨s, hs⟩

theorem walk_values :
    ((run walk addSeven shock noModels none).toOption.bind (fun s => (s 0).map (fun c => c 0))) = some 17 ∧
    ((run walk addSeven shock noModels none).toOption.bind (fun s => (s 1).map (fun c => c 1))) = some 1 := by
  decide +kernel

/-- **C84 is violated with changes**: setting the shock of `x[t]` to 10 gives row 0 the value 17 for `x[t]`, but
row 1 still has the observed value 1 for `x[t-1]`. -/
theorem C84_inconsistent : ∃ s, run walk addSeven shock noModels none = Except.ok s ∧
    (s 0).map (fun c => c 0) = some 17 ∧ (s 1).map (fun c => c 1) = some 1 := by
  obtain ⟨s, hs⟩ := walk_run
  have h := walk_values
  rw [hs] at h
  exact ⟨s, hs, h.1, h.2⟩

end Verif.Simulator
