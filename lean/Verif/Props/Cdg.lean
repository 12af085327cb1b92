import Verif.Model.Cdg
import Mathlib.Algebra.Field.Rat
import Mathlib.Tactic.Ring

/-! Properties of `CausalDataGenerator`. -/
set_option autoImplicit false
set_option linter.unusedSectionVars false
namespace Verif.Cdg

variable {K : Type} [Field K]
variable (fitC fitE : List (Col K) → Col K → Predictor K)

/-- The data has no missing value and the roles of the columns are distinct. -/
structure Proper (X : Frame K) (cause effect : Nat) (adj : List Nat) : Prop where
  noNan : ∀ v ∈ X.cols, ∀ r, X.data v r ≠ none
  ce : cause ≠ effect
  ca : cause ∉ adj
  ea : effect ∉ adj

/-- Predictions of the model are numbers when the inputs are the training data. -/
def Finite (m : Predictor K) (xs : List (Col K)) : Prop := ∀ r, m xs r ≠ none

theorem cadd_resid (y p : Col K) (hp : ∀ r, p r ≠ none) (hy : ∀ r, y r ≠ none) :
    cadd (csub y p) p = y := by
  funext r
  unfold cadd csub
  cases h1 : y r with
  | none => exact absurd h1 (hy r)
  | some a =>
    cases h2 : p r with
    | none => exact absurd h2 (hp r)
    | some b => simp

theorem fit_ok {X : Frame K} {cause effect : Nat} {adj : List Nat} {f : Fitted K}
    (h : fit fitC fitE X cause effect adj = Except.ok f) :
    cause ∈ X.cols ∧ effect ∈ X.cols ∧ (∀ a ∈ adj, a ∈ X.cols) ∧ f.X = X ∧ f.cause = cause ∧ f.effect = effect ∧
    f.adj = adj ∧ f.modelE = fitE (X.data cause :: adj.map X.data) (X.data effect) ∧
    f.errE = resid (X.cat effect) (X.data effect) (f.modelE (X.data cause :: adj.map X.data)) ∧
    (adj = [] → f.modelC = none ∧ f.errC = X.data cause) ∧
    (adj ≠ [] → f.modelC = some (fitC (adj.map X.data) (X.data cause)) ∧
      f.errC = resid (X.cat cause) (X.data cause) (fitC (adj.map X.data) (X.data cause) (adj.map X.data))) := by
  unfold fit at h
  by_cases h1 : cause ∉ X.cols
  · rw [if_pos h1] at h; cases h
  rw [if_neg h1] at h
  by_cases h2 : effect ∉ X.cols
  · rw [if_pos h2] at h; cases h
  rw [if_neg h2] at h
  by_cases h3 : ∃ a ∈ adj, a ∉ X.cols
  · rw [if_pos h3] at h; cases h
  rw [if_neg h3] at h
  push Not at h1 h2 h3
  by_cases h4 : adj = []
  · simp only [h4, if_true, Except.ok.injEq] at h
    subst h
    subst h4
    exact ⟨h1, h2, h3, rfl, rfl, rfl, rfl, rfl, rfl, fun _ => ⟨rfl, rfl⟩, fun h => absurd rfl h⟩
  · simp only [h4, if_false, Except.ok.injEq] at h
    subst h
    exact ⟨h1, h2, h3, rfl, rfl, rfl, rfl, rfl, rfl, fun h => absurd h h4, fun _ => ⟨rfl, rfl⟩⟩

theorem map_setCol (g : Nat → Col K) (v : Nat) (c : Col K) (l : List Nat) (h : v ∉ l) :
    l.map (setCol g v c) = l.map g := by
  refine List.map_congr_left (fun a ha => ?_)
  unfold setCol
  rw [if_neg (fun e : a = v => h (e ▸ ha))]

theorem setCol_self (g : Nat → Col K) (v : Nat) (c : Col K) : setCol g v c v = c := by simp [setCol]

theorem setCol_ne (g : Nat → Col K) (v w : Nat) (c : Col K) (h : w ≠ v) : setCol g v c w = g w := by simp [setCol, h]

/-- **C46 (partial).** For numeric cause and effect, `generate()` without interventions returns the training data,
whatever the estimators are, provided there is at least one adjustment variable and the data frame has no other
columns.  Without these two conditions it raises (`C46_no_adjustments_fails`, `C46_extra_column_fails`). -/
theorem C46_reproduces_partial {X : Frame K} {cause effect : Nat} {adj : List Nat} {f : Fitted K}
    (h : fit fitC fitE X cause effect adj = Except.ok f) (hp : Proper X cause effect adj)
    (hc : X.cat cause = false) (he : X.cat effect = false) (hadj : adj ≠ [])
    (hcols : ∀ v ∈ X.cols, v = cause ∨ v = effect ∨ v ∈ adj)
    (hfc : Finite (fitC (adj.map X.data) (X.data cause)) (adj.map X.data))
    (hfe : Finite (fitE (X.data cause :: adj.map X.data) (X.data effect)) (X.data cause :: adj.map X.data)) :
    ∃ g, generate f [] [] none none = Except.ok g ∧ ∀ v ∈ X.cols, g v = X.data v := by
  obtain ⟨h1, h2, h3, rfl, rfl, rfl, rfl, hmE, heE, _, hC⟩ := fit_ok fitC fitE h
  obtain ⟨hmC, heC⟩ := hC hadj
  have hst : start f [] = setCol (setCol f.X.data f.cause f.errC) f.effect f.errE := rfl
  have hadjm : f.adj.map (start f []) = f.adj.map f.X.data := by
    rw [hst, map_setCol _ _ _ _ hp.ea, map_setCol _ _ _ _ hp.ca]
  have hstc : start f [] f.cause = f.errC := by
    rw [hst, setCol_ne _ _ _ _ hp.ce, setCol_self]
  have hgc : genCause f [] none (start f []) = Except.ok (f.X.data f.cause) := by
    simp only [genCause, look, List.find?_nil, Option.map_none, hmC, hc, Bool.false_eq_true, if_false, hadjm, hstc, heC,
      resid]
    rw [cadd_resid _ _ hfc (hp.noNan _ h1)]
  have hge : genEffect f [] none (setCol (start f []) f.cause (f.X.data f.cause)) = f.X.data f.effect := by
    have e1 : setCol (start f []) f.cause (f.X.data f.cause) f.effect = f.errE := by
      rw [setCol_ne _ _ _ _ (Ne.symm hp.ce), hst, setCol_self]
    simp only [genEffect, look, List.find?_nil, Option.map_none, he, Bool.false_eq_true, if_false]
    rw [setCol_self, map_setCol _ _ _ _ hp.ca, hadjm, e1, heE]
    simp only [he, resid, Bool.false_eq_true, if_false]
    rw [cadd_resid _ _ (by rw [hmE]; exact hfe) (hp.noNan _ h2)]
  refine ⟨setCol (setCol (start f []) f.cause (f.X.data f.cause)) f.effect (f.X.data f.effect), ?_, ?_⟩
  · unfold generate
    rw [if_neg (by simp), hgc]
    simp only []
    rw [hge, if_neg]
    push Not
    intro v hv
    simp only [Fitted.names, List.mem_cons]
    exact hcols v hv
  · intro v hv
    by_cases hve : v = f.effect
    · rw [hve, setCol_self]
    · rw [setCol_ne _ _ _ _ hve]
      by_cases hvc : v = f.cause
      · rw [hvc, setCol_self]
      · rw [setCol_ne _ _ _ _ hvc, hst, setCol_ne _ _ _ _ hve, setCol_ne _ _ _ _ hvc]

/-- **C46 fails without adjustment variables**: `adjustments=None` (the default) makes `generate` raise, whatever
the data, unless the cause is replaced by an intervention or by a model. -/
theorem C46_no_adjustments_fails {X : Frame K} {cause effect : Nat} {f : Fitted K}
    (h : fit fitC fitE X cause effect [] = Except.ok f) (endog exog : List (Nat × Col K)) (umE : Option (UserModel K))
    (hend : look endog cause = none) : ∃ e, generate f endog exog none umE = Except.error e := by
  obtain ⟨_, _, _, _, rfl, _, _, _, _, hC, _⟩ := fit_ok fitC fitE h
  obtain ⟨hmC, _⟩ := hC rfl
  unfold generate
  split
  · exact ⟨_, rfl⟩
  · simp only [genCause, hend, hmC]
    exact ⟨_, rfl⟩

/-- **C46 fails when the data frame has further columns**: then `generate` raises for all arguments. -/
theorem C46_extra_column_fails {X : Frame K} {cause effect : Nat} {adj : List Nat} {f : Fitted K}
    (h : fit fitC fitE X cause effect adj = Except.ok f) (v : Nat) (hv : v ∈ X.cols) (h1 : v ≠ cause) (h2 : v ≠ effect)
    (h3 : v ∉ adj) (endog exog : List (Nat × Col K)) (umC umE : Option (UserModel K)) :
    ∃ e, generate f endog exog umC umE = Except.error e := by
  obtain ⟨_, _, _, rfl, rfl, rfl, rfl, _, _, _, _⟩ := fit_ok fitC fitE h
  unfold generate
  split
  · exact ⟨_, rfl⟩
  · split
    · exact ⟨_, rfl⟩
    · simp only []
      rw [if_pos ⟨v, hv, by simp [Fitted.names, h1, h2, h3]⟩]
      exact ⟨_, rfl⟩

/-- Three columns: cause 0, effect 1, adjustment 2. -/
def frame3 : Frame ℚ := ⟨[0, 1, 2], fun v r => some (v * 10 + r), fun _ => false⟩
/-- A model that sums its inputs. -/
def sumModel : List (Col ℚ) → Col ℚ → Predictor ℚ := fun _ _ xs r => xs.foldl (fun a c => a.bind (fun x => (c r).map (fun y => x + y))) (some 0)

example : Proper frame3 0 1 [2] := ⟨by intro v _ r; simp [frame3], by decide, by decide, by decide⟩

/-- The hypotheses hold for a concrete fit, and the values come back. -/
example : ((fit sumModel sumModel frame3 0 1 [2]).toOption.bind (fun f => (generate f [] [] none none).toOption.map
    (fun g => (g 0 4, g 1 4, g 2 4)))) = some (some 4, some 14, some 24) := by decide +kernel

/-! ### C85: interventions -/

/-- **C85 (partial).** Setting the cause with `interv_endog` (numeric effect): the cause has the given values, the
adjustment variables keep theirs, and the effect is the prediction from the new cause and the old adjustment
variables plus the unchanged error term.  Missing: setting an adjustment variable (`C85_adjustment_ignored`). -/
theorem C85_do_cause_partial {X : Frame K} {cause effect : Nat} {adj : List Nat} {f : Fitted K}
    (h : fit fitC fitE X cause effect adj = Except.ok f) (hp : Proper X cause effect adj)
    (he : X.cat effect = false) (hcols : ∀ v ∈ X.cols, v = cause ∨ v = effect ∨ v ∈ adj) (c : Col K) :
    ∃ g, generate f [(cause, c)] [] none none = Except.ok g ∧ g cause = c ∧ (∀ a ∈ adj, g a = X.data a) ∧
      g effect = cadd (csub (X.data effect) (f.modelE (X.data cause :: adj.map X.data)))
        (f.modelE (c :: adj.map X.data)) := by
  obtain ⟨h1, h2, h3, rfl, rfl, rfl, rfl, hmE, heE, _, _⟩ := fit_ok fitC fitE h
  have hst : start f [] = setCol (setCol f.X.data f.cause f.errC) f.effect f.errE := rfl
  have hadjm : f.adj.map (start f []) = f.adj.map f.X.data := by
    rw [hst, map_setCol _ _ _ _ hp.ea, map_setCol _ _ _ _ hp.ca]
  have hgc : genCause f [(f.cause, c)] none (start f []) = Except.ok c := by simp [genCause, look]
  have hge : genEffect f [(f.cause, c)] none (setCol (start f []) f.cause c) =
      cadd (csub (f.X.data f.effect) (f.modelE (f.X.data f.cause :: f.adj.map f.X.data)))
        (f.modelE (c :: f.adj.map f.X.data)) := by
    have e1 : setCol (start f []) f.cause c f.effect = f.errE := by
      rw [setCol_ne _ _ _ _ (Ne.symm hp.ce), hst, setCol_self]
    have e2 : look [(f.cause, c)] f.effect = none := by
      have : (f.cause == f.effect) = false := by simpa using hp.ce
      simp [look, this]
    simp only [genEffect, e2, he, Bool.false_eq_true, if_false]
    rw [setCol_self, map_setCol _ _ _ _ hp.ca, hadjm, e1, heE]
    simp [he, resid]
  refine ⟨setCol (setCol (start f []) f.cause c) f.effect
    (genEffect f [(f.cause, c)] none (setCol (start f []) f.cause c)), ?_, ?_, ?_, ?_⟩
  · unfold generate
    rw [if_neg (by simp [Fitted.names]), hgc]
    simp only []
    rw [if_neg]
    push Not
    intro v hv
    simp only [Fitted.names, List.mem_cons]
    exact hcols v hv
  · rw [setCol_ne _ _ _ _ hp.ce, setCol_self]
  · intro a ha
    have hae : a ≠ f.effect := fun e => hp.ea (e ▸ ha)
    have hac : a ≠ f.cause := fun e => hp.ca (e ▸ ha)
    rw [setCol_ne _ _ _ _ hae, setCol_ne _ _ _ _ hac, hst, setCol_ne _ _ _ _ hae, setCol_ne _ _ _ _ hac]
  · rw [setCol_self, hge]

/-- **C85 is violated for adjustment variables**: `interv_endog` accepts the name of an adjustment variable but the
result is the same as without the intervention, for all inputs. -/
theorem C85_adjustment_ignored {X : Frame K} {cause effect : Nat} {adj : List Nat} {f : Fitted K}
    (h : fit fitC fitE X cause effect adj = Except.ok f) (hp : Proper X cause effect adj) (a : Nat) (ha : a ∈ adj)
    (c : Col K) (umC umE : Option (UserModel K)) :
    generate f [(a, c)] [] umC umE = generate f [] [] umC umE := by
  obtain ⟨h1, h2, h3, rfl, rfl, rfl, rfl, _, _, _, _⟩ := fit_ok fitC fitE h
  have e1 : look [(a, c)] f.cause = none := by
    have : (a == f.cause) = false := by simpa using fun e : a = f.cause => hp.ca (e ▸ ha)
    simp [look, this]
  have e2 : look [(a, c)] f.effect = none := by
    have : (a == f.effect) = false := by simpa using fun e : a = f.effect => hp.ea (e ▸ ha)
    simp [look, this]
  have e3 : ∀ v, look ([] : List (Nat × Col K)) v = none := fun _ => rfl
  unfold generate
  rw [if_neg (by simp [Fitted.names, ha]), if_neg (by simp)]
  have hgc : ∀ g, genCause f [(a, c)] umC g = genCause f [] umC g := by
    intro g; unfold genCause; rw [e1, e3]
  have hge : ∀ g, genEffect f [(a, c)] umE g = genEffect f [] umE g := by
    intro g; unfold genEffect; rw [e2, e3]
  rw [hgc]
  simp only [hge]

/-- The intervention on the adjustment variable would have changed the data: the asked value is 99, the result has
24. -/
example : ((fit sumModel sumModel frame3 0 1 [2]).toOption.bind (fun f =>
    (generate f [(2, fun _ => some 99)] [] none none).toOption.map (fun g => g 2 4))) = some (some 24) := by
  decide +kernel

/-- An exogenous intervention on an adjustment variable does set it (and is passed on to cause and effect). -/
theorem C85_exog_adjustment {X : Frame K} {cause effect : Nat} {adj : List Nat} {f : Fitted K}
    (h : fit fitC fitE X cause effect adj = Except.ok f) (hp : Proper X cause effect adj) (a : Nat) (ha : a ∈ adj)
    (hcols : ∀ v ∈ X.cols, v = cause ∨ v = effect ∨ v ∈ adj) (c : Col K) :
    ∃ g, generate f [] [(a, c)] none none = Except.ok g ∧ g a = c ∧ (∀ b ∈ adj, b ≠ a → g b = X.data b) := by
  obtain ⟨h1, h2, h3, rfl, rfl, rfl, rfl, _, _, _, hC⟩ := fit_ok fitC fitE h
  have hne : f.adj ≠ [] := by intro h0; rw [h0] at ha; cases ha
  obtain ⟨hmC, _⟩ := hC hne
  have hst : start f [(a, c)] = setCol (setCol (setCol f.X.data f.cause f.errC) f.effect f.errE) a c := rfl
  obtain ⟨cc, hcc⟩ : ∃ cc, genCause f [] none (start f [(a, c)]) = Except.ok cc := by
    unfold genCause
    simp only [look, List.find?_nil, Option.map_none, hmC]
    exact ⟨_, rfl⟩
  refine ⟨setCol (setCol (start f [(a, c)]) f.cause cc) f.effect
      (genEffect f [] none (setCol (start f [(a, c)]) f.cause cc)), ?_, ?_, ?_⟩
  · unfold generate
    rw [if_neg (by simp [Fitted.names, ha]), hcc]
    simp only []
    rw [if_neg]
    push Not
    intro v hv
    simp only [Fitted.names, List.mem_cons]
    exact hcols v hv
  · have hae : a ≠ f.effect := fun e => hp.ea (e ▸ ha)
    have hac : a ≠ f.cause := fun e => hp.ca (e ▸ ha)
    rw [setCol_ne _ _ _ _ hae, setCol_ne _ _ _ _ hac, hst, setCol_self]
  · intro b hb hba
    have hbe : b ≠ f.effect := fun e => hp.ea (e ▸ hb)
    have hbc : b ≠ f.cause := fun e => hp.ca (e ▸ hb)
    rw [setCol_ne _ _ _ _ hbe, setCol_ne _ _ _ _ hbc, hst, setCol_ne _ _ _ _ hba, setCol_ne _ _ _ _ hbe,
      setCol_ne _ _ _ _ hbc]

/-- Names outside cause, effect and adjustments are refused with `ValueError`. -/
theorem C85_unknown_name (f : Fitted K) (endog exog : List (Nat × Col K)) (umC umE : Option (UserModel K)) :
    (generate f endog exog umC umE = Except.error Err.valueError ↔
      ∃ e ∈ endog ++ exog, e.1 ≠ f.cause ∧ e.1 ≠ f.effect ∧ e.1 ∉ f.adj) := by
  have hiff : (∃ e ∈ endog ++ exog, e.1 ∉ f.names) ↔
      ∃ e ∈ endog ++ exog, e.1 ≠ f.cause ∧ e.1 ≠ f.effect ∧ e.1 ∉ f.adj := by
    simp only [Fitted.names, List.mem_cons, not_or, ne_eq]
  rw [← hiff]
  unfold generate
  constructor
  · intro h
    by_contra hc
    rw [if_neg hc] at h
    unfold genCause at h
    cases h1 : look endog f.cause with
    | some c => rw [h1] at h; simp only [] at h; split at h <;> cases h
    | none =>
      rw [h1] at h
      simp only [] at h
      cases umC with
      | some m => simp only [] at h; split at h <;> cases h
      | none =>
        simp only [] at h
        cases hm : f.modelC with
        | none => rw [hm] at h; cases h
        | some m => rw [hm] at h; simp only [] at h; split at h <;> cases h
  · intro h
    rw [if_pos h]

end Verif.Cdg
