import Verif.Model.CdgModels
import Verif.Props.Cdg

/-!
C253: estimators passed to `CausalDataGenerator` and to `visualize_nonlinear_causal_effect`.
-/
set_option autoImplicit false
set_option linter.unusedSectionVars false
namespace Verif.Cdg

variable {K : Type} [Field K]
variable (objs : Nat → Est K) (dC dE : List (Col K) → Col K → Predictor K)

/-- An estimator of the right kind for a variable: no regressor and with probabilities for a categorical variable, no classifier otherwise. -/
def RightKind (E : Est K) (cat : Bool) : Prop := if cat then E.regressor = false ∧ E.proba = true else E.classifier = false

theorem checkEst_iff (E : Est K) (cat : Bool) : checkEst E cat = .ok () ↔ RightKind E cat := by
  obtain ⟨r, c, p, f⟩ := E
  cases cat <;> cases r <;> cases c <;> cases p <;> simp [checkEst, RightKind]

theorem checkOpt_iff (cat : Bool) (m : Option Nat) : checkOpt objs cat m = .ok () ↔ ∀ i, m = some i → RightKind (objs i) cat := by
  cases m with
  | none => simp [checkOpt]
  | some i => simp [checkOpt, checkEst_iff]

/-- A regressor for a categorical variable or a classifier for a numeric one. -/
def WrongKind (E : Est K) (cat : Bool) : Prop := (cat = true ∧ E.regressor = true) ∨ (cat = false ∧ E.classifier = true)

/-- An estimator without probabilities for a categorical variable. -/
def NoProba (E : Est K) (cat : Bool) : Prop := cat = true ∧ E.regressor = false ∧ E.proba = false

theorem checkEst_type {E : Est K} {cat : Bool} (h : WrongKind E cat) : checkEst E cat = .error .type := by
  unfold checkEst
  rcases h with ⟨h1, h2⟩ | ⟨h1, h2⟩ <;> simp [h1, h2]

theorem checkEst_runtime {E : Est K} {cat : Bool} (h : NoProba E cat) : checkEst E cat = .error .runtime := by
  unfold checkEst
  simp [h.1, h.2.1, h.2.2]

/-- **C253, kinds.** For columns that exist, `fit` accepts exactly estimators of the right kind, for cause and effect; a regressor for a categorical
variable or a classifier for a numeric one raises `TypeError`, and a missing `predict_proba` raises `RuntimeError`. -/
theorem C253_kinds (S : Store K) {X : Frame K} {cause effect : Nat} {adj : List Nat} (hc : cause ∈ X.cols) (he : effect ∈ X.cols)
    (ha : ∀ a ∈ adj, a ∈ X.cols) (mc me : Option Nat) :
    ((∃ g, (fitGen objs dC dE S X cause effect adj mc me).2 = .ok g) ↔
      (∀ i, mc = some i → RightKind (objs i) (X.cat cause)) ∧ ∀ i, me = some i → RightKind (objs i) (X.cat effect)) ∧
    (∀ i, mc = some i → (WrongKind (objs i) (X.cat cause) → (fitGen objs dC dE S X cause effect adj mc me).2 = .error .type) ∧
      (NoProba (objs i) (X.cat cause) → (fitGen objs dC dE S X cause effect adj mc me).2 = .error .runtime)) ∧
    ((∀ i, mc = some i → RightKind (objs i) (X.cat cause)) → ∀ i, me = some i →
      (WrongKind (objs i) (X.cat effect) → (fitGen objs dC dE S X cause effect adj mc me).2 = .error .type) ∧
      (NoProba (objs i) (X.cat effect) → (fitGen objs dC dE S X cause effect adj mc me).2 = .error .runtime)) := by
  have h3 : ¬ ∃ a ∈ adj, a ∉ X.cols := by
    push Not
    exact ha
  have e1 : ∀ e, checkOpt objs (X.cat cause) mc = .error e → (fitGen objs dC dE S X cause effect adj mc me).2 = .error e := by
    intro e h
    unfold fitGen
    rw [if_neg (not_not.2 hc), if_neg (not_not.2 he)]
    simp only [h]
  have e2 : ∀ e, checkOpt objs (X.cat cause) mc = .ok () → checkOpt objs (X.cat effect) me = .error e →
      (fitGen objs dC dE S X cause effect adj mc me).2 = .error e := by
    intro e h h'
    unfold fitGen
    rw [if_neg (not_not.2 hc), if_neg (not_not.2 he)]
    simp only [h, h']
  have e3 : checkOpt objs (X.cat cause) mc = .ok () → checkOpt objs (X.cat effect) me = .ok () →
      ∃ g, (fitGen objs dC dE S X cause effect adj mc me).2 = .ok g := by
    intro h h'
    unfold fitGen
    rw [if_neg (not_not.2 hc), if_neg (not_not.2 he)]
    simp only [h, h', if_neg h3]
    by_cases h : adj = []
    · rw [if_pos h]
      exact ⟨_, rfl⟩
    · rw [if_neg h]
      exact ⟨_, rfl⟩
  refine ⟨?_, ?_, ?_⟩
  · rw [← checkOpt_iff, ← checkOpt_iff]
    refine ⟨fun ⟨g, hg⟩ => ?_, fun h => e3 h.1 h.2⟩
    cases h1 : checkOpt objs (X.cat cause) mc with
    | error e =>
      rw [e1 e h1] at hg
      cases hg
    | ok u =>
      cases h2 : checkOpt objs (X.cat effect) me with
      | error e =>
        rw [e2 e h1 h2] at hg
        cases hg
      | ok v => exact ⟨rfl, rfl⟩
  · rintro i rfl
    exact ⟨fun h => e1 _ (checkEst_type h), fun h => e1 _ (checkEst_runtime h)⟩
  · rintro hmc i rfl
    have h1 := (checkOpt_iff objs (X.cat cause) mc).2 hmc
    exact ⟨fun h => e2 _ h1 (checkEst_type h), fun h => e2 _ h1 (checkEst_runtime h)⟩

/-- What the estimator passed for an equation, or the default one, makes of the data. -/
def trainer (dflt : List (Col K) → Col K → Predictor K) : Option Nat → List (Col K) → Col K → Predictor K
  | some i => (objs i).fit
  | none => dflt

theorem fitGen_ok {S : Store K} {X : Frame K} {cause effect : Nat} {adj : List Nat} {mc me : Option Nat} {g : Gen K}
    (h : (fitGen objs dC dE S X cause effect adj mc me).2 = .ok g) :
    cause ∈ X.cols ∧ effect ∈ X.cols ∧ (∀ a ∈ adj, a ∈ X.cols) ∧
    fitGen objs dC dE S X cause effect adj mc me =
      (if adj = [] then
        let E := makeModel objs dE S (X.data cause :: adj.map X.data) (X.data effect) (X.cat effect) me
        (E.1, .ok ⟨X, cause, effect, adj, none, E.2.1, X.data cause, E.2.2⟩)
      else
        let C := makeModel objs dC S (adj.map X.data) (X.data cause) (X.cat cause) mc
        let E := makeModel objs dE C.1 (X.data cause :: adj.map X.data) (X.data effect) (X.cat effect) me
        (E.1, .ok ⟨X, cause, effect, adj, some C.2.1, E.2.1, C.2.2, E.2.2⟩)) := by
  unfold fitGen at h ⊢
  by_cases h1 : cause ∉ X.cols
  · rw [if_pos h1] at h; cases h
  rw [if_neg h1] at h ⊢
  by_cases h2 : effect ∉ X.cols
  · rw [if_pos h2] at h; cases h
  rw [if_neg h2] at h ⊢
  cases hc : checkOpt objs (X.cat cause) mc with
  | error _ => simp [hc] at h
  | ok u =>
    cases he : checkOpt objs (X.cat effect) me with
    | error _ => simp [hc, he] at h
    | ok v =>
      simp only [hc, he] at h ⊢
      by_cases h3 : ∃ a ∈ adj, a ∉ X.cols
      · rw [if_pos h3] at h; cases h
      rw [if_neg h3]
      push Not at h1 h2 h3
      exact ⟨h1, h2, h3, rfl⟩

theorem makeModel_resid (dflt : List (Col K) → Col K → Predictor K) (S : Store K) (xs : List (Col K)) (y : Col K) (cat : Bool) (m : Option Nat) :
    (makeModel objs dflt S xs y cat m).2.2 = resid cat y (trainer objs dflt m xs y xs) := by
  cases m <;> rfl

theorem makeModel_deref (dflt : List (Col K) → Col K → Predictor K) (S T : Store K) (xs : List (Col K)) (y : Col K) (cat : Bool) (m : Option Nat)
    (hT : ∀ i, m = some i → T i = (makeModel objs dflt S xs y cat m).1 i) :
    deref T (makeModel objs dflt S xs y cat m).2.1 = trainer objs dflt m xs y ∧ takes T xs.length (makeModel objs dflt S xs y cat m).2.1 = true := by
  cases m with
  | none => exact ⟨rfl, rfl⟩
  | some i =>
    have h := hT i rfl
    simp only [makeModel, if_true] at h
    constructor
    · simp only [makeModel, deref, h]
      rfl
    · simp only [makeModel, takes, h]
      simp

theorem generateGen_eq {S : Store K} {g : Gen K} (hC : ∀ m ∈ g.modelC, takes S g.adj.length m = true) (hE : takes S (g.adj.length + 1) g.modelE = true)
    (endog exog : List (Nat × Col K)) (umC umE : Option (UserModel K)) :
    generateGen S g endog exog umC umE = match generate (g.view S) endog exog umC umE with
      | .error e => .error (.base e)
      | .ok c => .ok c := by
  unfold generateGen
  by_cases h1 : ∃ e ∈ endog ++ exog, e.1 ∉ (g.view S).names
  · rw [if_pos h1]
    unfold generate
    rw [if_pos h1]
  · rw [if_neg h1, if_neg, if_neg]
    · cases hg : genCause (g.view S) endog umC (start (g.view S) exog) with
      | error e =>
        unfold generate
        rw [if_neg h1]
        simp only [hg]
      | ok c => rfl
    · rintro ⟨-, -, h⟩
      rw [hE] at h
      cases h
    · rintro ⟨-, -, m, hm, h⟩
      rw [hC m hm] at h
      cases h

/-- **C253 (partial), separate estimators.** If the cause and the effect do not get the same object, and the objects are still as `fit` left them, then `generate`
behaves in all respects like a generator whose two equations have models of their own (so C46 and C85 apply). -/
theorem C253_separate_partial {S : Store K} {X : Frame K} {cause effect : Nat} {adj : List Nat} {mc me : Option Nat} {g : Gen K}
    (h : (fitGen objs dC dE S X cause effect adj mc me).2 = .ok g) (hne : ∀ i, mc = some i → me ≠ some i) (T : Store K)
    (hT : ∀ i, mc = some i ∨ me = some i → T i = (fitGen objs dC dE S X cause effect adj mc me).1 i) :
    ∃ f, fit (trainer objs dC mc) (trainer objs dE me) X cause effect adj = .ok f ∧
      ∀ endog exog umC umE, generateGen T g endog exog umC umE = match generate f endog exog umC umE with
        | .error e => .error (.base e)
        | .ok c => .ok c := by
  obtain ⟨h1, h2, h3, e⟩ := fitGen_ok objs dC dE h
  have h3' : ¬ ∃ a ∈ adj, a ∉ X.cols := by
    push Not
    exact h3
  rw [e] at h hT
  unfold fit
  rw [if_neg (not_not.2 h1), if_neg (not_not.2 h2), if_neg h3']
  by_cases h4 : adj = []
  · rw [if_pos h4] at h hT
    simp only [Except.ok.injEq] at h
    subst h
    have hE := makeModel_deref objs dE S T (X.data cause :: adj.map X.data) (X.data effect) (X.cat effect) me fun i hi => hT i (Or.inr hi)
    simp only [if_pos h4]
    refine ⟨_, rfl, fun endog exog umC umE => ?_⟩
    rw [generateGen_eq (fun m hm => by simp at hm) (by simpa using hE.2)]
    simp only [Gen.view, hE.1, makeModel_resid, Option.map_none]
  · rw [if_neg h4] at h hT
    simp only [Except.ok.injEq] at h
    subst h
    have hE := makeModel_deref objs dE (makeModel objs dC S (adj.map X.data) (X.data cause) (X.cat cause) mc).1 T (X.data cause :: adj.map X.data)
      (X.data effect) (X.cat effect) me fun i hi => hT i (Or.inr hi)
    have hC := makeModel_deref objs dC S T (adj.map X.data) (X.data cause) (X.cat cause) mc fun i hi => by
      rw [hT i (Or.inl hi)]
      simp only
      cases hme : me with
      | none => rfl
      | some k =>
        have hk : i ≠ k := fun hik => hne i hi (by rw [hme, hik])
        simp only [makeModel, if_neg hk]
    simp only [if_neg h4]
    refine ⟨_, rfl, fun endog exog umC umE => ?_⟩
    rw [generateGen_eq (fun m hm => by cases hm; simpa using hC.2) (by simpa using hE.2)]
    simp only [Gen.view, hE.1, hC.1, makeModel_resid, Option.map_some]

/-- **C253 (violated), one estimator for both equations.** If one object is passed as `model_cause` and as `model_effect`, the training for the effect
overwrites that for the cause: `fit` succeeds, but every `generate` that has to compute the cause raises `ValueError`. -/
theorem C253_shared {S : Store K} {X : Frame K} {cause effect : Nat} {adj : List Nat} (hadj : adj ≠ []) {i : Nat} {g : Gen K}
    (h : (fitGen objs dC dE S X cause effect adj (some i) (some i)).2 = .ok g) (endog exog : List (Nat × Col K)) (hend : look endog cause = none)
    (umE : Option (UserModel K)) :
    generateGen (fitGen objs dC dE S X cause effect adj (some i) (some i)).1 g endog exog none umE = .error (.base .valueError) := by
  obtain ⟨h1, h2, h3, e⟩ := fitGen_ok objs dC dE h
  rw [e] at h ⊢
  rw [if_neg hadj] at h ⊢
  simp only [Except.ok.injEq] at h
  subst h
  unfold generateGen
  split
  · rfl
  · rw [if_pos]
    refine ⟨hend, rfl, _, rfl, ?_⟩
    simp [makeModel, takes]

/-- **C253 (violated), estimators used again.** Later training of the object that was passed for the effect, for instance in another generator, on the
same number of columns changes the generator: without interventions the effect is the old residual plus the new prediction, so that the data are
reproduced only if old and new predictions agree. -/
theorem C253_reused {S : Store K} {X : Frame K} {cause effect : Nat} {adj : List Nat} {mc : Option Nat} {i : Nat} {g : Gen K}
    (h : (fitGen objs dC dE S X cause effect adj mc (some i)).2 = .ok g) (hp : Proper X cause effect adj)
    (hcols : ∀ v ∈ X.cols, v = cause ∨ v = effect ∨ v ∈ adj) (he : X.cat effect = false) (T : Store K) (p : Predictor K)
    (hi : T i = some (adj.length + 1, p)) (hne : mc ≠ some i)
    (hT : ∀ j, mc = some j → T j = (fitGen objs dC dE S X cause effect adj mc (some i)).1 j) (hadj : adj ≠ []) (hc : X.cat cause = false)
    (hfp : Finite p (X.data cause :: adj.map X.data))
    (hfc : Finite (trainer objs dC mc (adj.map X.data) (X.data cause)) (adj.map X.data))
    (hfe : Finite ((objs i).fit (X.data cause :: adj.map X.data) (X.data effect)) (X.data cause :: adj.map X.data)) :
    ∃ c, generateGen T g [] [] none none = .ok c ∧ c cause = X.data cause ∧ (∀ a ∈ adj, c a = X.data a) ∧
      c effect = cadd (csub (X.data effect) ((objs i).fit (X.data cause :: adj.map X.data) (X.data effect) (X.data cause :: adj.map X.data)))
        (p (X.data cause :: adj.map X.data)) ∧
      (c effect = X.data effect ↔
        p (X.data cause :: adj.map X.data) = (objs i).fit (X.data cause :: adj.map X.data) (X.data effect) (X.data cause :: adj.map X.data)) := by
  obtain ⟨h1, h2, h3, e⟩ := fitGen_ok objs dC dE h
  have hg : g.X = X ∧ g.cause = cause ∧ g.effect = effect ∧ g.adj = adj ∧ g.modelE = .user i ∧
      g.errE = csub (X.data effect) ((objs i).fit (X.data cause :: adj.map X.data) (X.data effect) (X.data cause :: adj.map X.data)) ∧
      g.errC = csub (X.data cause) (trainer objs dC mc (adj.map X.data) (X.data cause) (adj.map X.data)) ∧
      ∃ m, g.modelC = some m ∧ deref T m = trainer objs dC mc (adj.map X.data) (X.data cause) ∧ takes T adj.length m = true := by
    rw [e] at h hT
    rw [if_neg hadj] at h hT
    simp only [Except.ok.injEq] at h
    subst h
    have hC := makeModel_deref objs dC S T (adj.map X.data) (X.data cause) (X.cat cause) mc fun j hj => by
      rw [hT j hj]
      have hk : j ≠ i := fun hik => hne (by rw [hj, hik])
      simp only [makeModel, if_neg hk]
    refine ⟨rfl, rfl, rfl, rfl, rfl, by simp [makeModel, resid, he], ?_, _, rfl, hC.1, by simpa using hC.2⟩
    simp only [makeModel_resid, resid, hc]
    rfl
  clear h e hT
  obtain ⟨gX, gc, ge, ga, gmC, gmE, gec, gee⟩ := g
  simp only at hg
  obtain ⟨rfl, rfl, rfl, rfl, rfl, rfl, rfl, m, rfl, hm1, hm2⟩ := hg
  set u := trainer objs dC mc (ga.map gX.data) (gX.data gc) with hu
  set xs := gX.data gc :: ga.map gX.data with hxs
  set q := (objs i).fit xs (gX.data ge) with hq
  set f := (⟨gX, gc, ge, ga, some u, p, csub (gX.data gc) (u (ga.map gX.data)), csub (gX.data ge) (q xs)⟩ : Fitted K) with hf
  have hview : Gen.view ⟨gX, gc, ge, ga, some m, .user i, csub (gX.data gc) (u (ga.map gX.data)), csub (gX.data ge) (q xs)⟩ T = f := by
    simp only [Gen.view, Option.map_some, hm1]
    simp only [deref, hi, hf]
  have hst : start f [] = setCol (setCol gX.data gc (csub (gX.data gc) (u (ga.map gX.data)))) ge (csub (gX.data ge) (q xs)) := rfl
  have hadjm : ga.map (start f []) = ga.map gX.data := by
    rw [hst, map_setCol _ _ _ _ hp.ea, map_setCol _ _ _ _ hp.ca]
  have hstc : start f [] gc = csub (gX.data gc) (u (ga.map gX.data)) := by
    rw [hst, setCol_ne _ _ _ _ hp.ce, setCol_self]
  have hgc : genCause f [] none (start f []) = .ok (gX.data gc) := by
    simp only [genCause, look, List.find?_nil, Option.map_none]
    change Except.ok (if gX.cat gc then u (ga.map (start f [])) else cadd (start f [] gc) (u (ga.map (start f [])))) = _
    rw [hc, hadjm, hstc]
    exact congrArg Except.ok (cadd_resid _ _ hfc (hp.noNan gc h1))
  have hge : genEffect f [] none (setCol (start f []) gc (gX.data gc)) = cadd (csub (gX.data ge) (q xs)) (p xs) := by
    have e1 : setCol (start f []) gc (gX.data gc) gc = gX.data gc := setCol_self _ _ _
    have e2 : ga.map (setCol (start f []) gc (gX.data gc)) = ga.map gX.data := by
      rw [map_setCol _ _ _ _ hp.ca, hadjm]
    have e3 : setCol (start f []) gc (gX.data gc) ge = csub (gX.data ge) (q xs) := by
      rw [setCol_ne _ _ _ _ (Ne.symm hp.ce), hst, setCol_self]
    simp only [genEffect, look, List.find?_nil, Option.map_none]
    change (if gX.cat ge then _ else cadd (setCol (start f []) gc (gX.data gc) ge)
      (p (setCol (start f []) gc (gX.data gc) gc :: ga.map (setCol (start f []) gc (gX.data gc))))) = _
    rw [he, e1, e2, e3]
    rfl
  have hnames : ¬ ∃ v ∈ gX.cols, v ∉ f.names := by
    push Not
    intro v hv
    simp only [Fitted.names, List.mem_cons]
    exact hcols v hv
  have hgen : generate f [] [] none none =
      .ok (setCol (setCol (start f []) gc (gX.data gc)) ge (cadd (csub (gX.data ge) (q xs)) (p xs))) := by
    unfold generate
    rw [if_neg (by simp)]
    simp only [hgc]
    change (if ∃ v ∈ gX.cols, v ∉ f.names then _ else _) = _
    rw [if_neg hnames]
    change Except.ok (setCol (setCol (start f []) gc (gX.data gc)) ge (genEffect f [] none (setCol (start f []) gc (gX.data gc)))) = _
    rw [hge]
  refine ⟨setCol (setCol (start f []) gc (gX.data gc)) ge (cadd (csub (gX.data ge) (q xs)) (p xs)), ?_, ?_, ?_, ?_, ?_⟩
  · unfold generateGen
    rw [hview, if_neg (by simp), if_neg (by
      rintro ⟨-, -, m', hm', h⟩
      cases hm'
      rw [hm2] at h
      cases h)]
    simp only [hgc]
    rw [if_neg, hgen]
    rintro ⟨-, -, h⟩
    simp [takes, hi] at h
  · rw [setCol_ne _ _ _ _ hp.ce, setCol_self]
  · intro a ha
    have n1 : a ≠ ge := fun e => hp.ea (e ▸ ha)
    have n2 : a ≠ gc := fun e => hp.ca (e ▸ ha)
    rw [setCol_ne _ _ _ _ n1, setCol_ne _ _ _ _ n2, hst, setCol_ne _ _ _ _ n1, setCol_ne _ _ _ _ n2]
  · rw [setCol_self]
  · rw [setCol_self]
    constructor
    · intro h
      funext r
      have hr := congrFun h r
      have hy := hp.noNan ge h2 r
      have hpr := hfp r
      have hqr := hfe r
      unfold cadd csub at hr
      cases ey : gX.data ge r with
      | none => exact absurd ey hy
      | some y =>
        cases ep : p xs r with
        | none => exact absurd ep hpr
        | some a =>
          cases eq : q xs r with
          | none => exact absurd eq hqr
          | some b =>
            simp only [ey, ep, eq, Option.map_some, Option.bind_some, Option.some.injEq] at hr ⊢
            have : y - b + a = y := hr
            have h' : a - b = 0 := by
              have : a - b = (y - b + a) - y := by ring
              rw [this, hr, sub_self]
            exact sub_eq_zero.1 h'
    · intro h
      rw [h]
      exact cadd_resid _ _ hfe (hp.noNan ge h2)

/-- **C253 (violated), estimators trained on other columns.** After the object passed for the cause, or for the effect, has been trained on
another number of columns, `generate` fails whenever it has to compute the cause, or the effect. -/
theorem C253_other_columns {S : Store K} {X : Frame K} {cause effect : Nat} {adj : List Nat} {mc me : Option Nat} {g : Gen K}
    (h : (fitGen objs dC dE S X cause effect adj mc me).2 = .ok g) (T : Store K) {i w : Nat} {p : Predictor K} (hi : T i = some (w, p))
    (endog exog : List (Nat × Col K)) (um : Option (UserModel K)) :
    (mc = some i → adj ≠ [] → w ≠ adj.length → look endog cause = none → generateGen T g endog exog none um = .error (.base .valueError)) ∧
    (me = some i → w ≠ adj.length + 1 → look endog effect = none → ∀ c, generateGen T g endog exog um none ≠ .ok c) := by
  obtain ⟨-, -, -, e⟩ := fitGen_ok objs dC dE h
  rw [e] at h
  constructor
  · rintro rfl hadj hw hend
    rw [if_neg hadj] at h
    simp only [Except.ok.injEq] at h
    subst h
    unfold generateGen
    split
    · rfl
    · rw [if_pos]
      refine ⟨hend, rfl, _, rfl, ?_⟩
      simp [makeModel, takes, hi, hw]
  · rintro rfl hw hend c
    have hg : g.effect = effect ∧ g.adj = adj ∧ g.modelE = .user i := by
      by_cases hadj : adj = []
      · rw [if_pos hadj] at h
        simp only [Except.ok.injEq] at h
        subst h
        exact ⟨rfl, rfl, rfl⟩
      · rw [if_neg hadj] at h
        simp only [Except.ok.injEq] at h
        subst h
        exact ⟨rfl, rfl, rfl⟩
    unfold generateGen
    split
    · exact fun h => (nomatch h)
    · split
      · exact fun h => (nomatch h)
      · split
        · exact fun h => (nomatch h)
        · rw [if_pos]
          · exact fun h => (nomatch h)
          · refine ⟨by rw [hg.1]; exact hend, rfl, ?_⟩
            rw [hg.2.1, hg.2.2]
            simp [takes, hi, hw]

/-- **C253, missing columns.** With estimators of the right kind, an adjustment column that does not exist raises `KeyError`; and a `fit` that
raises anything has trained no estimator. -/
theorem C253_missing_columns (S : Store K) (X : Frame K) (cause effect : Nat) (adj : List Nat) (mc me : Option Nat) :
    (cause ∈ X.cols → effect ∈ X.cols → (∀ i, mc = some i → RightKind (objs i) (X.cat cause)) → (∀ i, me = some i → RightKind (objs i) (X.cat effect)) →
      (∃ a ∈ adj, a ∉ X.cols) → (fitGen objs dC dE S X cause effect adj mc me).2 = .error (.base .keyError)) ∧
    ∀ e, (fitGen objs dC dE S X cause effect adj mc me).2 = .error e → (fitGen objs dC dE S X cause effect adj mc me).1 = S := by
  constructor
  · intro hc he h1 h2 h3
    unfold fitGen
    rw [if_neg (not_not.2 hc), if_neg (not_not.2 he)]
    simp only [(checkOpt_iff objs (X.cat cause) mc).2 h1, (checkOpt_iff objs (X.cat effect) me).2 h2, if_pos h3]
  · intro e h
    unfold fitGen at h ⊢
    by_cases h1 : cause ∉ X.cols
    · rw [if_pos h1]
    rw [if_neg h1] at h ⊢
    by_cases h2 : effect ∉ X.cols
    · rw [if_pos h2]
    rw [if_neg h2] at h ⊢
    cases hc : checkOpt objs (X.cat cause) mc with
    | error _ => rfl
    | ok u =>
      cases he : checkOpt objs (X.cat effect) me with
      | error _ => rfl
      | ok v =>
        simp only [hc, he] at h ⊢
        by_cases h3 : ∃ a ∈ adj, a ∉ X.cols
        · rw [if_pos h3]
        rw [if_neg h3] at h
        by_cases h4 : adj = []
        · rw [if_pos h4] at h; cases h
        · rw [if_neg h4] at h; cases h

/-- **C253 (partial), drawing.** `visualize_nonlinear_causal_effect` refuses with `TypeError` a regressor for a categorical effect and a classifier for a numeric
one, and with `RuntimeError` a classifier without `predict_proba`; every other estimator passes the check, in particular (violation) an estimator
without `predict_proba` for a categorical effect if it is neither a classifier nor a regressor. -/
theorem C253_drawing_partial (E : Est K) (disc : Bool) :
    (checkVisual E disc = .error .type ↔ (disc = true ∧ E.regressor = true) ∨ (disc = false ∧ E.classifier = true)) ∧
    (checkVisual E disc = .error .runtime ↔ disc = true ∧ E.regressor = false ∧ E.classifier = true ∧ E.proba = false) ∧
    (E.regressor = false → E.classifier = false → checkVisual E true = .ok ()) ∧
    (E.regressor = false → E.classifier = false → E.proba = false → checkEst E true = .error .runtime) := by
  obtain ⟨r, c, p, f⟩ := E
  cases disc <;> cases r <;> cases c <;> cases p <;> simp [checkVisual, checkEst]

/-! ### Examples -/

/-- Three numeric columns 0, 1, 2. -/
def exFrame3 : Frame ℚ := ⟨[0, 1, 2], fun v r => some ((v : ℚ) + r), fun _ => false⟩

/-- A regressor that predicts its first input. -/
def exEst : Est ℚ := ⟨true, false, false, fun _ _ xs => xs.headD (fun _ => none)⟩

/-- Two objects of this kind are accepted. -/
example : ∃ g, (fitGen (fun _ => exEst) (fun _ _ _ _ => none) (fun _ _ _ _ => none) (fun _ => none) exFrame3 0 1 [2] (some 7) (some 8)).2 = .ok g :=
  (C253_kinds (fun _ => exEst) _ _ _ (by decide) (by decide) (by decide) _ _).1.2 ⟨fun _ _ => rfl, fun _ _ => rfl⟩

/-- The same object for both: `fit` succeeds and `generate()` raises. -/
example : ∃ g, (fitGen (fun _ => exEst) (fun _ _ _ _ => none) (fun _ _ _ _ => none) (fun _ => none) exFrame3 0 1 [2] (some 7) (some 7)).2 = .ok g ∧
    generateGen (fitGen (fun _ => exEst) (fun _ _ _ _ => none) (fun _ _ _ _ => none) (fun _ => none) exFrame3 0 1 [2] (some 7) (some 7)).1 g
      [] [] none none = .error (.base .valueError) := by
  obtain ⟨g, hg⟩ := (C253_kinds (fun _ => exEst) (fun _ _ _ _ => none) (fun _ _ _ _ => none) (fun _ => none) (X := exFrame3) (cause := 0) (effect := 1)
    (adj := [2]) (by decide) (by decide) (by decide) (some 7) (some 7)).1.2 ⟨fun _ _ => rfl, fun _ _ => rfl⟩
  exact ⟨g, hg, C253_shared (fun _ => exEst) _ _ (by simp) hg [] [] rfl none⟩

theorem exFrame3_proper : Proper exFrame3 0 1 [2] := ⟨fun _ _ _ h => by simp [exFrame3] at h, by decide, by decide, by decide⟩

theorem ex_kinds (mc me : Option Nat) :
    ∃ g, (fitGen (fun _ => exEst) (fun _ _ _ _ => none) (fun _ _ _ _ => none) (fun _ => none) exFrame3 0 1 [2] mc me).2 = .ok g :=
  (C253_kinds (fun _ => exEst) _ _ _ (by decide) (by decide) (by decide) _ _).1.2 ⟨fun _ _ => rfl, fun _ _ => rfl⟩

/-- Two objects: `generate()` returns the data. -/
example : ∃ g c, (fitGen (fun _ => exEst) (fun _ _ _ _ => none) (fun _ _ _ _ => none) (fun _ => none) exFrame3 0 1 [2] (some 7) (some 8)).2 = .ok g ∧
    generateGen (fitGen (fun _ => exEst) (fun _ _ _ _ => none) (fun _ _ _ _ => none) (fun _ => none) exFrame3 0 1 [2] (some 7) (some 8)).1 g
      [] [] none none = .ok c ∧ ∀ v ∈ exFrame3.cols, c v = exFrame3.data v := by
  obtain ⟨g, hg⟩ := ex_kinds (some 7) (some 8)
  obtain ⟨f, hf, h⟩ := C253_separate_partial (fun _ => exEst) _ _ hg (fun i hi h => by cases hi; simp at h) _ (fun _ _ => rfl)
  obtain ⟨c, h1, h2⟩ := C46_reproduces_partial _ _ hf exFrame3_proper rfl rfl (by simp) (by decide)
    (fun r h => by simp [trainer, exEst, exFrame3] at h) (fun r h => by simp [trainer, exEst, exFrame3] at h)
  refine ⟨g, c, hg, ?_, h2⟩
  rw [h, h1]

/-- The object passed for the effect is trained again on one column: `generate()` fails; a missing adjustment column raises `KeyError`. -/
example : (∃ g, (fitGen (fun _ => exEst) (fun _ _ _ _ => none) (fun _ _ _ _ => none) (fun _ => none) exFrame3 0 1 [2] (some 7) (some 8)).2 = .ok g ∧
    ∀ c, generateGen (fun _ => some (1, fun xs => xs.getD 0 (fun _ => none))) g [] [] none none ≠ .ok c) ∧
    (fitGen (fun _ => exEst) (fun _ _ _ _ => none) (fun _ _ _ _ => none) (fun _ => none) exFrame3 0 1 [2, 5] (some 7) (some 8)).2 =
      .error (.base .keyError) := by
  obtain ⟨g, hg⟩ := ex_kinds (some 7) (some 8)
  exact ⟨⟨g, hg, (C253_other_columns (fun _ => exEst) _ _ hg (fun _ => some (1, fun xs => xs.getD 0 (fun _ => none))) rfl [] [] none).2 rfl (by simp) rfl⟩,
    (C253_missing_columns (fun _ => exEst) _ _ _ exFrame3 0 1 [2, 5] _ _).1 (by decide) (by decide) (fun _ _ => rfl) (fun _ _ => rfl) ⟨5, by decide, by decide⟩⟩

/-- The object passed for the effect is trained again and now predicts the adjustment variable: the effect changes. -/
example : ∃ g c, (fitGen (fun _ => exEst) (fun _ _ _ _ => none) (fun _ _ _ _ => none) (fun _ => none) exFrame3 0 1 [2] (some 7) (some 8)).2 = .ok g ∧
    generateGen (fun j => if j = 8 then some (2, fun xs => xs.getD 1 (fun _ => none)) else
      (fitGen (fun _ => exEst) (fun _ _ _ _ => none) (fun _ _ _ _ => none) (fun _ => none) exFrame3 0 1 [2] (some 7) (some 8)).1 j) g
      [] [] none none = .ok c ∧ c 1 ≠ exFrame3.data 1 := by
  obtain ⟨g, hg⟩ := ex_kinds (some 7) (some 8)
  obtain ⟨c, h1, -, -, -, h2⟩ := C253_reused (fun _ => exEst) _ _ hg exFrame3_proper (by decide) rfl
    (fun j => if j = 8 then some (2, fun xs => xs.getD 1 (fun _ => none)) else
      (fitGen (fun _ => exEst) (fun _ _ _ _ => none) (fun _ _ _ _ => none) (fun _ => none) exFrame3 0 1 [2] (some 7) (some 8)).1 j)
    (fun xs => xs.getD 1 (fun _ => none)) rfl (by simp) (fun j hj => by cases hj; rfl) (by simp) rfl
    (fun r h => by simp [exFrame3] at h) (fun r h => by simp [trainer, exEst, exFrame3] at h) (fun r h => by simp [exEst, exFrame3] at h)
  refine ⟨g, c, hg, h1, fun h => ?_⟩
  have := congrFun (h2.1 h) 0
  simp [exEst, exFrame3] at this

end Verif.Cdg
