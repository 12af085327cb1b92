import Verif.Model.Cdg

/-!
Model of how `CausalDataGenerator` (`/repo/lingam/experimental/cdg.py`) treats the estimators passed by the user.  They are objects: `fit` trains the
object itself and keeps a reference to it, and `generate` calls whatever the object is at that time.  Objects have numbers; the store holds the trained
state of every object.  An estimator of scikit-learn raises `ValueError` for another number of input columns than it was trained on.  The check of the
estimator in `lingam/utils/_visualize_nonlinear_causal_effect.py` is included.  Training raises no exceptions.
-/
set_option autoImplicit false
namespace Verif.Cdg

variable {K : Type} [Field K]

/-- What the code asks about an estimator, and what training does.  lingam/experimental/cdg.py:277-303. -/
structure Est (K : Type) where
  regressor : Bool
  classifier : Bool
  proba : Bool
  fit : List (Col K) → Col K → Predictor K

/-- The trained state of the objects of the user: the number of input columns and the predictions; `none` before training.
lingam/experimental/cdg.py:297-303. -/
abbrev Store (K : Type) := Nat → Option (Nat × Predictor K)

/-- Exceptions.  lingam/experimental/cdg.py:278-295. -/
inductive Exc
  | type
  | runtime
  | base (e : Err)
deriving DecidableEq

/-- `_is_sklearn_estimator`.  lingam/experimental/cdg.py:277-295. -/
def checkEst (E : Est K) (cat : Bool) : Except Exc Unit :=
  if cat && E.regressor then .error .type
  else if !cat && E.classifier then .error .type
  else if cat && !E.proba then .error .runtime
  else .ok ()

/-- `_check_estimator`.  lingam/utils/_visualize_nonlinear_causal_effect.py:169-183. -/
def checkVisual (E : Est K) (disc : Bool) : Except Exc Unit :=
  if disc && E.regressor then .error .type
  else if !disc && E.classifier then .error .type
  else if E.classifier && !E.proba then .error .runtime
  else .ok ()

/-- A model kept by the generator: its own (made by default) or an object of the user.  lingam/experimental/cdg.py:297-329. -/
inductive Ref (K : Type)
  | own (p : Predictor K)
  | user (i : Nat)

/-- The attributes of a fitted generator.  lingam/experimental/cdg.py:119-129. -/
structure Gen (K : Type) where
  X : Frame K
  cause : Nat
  effect : Nat
  adj : List Nat
  modelC : Option (Ref K)
  modelE : Ref K
  errC : Col K
  errE : Col K

/-- `_make_model`: trains the object that is passed, or a new one.  Returns the store, the reference and the residuals.
lingam/experimental/cdg.py:297-329. -/
def makeModel (objs : Nat → Est K) (dflt : List (Col K) → Col K → Predictor K) (S : Store K) (xs : List (Col K)) (y : Col K) (cat : Bool) :
    Option Nat → Store K × Ref K × Col K
  | some i => (fun k => if k = i then some (xs.length, (objs i).fit xs y) else S k, .user i, resid cat y ((objs i).fit xs y xs))
  | none => (S, .own (dflt xs y), resid cat y (dflt xs y xs))

/-- The check of an optional estimator.  lingam/experimental/cdg.py:95-101. -/
def checkOpt (objs : Nat → Est K) (cat : Bool) : Option Nat → Except Exc Unit
  | some i => checkEst (objs i) cat
  | none => .ok ()

/-- `fit`: the store afterwards and the generator or the exception.  `mc` and `me` are the objects passed as `model_cause` and `model_effect`.
lingam/experimental/cdg.py:76-131. -/
def fitGen (objs : Nat → Est K) (dC dE : List (Col K) → Col K → Predictor K) (S : Store K) (X : Frame K) (cause effect : Nat) (adj : List Nat)
    (mc me : Option Nat) : Store K × Except Exc (Gen K) :=
  if cause ∉ X.cols then (S, .error (.base .valueError))
  else if effect ∉ X.cols then (S, .error (.base .valueError))
  else match checkOpt objs (X.cat cause) mc with
    | .error e => (S, .error e)
    | .ok _ => match checkOpt objs (X.cat effect) me with
      | .error e => (S, .error e)
      | .ok _ =>
        if ∃ a ∈ adj, a ∉ X.cols then (S, .error (.base .keyError))
        else
          let zs := adj.map X.data
          let xs := X.data cause :: zs
          if adj = [] then
            let E := makeModel objs dE S xs (X.data effect) (X.cat effect) me
            (E.1, .ok ⟨X, cause, effect, adj, none, E.2.1, X.data cause, E.2.2⟩)
          else
            let C := makeModel objs dC S zs (X.data cause) (X.cat cause) mc
            let E := makeModel objs dE C.1 xs (X.data effect) (X.cat effect) me
            (E.1, .ok ⟨X, cause, effect, adj, some C.2.1, E.2.1, C.2.2, E.2.2⟩)

/-- What a reference predicts now.  lingam/experimental/cdg.py:217, 220, 255, 260. -/
def deref (S : Store K) : Ref K → Predictor K
  | .own p => p
  | .user i => match S i with
    | some (_, p) => p
    | none => fun _ _ => none

/-- Whether the model accepts `w` input columns now.  lingam/experimental/cdg.py:217, 220, 255, 260. -/
def takes (S : Store K) (w : Nat) : Ref K → Bool
  | .own _ => true
  | .user i => match S i with
    | some (k, _) => decide (k = w)
    | none => false

/-- The generator as seen through the store.  lingam/experimental/cdg.py:188-260. -/
def Gen.view (g : Gen K) (S : Store K) : Fitted K :=
  ⟨g.X, g.cause, g.effect, g.adj, g.modelC.map (deref S), deref S g.modelE, g.errC, g.errE⟩

/-- `generate` with the objects as they are now.  lingam/experimental/cdg.py:133-275. -/
def generateGen (S : Store K) (g : Gen K) (endog exog : List (Nat × Col K)) (umC umE : Option (UserModel K)) : Except Exc (Nat → Col K) :=
  if ∃ e ∈ endog ++ exog, e.1 ∉ (g.view S).names then .error (.base .valueError)
  else if look endog g.cause = none ∧ umC = none ∧ (∃ m ∈ g.modelC, takes S g.adj.length m = false) then .error (.base .valueError)
  else match genCause (g.view S) endog umC (start (g.view S) exog) with
    | .error e => .error (.base e)
    | .ok _ =>
      if look endog g.effect = none ∧ umE = none ∧ takes S (g.adj.length + 1) g.modelE = false then .error (.base .valueError)
      else match generate (g.view S) endog exog umC umE with
        | .error e => .error (.base e)
        | .ok c => .ok c

end Verif.Cdg
