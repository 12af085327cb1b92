import Verif.Model.EffectObject
import Verif.Props.CausalEffect

/-! # CausalEffect over several calls (C209) -/
set_option linter.unusedSectionVars false
set_option autoImplicit false
namespace Verif.Effect

variable {K : Type} [Field K] [LinearOrder K] [IsStrictOrderedRing K]

/-- The outcome that an object created just before the call would give. -/
def freshResult {R : Type} (f : (Nat → Nat → K) → List Nat → R) (src : Source K) : Except CallErr R :=
  ((calls f [src] none).head?).getD (.error .value)

theorem calls_kept {R : Type} (f : (Nat → Nat → K) → List Nat → R) (k : Kept K) : ∀ srcs : List (Source K),
    calls f srcs (some k) = srcs.map (fun src => .ok (f (used src k).1 (used src k).2))
  | [] => rfl
  | src :: srcs => by simp [calls, checkInit, calls_kept f k srcs]

theorem calls_cons {R : Type} (f : (Nat → Nat → K) → List Nat → R) (src : Source K) (srcs : List (Source K)) :
    calls f (src :: srcs) none = freshResult f src :: (calls f (src :: srcs) none).tail := by
  unfold freshResult
  cases h : checkInit src none with
  | error e => simp [calls, h]
  | ok k => simp [calls, h]

/-- The results a model gives: for a fitted LiNGAM object its matrix and order, for a square matrix the order found in it, otherwise
an exception. -/
theorem freshResult_eq {R : Type} (f : (Nat → Nat → K) → List Nat → R) (src : Source K) :
    freshResult f src = match src with
      | .lingam none => .error .type
      | .lingam (some m) => .ok (f m.2 m.1)
      | .array [n, m] B => if n ≠ m then .error .value else (match causalOrder n B with
          | none => .error .value
          | some order => .ok (f B order))
      | .list [n, m] B => if n ≠ m then .error .value else (match causalOrder n B with
          | none => .error .value
          | some order => .ok (f B order))
      | _ => .error .value := by
  unfold freshResult
  rcases src with (_ | m) | ⟨shape, B⟩ | ⟨shape, B⟩ | _
  · simp [calls, checkInit]
  · simp [calls, checkInit, used]
  all_goals first
    | (rcases shape with _ | ⟨n, _ | ⟨m, _ | ⟨k, l⟩⟩⟩
       · simp [calls, checkInit, admit]
       · simp [calls, checkInit, admit]
       · by_cases hnm : n = m
         · subst hnm
           cases ho : causalOrder n B <;> simp [calls, checkInit, admit, ho, used]
         · simp [calls, checkInit, admit, hnm]
       · simp [calls, checkInit, admit])
    | simp [calls, checkInit]

/-- C209, partial: as long as the causal model does not change, every call on the object gives what an object created just before
the call would give.  Missing: models that change, see `C209_refit_violated` and `C209_array_violated`. -/
theorem C209_unchanged_partial {R : Type} (f : (Nat → Nat → K) → List Nat → R) (src : Source K) (m : Nat) :
    calls f (List.replicate m src) none = List.replicate m (freshResult f src) := by
  induction m with
  | zero => rfl
  | succ m ih =>
    rw [List.replicate_succ, List.replicate_succ]
    cases h : checkInit src none with
    | error e =>
      have hf : freshResult f src = .error e := by simp [freshResult, calls, h]
      simp only [calls, h]
      rw [ih, hf]
    | ok k =>
      have hf : freshResult f src = .ok (f (used src k).1 (used src k).2) := by simp [freshResult, calls, h]
      simp only [calls, h]
      rw [calls_kept, hf]
      simp

/-- C209: calls that fail leave no trace: after any number of calls at which the model was unusable (not fitted, cyclic, not square),
the next calls are those of a new object. -/
theorem C209_failed_calls {R : Type} (f : (Nat → Nat → K) → List Nat → R) (bad srcs : List (Source K))
    (hb : ∀ s ∈ bad, ∃ e, freshResult f s = .error e) :
    calls f (bad ++ srcs) none = bad.map (freshResult f) ++ calls f srcs none := by
  induction bad with
  | nil => rfl
  | cons s bad ih =>
    obtain ⟨e, he⟩ := hb s List.mem_cons_self
    have hc : checkInit s none = .error e := by
      cases h : checkInit s none with
      | error e' =>
        have : freshResult f s = .error e' := by simp [freshResult, calls, h]
        rw [this] at he
        cases he
        rfl
      | ok k =>
        have : freshResult f s = .ok (f (used s k).1 (used s k).2) := by simp [freshResult, calls, h]
        rw [this] at he
        cases he
    rw [List.cons_append, List.map_cons, List.cons_append, he]
    simp only [calls, hc]
    rw [ih (fun t ht => hb t (List.mem_cons_of_mem _ ht))]

/-- C209, what happens instead: once a call has succeeded with a fitted LiNGAM object, all later calls use the results it had at that
call, whatever it is fitted to afterwards. -/
theorem C209_later_fits_ignored {R : Type} (f : (Nat → Nat → K) → List Nat → R) (order : List Nat) (B : Nat → Nat → K)
    (later : List (Source K)) :
    calls f (.lingam (some (order, B)) :: later) none = List.replicate (later.length + 1) (.ok (f B order)) := by
  simp only [calls, checkInit]
  rw [calls_kept]
  simp [used, List.replicate_succ, List.map_const']

/-- C209, what happens instead: a list of lists is copied at the first successful call. -/
theorem C209_later_lists_ignored {R : Type} (f : (Nat → Nat → K) → List Nat → R) (n : Nat) (B : Nat → Nat → K)
    {order : List Nat} (ho : causalOrder n B = some order) (later : List (Source K)) :
    calls f (.list [n, n] B :: later) none = List.replicate (later.length + 1) (.ok (f B order)) := by
  simp only [calls, checkInit, admit, ho]
  simp only [ne_eq, not_true_eq_false, if_false]
  rw [calls_kept]
  simp [used, List.replicate_succ, List.map_const']

/-- C209, what happens instead: of an array the entries are read anew at every call, but the order is the one found at the first
call that succeeded, and the check for cycles is not repeated. -/
theorem C209_array_order_kept {R : Type} (f : (Nat → Nat → K) → List Nat → R) (n : Nat) (B : Nat → Nat → K)
    {order : List Nat} (ho : causalOrder n B = some order) (later : List (Nat → Nat → K)) :
    calls f (.array [n, n] B :: later.map (fun C => .array [n, n] C)) none =
      (B :: later).map (fun C => .ok (f C order)) := by
  simp only [calls, checkInit, admit, ho]
  simp only [ne_eq, not_true_eq_false, if_false]
  rw [calls_kept]
  simp [used, Function.comp_def]

/-- The estimated effects on a prediction depend on the order only through the structural equations. -/
theorem effects_order_irrelevant {n : Nat} {B : Nat → Nat → K} {o o' : List Nat} (h : Consistent n B o) (h' : Consistent n B o')
    (Ex std : Nat → K) (target : Nat) (pred : List K → K) (i : Nat) (hi : i < n) :
    effectsOnPrediction n o B Ex std target pred i = effectsOnPrediction n o' B Ex std target pred i := by
  have key : ∀ v, others n target (propagate n o B (noiseMean n B Ex) i v) =
      others n target (propagate n o' B (noiseMean n B Ex) i v) := by
    intro v
    unfold others
    refine List.map_congr_left ?_
    intro k hk
    have hk' : k < n := List.mem_range.1 (List.mem_filter.1 hk).1
    have h1 := C34_solves_uniquely h (noiseMean n B Ex) hi v
    have h2 := C34_solves_uniquely h' (noiseMean n B Ex) hi v
    exact h1.2 _ h2.1 k hk'
  simp only [effectsOnPrediction, key]

/-- C209, partial: changing the coefficients of an array between the calls is harmless as long as the new arrows still point forward
in the order of the first call: the effects are those of a new object.  Missing: arrows against that order. -/
theorem C209_array_forward_partial {n : Nat} {B C : Nat → Nat → K} {o o' : List Nat} (ho : causalOrder n B = some o)
    (ho' : causalOrder n C = some o') (h : Consistent n C o) (h' : Consistent n C o') (Ex std : Nat → K) (target : Nat)
    (pred : List K → K) (i : Nat) (hi : i < n) :
    (calls (fun M order => effectsOnPrediction n order M Ex std target pred i) [.array [n, n] B, .array [n, n] C] none)[1]? =
      some (freshResult (fun M order => effectsOnPrediction n order M Ex std target pred i) (.array [n, n] C)) := by
  have := C209_array_order_kept (fun M order => effectsOnPrediction n order M Ex std target pred i) n B ho [C]
  simp only [List.map_cons, List.map_nil] at this
  rw [this, freshResult_eq]
  simp [ho', effects_order_irrelevant h h' Ex std target pred i hi]

/-- Three variables with one arrow of strength 2. -/
def oneArrow (src tgt : Nat) : Nat → Nat → ℚ := fun i j => if i = tgt ∧ j = src then 2 else 0

/-- The effect of intervening on `x1` on a prediction of `x2` that is `x0`; means `(1, 1, 1)`, standard deviations 1. -/
def effectOfX1 (B : Nat → Nat → ℚ) (order : List Nat) : ℚ × ℚ :=
  effectsOnPrediction 3 order B (fun _ => 1) (fun _ => 1) 2 (fun l => l.headD 0) 1

/-- C209 is violated by a LiNGAM object that is fitted again: at the first call it had found `x0 → x1`, afterwards `x1 → x0`; the
second call still reports that `x1` has no effect, although it now has the effect 2 in the model. -/
theorem C209_refit_violated :
    calls effectOfX1 [.lingam (some ([0, 1, 2], oneArrow 0 1)), .lingam (some ([1, 0, 2], oneArrow 1 0))] none =
        [.ok (0, 0), .ok (0, 0)] ∧
      freshResult effectOfX1 (.lingam (some ([1, 0, 2], oneArrow 1 0))) = .ok (2, 2) := by
  rw [C209_later_fits_ignored, freshResult_eq]
  have h1 : effectOfX1 (oneArrow 0 1) [0, 1, 2] = (0, 0) := by decide +kernel
  have h2 : effectOfX1 (oneArrow 1 0) [1, 0, 2] = (2, 2) := by decide +kernel
  simp [h1, h2, List.replicate_succ]

/-- C209 is violated by an array that is changed in place from `x0 → x1` to `x1 → x0`: the second call uses the new coefficients in
the old order, and reports that `x1` has no effect. -/
theorem C209_array_violated :
    calls effectOfX1 [.array [3, 3] (oneArrow 0 1), .array [3, 3] (oneArrow 1 0)] none = [.ok (0, 0), .ok (0, 0)] ∧
      freshResult effectOfX1 (.array [3, 3] (oneArrow 1 0)) = .ok (2, 2) := by
  have ho : causalOrder 3 (oneArrow 0 1) = some [0, 1, 2] := by decide +kernel
  have ho' : causalOrder 3 (oneArrow 1 0) = some [1, 0, 2] := by decide +kernel
  have h := C209_array_order_kept effectOfX1 3 (oneArrow 0 1) ho [oneArrow 1 0]
  have h1 : effectOfX1 (oneArrow 0 1) [0, 1, 2] = (0, 0) := by decide +kernel
  have h2 : effectOfX1 (oneArrow 1 0) [1, 0, 2] = (2, 2) := by decide +kernel
  have h3 : effectOfX1 (oneArrow 1 0) [0, 1, 2] = (0, 0) := by decide +kernel
  simp only [List.map_cons, List.map_nil, h1, h3] at h
  refine ⟨h, ?_⟩
  rw [freshResult_eq]
  simp [ho', h2]

/-- C209: an array that has become cyclic is refused by a new object but accepted by one that was used before. -/
theorem C209_cycle_unnoticed :
    ∃ r, (calls effectOfX1 [.array [3, 3] (oneArrow 0 1), .array [3, 3] (fun i j => oneArrow 0 1 i j + oneArrow 1 0 i j)] none)[1]? =
        some (.ok r) ∧
      freshResult effectOfX1 (.array [3, 3] (fun i j => oneArrow 0 1 i j + oneArrow 1 0 i j)) = .error .value := by
  have ho : causalOrder 3 (oneArrow 0 1) = some [0, 1, 2] := by decide +kernel
  have hc : causalOrder 3 (fun i j => oneArrow 0 1 i j + oneArrow 1 0 i j) = none := by decide +kernel
  have h := C209_array_order_kept effectOfX1 3 (oneArrow 0 1) ho [fun i j => oneArrow 0 1 i j + oneArrow 1 0 i j]
  simp only [List.map_cons, List.map_nil] at h
  refine ⟨_, by rw [h]; rfl, ?_⟩
  rw [freshResult_eq]
  simp [hc]

/-- A call before `fit` fails and leaves no trace: the two calls after `fit` are those of a new object. -/
example : calls effectOfX1 [.lingam none, .lingam (some ([1, 0, 2], oneArrow 1 0)), .lingam (some ([1, 0, 2], oneArrow 1 0))] none =
    [.error .type, .ok (2, 2), .ok (2, 2)] := by
  have h2 : effectOfX1 (oneArrow 1 0) [1, 0, 2] = (2, 2) := by decide +kernel
  have h := C209_failed_calls effectOfX1 [.lingam none] [.lingam (some ([1, 0, 2], oneArrow 1 0)),
    .lingam (some ([1, 0, 2], oneArrow 1 0))] (by
      intro s hs
      rw [List.mem_singleton] at hs
      subst hs
      exact ⟨.type, by rw [freshResult_eq]⟩)
  have hf : freshResult effectOfX1 (.lingam none) = .error .type := by rw [freshResult_eq]
  simp only [List.cons_append, List.nil_append, List.map_cons, List.map_nil, hf] at h
  rw [h, C209_later_fits_ignored]
  simp [h2, List.replicate_succ]

/-- The hypotheses of `C209_array_forward_partial`: the order of the first call, and the array after another arrow was added. -/
example : causalOrder 3 (oneArrow 0 1) = some [0, 1, 2] ∧ causalOrder 3 exB = some [0, 1, 2] := by
  constructor <;> decide +kernel

end Verif.Effect
