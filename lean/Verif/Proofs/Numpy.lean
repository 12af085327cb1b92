import Verif.Model.Numpy
import Mathlib.Tactic.Linarith

/-! Facts about `argmax`. -/
set_option autoImplicit false
set_option linter.unusedSectionVars false
namespace Verif

variable {K : Type} [Field K] [LinearOrder K] [IsStrictOrderedRing K]

theorem argmaxGo_lt : ∀ (xs : List (Option K)) (i bi : Nat) (b : Option K), bi < i →
    argmaxGo i bi b xs < i + xs.length
  | [], i, bi, b, h => by simp [argmaxGo]; omega
  | x :: xs, i, bi, none, h => by simp [argmaxGo]; omega
  | none :: xs, i, bi, some v, h => by simp [argmaxGo]
  | some w :: xs, i, bi, some v, h => by
    have h1 := argmaxGo_lt xs (i + 1) i (some w) (by omega)
    have h2 := argmaxGo_lt xs (i + 1) bi (some v) (by omega)
    simp only [argmaxGo, List.length_cons]
    split <;> omega

theorem argmax_nil : argmax ([] : List (Option K)) = none := rfl

theorem argmax_eq_none {l : List (Option K)} : argmax l = none ↔ l = [] := by
  cases l <;> simp [argmax]

theorem argmax_lt {l : List (Option K)} {i : Nat} (h : argmax l = some i) : i < l.length := by
  cases l with
  | nil => simp [argmax] at h
  | cons x xs =>
    simp only [argmax, Option.some.injEq] at h
    have := argmaxGo_lt xs 1 0 x (by omega)
    simp; omega

theorem argmin_eq_none {l : List (Option K)} : argmin l = none ↔ l = [] := by
  simp [argmin, argmax_eq_none]

theorem argmin_lt {l : List (Option K)} {i : Nat} (h : argmin l = some i) : i < l.length := by
  have := argmax_lt h; simpa using this

/-- Scan invariant without NaN: the result dominates everything, strictly everything before it. -/
theorem argmaxGo_spec : ∀ (xs : List K) (pre : List K) (bi : Nat) (v : K), pre[bi]? = some v →
    (∀ j w, pre[j]? = some w → w ≤ v ∧ (j < bi → w < v)) →
    ∃ m, (pre ++ xs)[argmaxGo pre.length bi (some v) (xs.map some)]? = some m ∧
      ∀ j w, (pre ++ xs)[j]? = some w →
        w ≤ m ∧ (j < argmaxGo pre.length bi (some v) (xs.map some) → w < m)
  | [], pre, bi, v, h, hd => by
    refine ⟨v, ?_, ?_⟩
    · simpa [argmaxGo] using h
    · intro j w hj; simpa [argmaxGo] using hd j w (by simpa using hj)
  | x :: xs, pre, bi, v, h, hd => by
    have hbi : bi < pre.length := by
      by_contra hc
      rw [List.getElem?_eq_none (by omega)] at h; cases h
    have e : pre ++ x :: xs = (pre ++ [x]) ++ xs := by simp
    simp only [List.map_cons, argmaxGo]
    by_cases hx : v < x
    · have ih := argmaxGo_spec xs (pre ++ [x]) pre.length x (by simp) (by
        intro j w hj
        rcases Nat.lt_trichotomy j pre.length with hl | hl | hl
        · rw [List.getElem?_append_left hl] at hj
          have := (hd j w hj).1
          exact ⟨by linarith, fun _ => by linarith⟩
        · subst hl; simp at hj; subst hj; exact ⟨le_refl _, fun h => absurd h (by omega)⟩
        · rw [List.getElem?_eq_none (by simp; omega)] at hj; cases hj)
      rw [if_pos hx, e]
      simpa using ih
    · have ih := argmaxGo_spec xs (pre ++ [x]) bi v (by rw [List.getElem?_append_left hbi]; exact h) (by
        intro j w hj
        rcases Nat.lt_trichotomy j pre.length with hl | hl | hl
        · rw [List.getElem?_append_left hl] at hj
          exact hd j w hj
        · subst hl; simp at hj; subst hj; exact ⟨not_lt.1 hx, fun h => absurd h (by omega)⟩
        · rw [List.getElem?_eq_none (by simp; omega)] at hj; cases hj)
      rw [if_neg hx, e]
      simpa using ih

/-- Without NaN, `argmax` gives the first position of the maximum. -/
theorem argmax_spec {l : List K} {i : Nat} (h : argmax (l.map some) = some i) :
    ∃ m, l[i]? = some m ∧ ∀ j w, l[j]? = some w → w ≤ m ∧ (j < i → w < m) := by
  cases l with
  | nil => simp [argmax] at h
  | cons x xs =>
    simp only [List.map_cons, argmax, Option.some.injEq] at h
    have := argmaxGo_spec xs [x] 0 x (by simp) (by
      intro j w hj
      cases j with
      | zero => simp at hj; subst hj; exact ⟨le_refl _, fun h => absurd h (by omega)⟩
      | succ j => simp at hj)
    simp only [List.length_singleton, h] at this
    simpa using this

/-- Without NaN, `argmin` gives the first position of the minimum. -/
theorem argmin_spec {l : List K} {i : Nat} (h : argmin (l.map some) = some i) :
    ∃ m, l[i]? = some m ∧ ∀ j w, l[j]? = some w → m ≤ w ∧ (j < i → m < w) := by
  have h' : argmax ((l.map (fun x => -x)).map some) = some i := by
    rw [← h, argmin]; simp [Function.comp_def]
  obtain ⟨m, h1, h2⟩ := argmax_spec h'
  rw [List.getElem?_map] at h1
  obtain ⟨m', hm', rfl⟩ := Option.map_eq_some_iff.1 h1
  refine ⟨m', hm', ?_⟩
  intro j w hj
  have := h2 j (-w) (by simp [hj])
  exact ⟨by linarith [this.1], fun hl => by linarith [this.2 hl]⟩

theorem argmaxGo_nan : ∀ (xs : List (Option K)) (i bi : Nat) (v : K) (k : Nat), xs[k]? = some none →
    (∀ j, j < k → ∃ w, xs[j]? = some (some w)) → argmaxGo i bi (some v) xs = i + k
  | [], _, _, _, _, h, _ => by simp at h
  | none :: xs, i, bi, v, k, h, hj => by
    cases k with
    | zero => rfl
    | succ k =>
      obtain ⟨w, hw⟩ := hj 0 (by omega)
      simp at hw
  | some w :: xs, i, bi, v, k, h, hj => by
    cases k with
    | zero => simp at h
    | succ k =>
      have h' : xs[k]? = some none := by simpa using h
      have hj' : ∀ j, j < k → ∃ w, xs[j]? = some (some w) := fun j hjk => by
        simpa using hj (j + 1) (by omega)
      unfold argmaxGo
      split
      · rw [argmaxGo_nan xs (i + 1) i w k h' hj']; omega
      · rw [argmaxGo_nan xs (i + 1) bi v k h' hj']; omega

/-- `np.argmax` returns the first NaN. -/
theorem argmax_nan (l : List (Option K)) (k : Nat) (h : l[k]? = some none)
    (hj : ∀ j, j < k → ∃ w, l[j]? = some (some w)) : argmax l = some k := by
  cases l with
  | nil => simp at h
  | cons x xs =>
    cases x with
    | none =>
      cases k with
      | zero => cases xs <;> rfl
      | succ k => obtain ⟨w, hw⟩ := hj 0 (by omega); simp at hw
    | some v =>
      cases k with
      | zero => simp at h
      | succ k =>
        show some (argmaxGo 1 0 (some v) xs) = some (k + 1)
        rw [argmaxGo_nan xs 1 0 v k (by simpa using h) (fun j hjk => by simpa using hj (j + 1) (by omega))]
        rw [Nat.add_comm]

/-- What `argmax` returns: the first NaN, or the first maximum when there is no NaN. -/
def FirstBest (l : List (Option K)) (p : Nat) : Prop :=
  (l[p]? = some none ∧ ∀ j, j < p → ∃ w, l[j]? = some (some w)) ∨
  (∃ m, l[p]? = some (some m) ∧ ∀ j x, l[j]? = some x → ∃ w, x = some w ∧ w ≤ m ∧ (j < p → w < m))

theorem firstBest_unique {l : List (Option K)} {p q : Nat} (hp : FirstBest l p) (hq : FirstBest l q) : p = q := by
  rcases hp with ⟨h1, h2⟩ | ⟨m, h1, h2⟩
  · rcases hq with ⟨h3, h4⟩ | ⟨m', h3, h4⟩
    · rcases Nat.lt_trichotomy p q with h | h | h
      · obtain ⟨w, hw⟩ := h4 p h; rw [h1] at hw; cases hw
      · exact h
      · obtain ⟨w, hw⟩ := h2 q h; rw [h3] at hw; cases hw
    · obtain ⟨w, hw, _⟩ := h4 p none h1; cases hw
  · rcases hq with ⟨h3, h4⟩ | ⟨m', h3, h4⟩
    · obtain ⟨w, hw, _⟩ := h2 q none h3; cases hw
    · obtain ⟨w, hw, h5, h6⟩ := h2 q _ h3
      obtain ⟨w', hw', h7, h8⟩ := h4 p _ h1
      cases hw; cases hw'
      rcases Nat.lt_trichotomy p q with h | h | h
      · exact absurd (h8 h) (not_lt.2 h5)
      · exact h
      · exact absurd (h6 h) (not_lt.2 h7)

theorem argmax_firstBest {l : List (Option K)} {p : Nat} (h : argmax l = some p) : FirstBest l p := by
  by_cases hn : ∃ k : Nat, l[k]? = some none
  · classical
    have hk := Nat.find_spec hn
    have hj : ∀ j, j < Nat.find hn → ∃ w, l[j]? = some (some w) := by
      intro j hj
      have hlt : Nat.find hn < l.length := by
        by_contra hc
        rw [List.getElem?_eq_none (by omega)] at hk
        cases hk
      have h1 : l[j]? = some l[j] := List.getElem?_eq_getElem (by omega)
      cases hx : l[j] with
      | none => exact absurd (by rw [h1, hx]) (Nat.find_min hn hj)
      | some w => exact ⟨w, by rw [h1, hx]⟩
    have := argmax_nan l _ hk hj
    rw [h] at this
    cases this
    exact Or.inl ⟨hk, hj⟩
  · have hl : l = (l.map (fun x => x.getD 0)).map some := by
      rw [List.map_map]
      conv_lhs => rw [← List.map_id l]
      refine List.map_congr_left (fun x hx => ?_)
      obtain ⟨i, hi, hxi⟩ := List.getElem_of_mem hx
      cases x with
      | none => exact absurd ⟨i, by rw [List.getElem?_eq_getElem hi, hxi]⟩ hn
      | some x => rfl
    rw [hl] at h
    obtain ⟨m, h1, h2⟩ := argmax_spec h
    refine Or.inr ⟨m, ?_, ?_⟩
    · rw [hl, List.getElem?_map, h1]; rfl
    · intro j x hx
      cases x with
      | none => exact absurd ⟨j, hx⟩ hn
      | some w => exact ⟨w, rfl, h2 j w (by rw [List.getElem?_map, hx]; rfl)⟩

theorem argmax_of_firstBest {l : List (Option K)} {p : Nat} (h : FirstBest l p) : argmax l = some p := by
  cases ha : argmax l with
  | none =>
    rw [argmax_eq_none] at ha
    subst ha
    rcases h with ⟨h, _⟩ | ⟨m, h, _⟩ <;> simp at h
  | some q => rw [firstBest_unique h (argmax_firstBest ha)]

end Verif
