import Verif.Model.SimulatorDiscrete
import Mathlib.Data.List.GetD
import Mathlib.Data.List.Nodup
import Mathlib.Tactic.Ring

/-!
# Which variables CausalBasedSimulator takes for discrete (C218)
-/
set_option linter.unusedSectionVars false
set_option autoImplicit false
namespace Verif.SimNames

/-- The names in `r` are those of the positions with the property `P`. -/
def Marks (names : List Name) (P : Nat → Prop) (r : List Name) : Prop :=
  ∀ k (hk : k < names.length), names[k] ∈ r ↔ P k

theorem mask_marks {names : List Name} (hn : names.Nodup) {m : List Bool} (hl : m.length = names.length) :
    ∃ r, maskNames names m = .ok r ∧ r.Sublist names ∧ Marks names (fun k => m[k]? = some true) r := by
  refine ⟨_, by unfold maskNames; rw [if_neg (not_not.2 hl)], ?_, ?_⟩
  · have : (names.zip m).map Prod.fst = names := List.map_fst_zip hl.ge
    conv_rhs => rw [← this]
    exact List.filter_sublist.map _
  · intro k hk
    simp only [List.mem_map, List.mem_filter, Prod.exists, exists_and_right, exists_eq_right]
    constructor
    · intro hb
      obtain ⟨i, hi, he⟩ := List.mem_iff_getElem.1 hb
      rw [List.getElem_zip, Prod.mk.injEq] at he
      have hi' : i < names.length := by rw [List.length_zip] at hi; omega
      have e : i = k := (hn.getElem_inj_iff).1 he.1
      subst e
      rw [List.getElem?_eq_getElem (by omega), he.2]
    · intro h
      rw [List.getElem?_eq_getElem (by omega)] at h
      refine List.mem_iff_getElem.2 ⟨k, by rw [List.length_zip]; omega, ?_⟩
      rw [List.getElem_zip, Option.some.inj h]

/-- **C218, flags.** For data without time, a list or an array of flags, one per variable, marks exactly the flagged variables;
flags for another number of variables are refused. -/
theorem C218_flags {names : List Name} (hn : names.Nodup) (hne : names ≠ []) (l : List Bool) :
    (l.length = names.length → ∃ r, plainDiscrete names (.bools l) = .ok r ∧ plainDiscrete names (.boolArray l) = .ok r ∧
      r.Sublist names ∧ Marks names (fun k => l[k]? = some true) r) ∧
    (l.length ≠ names.length → l ≠ [] → plainDiscrete names (.bools l) = .error .index ∧ plainDiscrete names (.boolArray l) = .error .index) := by
  constructor
  · intro hl
    obtain ⟨r, h1, h2, h3⟩ := mask_marks hn hl
    have hl0 : l.isEmpty = false := by
      cases l with
      | nil => simp at hl; exact absurd hl.symm (by simpa using hne)
      | cons => rfl
    exact ⟨r, by simp only [plainDiscrete, hl0, h1]; rfl, h1, h2, h3⟩
  · intro hl h0
    have hl0 : l.isEmpty = false := by cases l with | nil => exact absurd rfl h0 | cons => rfl
    have hm : maskNames names l = .error .index := by unfold maskNames; rw [if_pos hl]
    exact ⟨by simp only [plainDiscrete, hl0, hm]; rfl, hm⟩

theorem repeated_length {α : Type} (l : List α) (k : Nat) : (repeated l k).length = k * l.length := by
  unfold repeated
  simp

theorem repeated_get {α : Type} (l : List α) : ∀ (k i j : Nat), i < k → j < l.length → (repeated l k)[i * l.length + j]? = l[j]?
  | 0, _, _, h, _ => by omega
  | k + 1, i, j, hi, hj => by
    have e : repeated l (k + 1) = l ++ repeated l k := by simp [repeated, List.replicate_succ]
    rw [e]
    cases i with
    | zero => rw [Nat.zero_mul, Nat.zero_add, List.getElem?_append_left hj]
    | succ i =>
      rw [List.getElem?_append_right (by rw [Nat.succ_mul]; omega), show (i + 1) * l.length + j - l.length = i * l.length + j by rw [Nat.succ_mul]; omega]
      exact repeated_get l k i j (by omega) hj

/-- **C218, time series.** A list of flags, one per variable, marks exactly the flagged variables, each at all times: name number
`i * n + j` is that of variable `j` at lag `i`. -/
theorem C218_series_flags {names : List Name} (hn : names.Nodup) (L : Nat) {n : Nat} (hne : n ≠ 0) (hlen : names.length = (L + 1) * n) (l : List Bool)
    (hl : l.length = n) :
    ∃ r, seriesDiscrete names L (.bools l) = .ok r ∧ r.Sublist names ∧
      ∀ i j, i ≤ L → j < n → ∃ s, names[i * n + j]? = some s ∧ (s ∈ r ↔ l[j]? = some true) := by
  subst hl
  obtain ⟨r, h1, h2, h3⟩ := mask_marks hn (m := repeated l (L + 1)) (by rw [repeated_length, hlen])
  have hl0 : l.isEmpty = false := by cases l with | nil => simp at hne | cons => rfl
  refine ⟨r, by simp only [seriesDiscrete, hl0, h1]; rfl, h2, fun i j hi hj => ?_⟩
  have hk : i * l.length + j < names.length := by
    rw [hlen]
    calc i * l.length + j < i * l.length + l.length := by omega
      _ = (i + 1) * l.length := by ring
      _ ≤ (L + 1) * l.length := Nat.mul_le_mul_right _ (by omega)
  refine ⟨names[i * l.length + j], List.getElem?_eq_getElem hk, ?_⟩
  rw [h3 _ hk]
  beta_reduce
  rw [repeated_get l (L + 1) i j (by omega) hj]

theorem takeNames_ok {names : List Name} : ∀ {l : List Int} {r : List Name}, takeNames names l = .ok r ↔
    List.Forall₂ (fun k s => takeName names k = .ok s) l r
  | [], r => by
    unfold takeNames
    rw [List.mapM_nil]
    constructor
    · intro h; cases h; exact .nil
    · intro h; cases h; rfl
  | k :: l, r => by
    have ih : ∀ r, takeNames names l = .ok r ↔ List.Forall₂ (fun k s => takeName names k = .ok s) l r := fun r => takeNames_ok
    unfold takeNames at ih ⊢
    rw [List.mapM_cons]
    cases hk : takeName names k with
    | error e =>
      constructor
      · intro h; cases h
      · intro h; cases h with | cons h _ => rw [hk] at h; cases h
    | ok s =>
      cases hm : l.mapM (takeName names) with
      | error e =>
        constructor
        · intro h; cases h
        · intro h; cases h with | cons _ h => rw [← ih, hm] at h; cases h
      | ok t =>
        constructor
        · intro h
          cases h
          exact .cons hk ((ih t).1 hm)
        · intro h
          cases h with
          | @cons _ s' _ t' h1 h2 =>
            rw [hk] at h1
            cases h1
            rw [← ih, hm] at h2
            cases h2
            rfl

theorem takeName_nat {names : List Name} {k : Nat} (hk : k < names.length) : takeName names (k : Int) = .ok names[k] := by
  unfold takeName
  rw [if_pos (by omega), Int.toNat_natCast, List.getElem?_eq_getElem hk]

theorem takeNames_nat {names : List Name} : ∀ (l : List Nat), (∀ k ∈ l, k < names.length) →
    takeNames names (l.map (fun k : Nat => (k : Int))) = .ok (l.map (fun k => names.getD k []))
  | [], _ => rfl
  | k :: l, h => by
    rw [takeNames_ok]
    refine .cons ?_ (takeNames_ok.1 (takeNames_nat l fun x hx => h x (List.mem_cons_of_mem _ hx)))
    have hk := h k List.mem_cons_self
    beta_reduce
    rw [takeName_nat hk, List.getD_eq_getElem _ _ hk]

theorem marks_numbers {names : List Name} (hn : names.Nodup) {l : List Nat} (hl : ∀ k ∈ l, k < names.length) :
    Marks names (fun k => k ∈ l) (l.map (fun k => names.getD k [])) := by
  intro k hk
  rw [List.mem_map]
  constructor
  · rintro ⟨x, hx, he⟩
    rw [List.getD_eq_getElem _ _ (hl x hx)] at he
    rw [← (hn.getElem_inj_iff).1 he]
    exact hx
  · intro h
    exact ⟨k, h, List.getD_eq_getElem _ _ hk⟩

/-- **C218, numbers.** A list of numbers of columns marks exactly these columns; so a list of flags written as 0 and 1 marks the
columns 0 and 1 and no other. -/
theorem C218_numbers {names : List Name} (hn : names.Nodup) {l : List Nat} (hl : ∀ k ∈ l, k < names.length) :
    ∃ r, plainDiscrete names (.ints (l.map (fun k : Nat => (k : Int)))) = .ok r ∧ plainDiscrete names (.intArray (l.map (fun k : Nat => (k : Int)))) = .ok r ∧
      Marks names (fun k => k ∈ l) r :=
  ⟨_, takeNames_nat l hl, takeNames_nat l hl, marks_numbers hn hl⟩

/-- **C218, numbers in time series.** A list of numbers of columns marks these variables at time `t` only: no name of a lagged variable is
marked. -/
theorem C218_series_numbers_partial {names : List Name} (hn : names.Nodup) (L : Nat) {n : Nat} (hlen : names.length = (L + 1) * n) {l : List Nat}
    (hl : ∀ k ∈ l, k < n) :
    ∃ r, seriesDiscrete names L (.ints (l.map (fun k : Nat => (k : Int)))) = .ok r ∧ Marks names (fun k => k ∈ l) r := by
  have hmem : ∀ k, k ∈ repeated l (L + 1) ↔ k ∈ l := by
    intro k
    simp [repeated]
  have hnl : ∀ k ∈ repeated l (L + 1), k < names.length := fun k hk => by
    have := hl k ((hmem k).1 hk)
    rw [hlen]
    calc k < 1 * n := by omega
      _ ≤ (L + 1) * n := Nat.mul_le_mul_right _ (by omega)
  have hr : repeated (l.map (fun k : Nat => (k : Int))) (L + 1) = (repeated l (L + 1)).map (fun k : Nat => (k : Int)) := by
    unfold repeated
    rw [List.map_flatten, List.map_replicate]
  refine ⟨_, by simp only [seriesDiscrete]; rw [hr]; exact takeNames_nat _ hnl, fun k hk => ?_⟩
  rw [marks_numbers hn hnl k hk]
  exact hmem k

/-- **C218, arrays in time series.** What an array of flags marks does not depend on which variables are flagged: name `L + 1` if some
flag is set and name 0 if some flag is not set, and nothing else. -/
theorem C218_series_array {names : List Name} (hn : names.Nodup) (L : Nat) {n : Nat} (h2 : 2 ≤ n) (hlen : names.length = (L + 1) * n) (l : List Bool) :
    ∃ r, seriesDiscrete names L (.boolArray l) = .ok r ∧ Marks names (fun k => (k = L + 1 ∧ true ∈ l) ∨ (k = 0 ∧ false ∈ l)) r := by
  have hL : L + 1 < names.length := by
    rw [hlen]
    calc L + 1 < (L + 1) * 2 := by omega
      _ ≤ (L + 1) * n := Nat.mul_le_mul_left _ h2
  have hr : l.map (fun b => if b then ((L + 1 : Nat) : Int) else 0) = (l.map (fun b => if b then L + 1 else 0)).map (fun k : Nat => (k : Int)) := by
    rw [List.map_map]
    refine List.map_congr_left fun b _ => ?_
    cases b <;> simp
  have hnl : ∀ k ∈ l.map (fun b => if b then L + 1 else 0), k < names.length := by
    intro k hk
    obtain ⟨b, _, rfl⟩ := List.mem_map.1 hk
    cases b
    · simp only [Bool.false_eq_true, if_false]; omega
    · simpa using hL
  refine ⟨_, by simp only [seriesDiscrete]; rw [hr]; exact takeNames_nat _ hnl, fun k hk => ?_⟩
  rw [marks_numbers hn hnl k hk]
  beta_reduce
  rw [List.mem_map]
  constructor
  · rintro ⟨b, hb, rfl⟩
    cases b
    · exact Or.inr ⟨rfl, hb⟩
    · exact Or.inl ⟨rfl, hb⟩
  · rintro (⟨rfl, h⟩ | ⟨rfl, h⟩)
    · exact ⟨true, h, rfl⟩
    · exact ⟨false, h, rfl⟩

/-- **C218, violated.** With an array of flags in a time series of two or more variables and at least one lag, the last variable at time `t`
is never taken for discrete when it is the only flagged one, and the first one always is. -/
theorem C218_array_violated {names : List Name} (hn : names.Nodup) (L : Nat) (hL : 1 ≤ L) {n : Nat} (h2 : 2 ≤ n) (hlen : names.length = (L + 1) * n)
    (hne : n ≠ L + 2) {first last : Name} (hf : names[0]? = some first) (hl : names[n - 1]? = some last) :
    ∃ r, seriesDiscrete names L (.boolArray ((List.replicate (n - 1) false) ++ [true])) = .ok r ∧ last ∉ r ∧ first ∈ r := by
  obtain ⟨r, h1, h3⟩ := C218_series_array hn L h2 hlen ((List.replicate (n - 1) false) ++ [true])
  have hk : n - 1 < names.length := by
    rw [hlen]
    calc n - 1 < 1 * n := by omega
      _ ≤ (L + 1) * n := Nat.mul_le_mul_right _ (by omega)
  rw [List.getElem?_eq_getElem (by omega)] at hf hl
  cases hf
  cases hl
  refine ⟨r, h1, ?_, ?_⟩
  · rw [h3 _ hk]
    rintro (⟨h, _⟩ | ⟨h, _⟩) <;> omega
  · rw [h3 _ (by omega)]
    exact Or.inr ⟨rfl, by simp; omega⟩

theorem takeNames_one (names : List Name) (k : Int) : takeNames names [k] = (takeName names k).map (fun s => [s]) := by
  unfold takeNames
  rw [List.mapM_cons, List.mapM_nil]
  cases takeName names k <;> rfl

/-- **C218, a single number.** For data without time, `k` marks the column with this number counted from the front if it is not negative and from the
back if it is negative; any number that is too large in size is refused. -/
theorem C218_number {names : List Name} (hn : names.Nodup) (k : Int) :
    (∀ q : Nat, q < names.length → (k = q ∨ k = (q : Int) - names.length) → ∃ r, plainDiscrete names (.ints [k]) = .ok r ∧
      plainDiscrete names (.intArray [k]) = .ok r ∧ Marks names (fun p => p = q) r) ∧
    (k < -(names.length : Int) ∨ (names.length : Int) ≤ k → plainDiscrete names (.ints [k]) = .error .index ∧
      plainDiscrete names (.intArray [k]) = .error .index) := by
  constructor
  · intro q hq hk
    have : takeName names k = .ok names[q] := by
      rcases hk with rfl | rfl
      · exact takeName_nat hq
      · unfold takeName
        have e : names.length - (-((q : Int) - names.length)).toNat = q := by omega
        rw [if_neg (by omega), if_pos (by omega), e, List.getD_eq_getElem _ _ hq]
    have h1 : takeNames names [k] = .ok [names[q]] := by
      rw [takeNames_one, this]
      rfl
    refine ⟨_, h1, h1, fun p hp => ?_⟩
    rw [List.mem_singleton, hn.getElem_inj_iff]
  · intro hk
    have : takeName names k = .error .index := by
      unfold takeName
      rcases hk with hk | hk
      · rw [if_neg (by omega), if_neg (by omega)]
      · rw [if_pos (by omega), List.getElem?_eq_none (by omega)]
    have h1 : takeNames names [k] = .error .index := by
      rw [takeNames_one, this]
      rfl
    exact ⟨h1, h1⟩

/-- **C218, an array of numbers in time series.** The number of a variable is multiplied by the number of times: variable `k` of an array of numbers marks
name number `k * (L + 1)`, which with at least one lag is variable `k` at time `t` for no `k` but 0; so in an array with one number other than 0 no
name of that variable at time `t` is marked. -/
theorem C218_series_number_array {names : List Name} (hn : names.Nodup) (L : Nat) {n : Nat} (hlen : names.length = (L + 1) * n) {k : Nat} (hk : k < n) :
    ∃ r, seriesDiscrete names L (.intArray [(k : Int)]) = .ok r ∧ Marks names (fun p => p = k * (L + 1)) r := by
  have hlt : k * (L + 1) < names.length := by
    rw [hlen, Nat.mul_comm (L + 1) n]
    exact Nat.mul_lt_mul_of_pos_right hk (by omega)
  have h1 : seriesDiscrete names L (.intArray [(k : Int)]) = .ok [names[k * (L + 1)]] := by
    show takeNames names [(k : Int) * ((L + 1 : Nat) : Int)] = _
    rw [takeNames_one, ← Nat.cast_mul, takeName_nat hlt]
    rfl
  refine ⟨_, h1, fun p hp => ?_⟩
  rw [List.mem_singleton, hn.getElem_inj_iff]

/-- With at least one lag, a variable other than the first that is marked by its number in an array is not taken for discrete at time `t`. -/
theorem C218_number_array_violated {names : List Name} (hn : names.Nodup) (L : Nat) (hL : 1 ≤ L) {n : Nat} (hlen : names.length = (L + 1) * n) {k : Nat}
    (h0 : 0 < k) (hk : k < n) {s : Name} (hs : names[k]? = some s) :
    ∃ r, seriesDiscrete names L (.intArray [(k : Int)]) = .ok r ∧ s ∉ r := by
  obtain ⟨r, h1, h2⟩ := C218_series_number_array hn L hlen hk
  have hkl : k < names.length := by
    rw [hlen]
    calc k < 1 * n := by omega
      _ ≤ (L + 1) * n := Nat.mul_le_mul_right _ (by omega)
  rw [List.getElem?_eq_getElem hkl, Option.some.injEq] at hs
  refine ⟨r, h1, ?_⟩
  rw [← hs, h2 k hkl]
  have : k * 1 < k * (L + 1) := Nat.mul_lt_mul_of_pos_left (by omega) h0
  omega

/-! ### Concrete cases -/

/-- Four names: variables `a` and `b` at two times. -/
def exNames : List Name := [['a', '0'], ['b', '0'], ['a', '1'], ['b', '1']]

example : exNames.Nodup ∧ exNames.length = (1 + 1) * 2 := by decide

/-- The flag of `b`: as a list it marks `b` at both times, as an array it marks `a`. -/
example : seriesDiscrete exNames 1 (.bools [false, true]) = .ok [['b', '0'], ['b', '1']] ∧
    seriesDiscrete exNames 1 (.boolArray [false, true]) = .ok [['a', '0'], ['a', '1']] ∧
    seriesDiscrete exNames 1 (.ints [1]) = .ok [['b', '0'], ['b', '0']] ∧
    plainDiscrete exNames (.ints [0, 1, 1, 0]) = .ok [['a', '0'], ['b', '0'], ['b', '0'], ['a', '0']] :=
  ⟨rfl, rfl, rfl, rfl⟩

/-- The last column and the first one counted from the back, a number that is refused, and an array with the number of `b`, which marks `a` one
step earlier. -/
example : plainDiscrete exNames (.ints [-1]) = .ok [['b', '1']] ∧ plainDiscrete exNames (.ints [-4]) = .ok [['a', '0']] ∧
    plainDiscrete exNames (.ints [-5]) = .error .index ∧ seriesDiscrete exNames 1 (.intArray [1]) = .ok [['a', '1']] := ⟨rfl, rfl, rfl, rfl⟩

end Verif.SimNames
