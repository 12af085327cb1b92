import Verif.Model.Inputs
import Verif.Props.Rcd
import Mathlib.Data.Rat.Floor
import Mathlib.Algebra.Order.Floor.Ring

/-! Which arguments are accepted, what a rejected list of data sets leaves behind, and what `max_explanatory_num` means. -/
set_option autoImplicit false
set_option linter.unusedSectionVars false
namespace Verif.Inputs

/-! ### C237: constructors -/

theorem below_false (x : Num) : below x = false ↔ x.NonNeg ∨ x = .nan := by
  cases x <;> simp [below, Num.NonNeg]

theorem atMost_false (x : Num) : atMost x = false ↔ x.Pos ∨ x = .nan := by
  cases x <;> simp [atMost, Num.Pos]

/-- **C237, RCD and MultiGroupRCD.** Exactly these settings are accepted: a positive number of explanatory variables, levels and a threshold
that are not negative, known names of the methods; and NaN passes in place of any number. -/
theorem C237_rcd (m c i s : Num) (bw ind : String) (t : Num) : rcdInit m c i s bw ind t = .ok () ↔
    (m.Pos ∨ m = .nan) ∧ (c.NonNeg ∨ c = .nan) ∧ (i.NonNeg ∨ i = .nan) ∧ (s.NonNeg ∨ s = .nan) ∧
      (bw = "mdbs" ∨ bw = "scott" ∨ bw = "silverman") ∧ (ind = "hsic" ∨ ind = "fcorr") ∧ (t.NonNeg ∨ t = .nan) := by
  simp only [← below_false, ← atMost_false]
  unfold rcdInit
  split_ifs <;> simp_all
  tauto

/-- **C237, CAMUV and MultiGroupCAMUV.** -/
theorem C237_camuv (a m : Num) (ind : String) (t : Num) : camuvInit a m ind t = .ok () ↔
    (a.NonNeg ∨ a = .nan) ∧ (m.Pos ∨ m = .nan) ∧ (ind = "hsic" ∨ ind = "fcorr") ∧ (t.NonNeg ∨ t = .nan) := by
  simp only [← below_false, ← atMost_false]
  unfold camuvInit
  split_ifs <;> simp_all
  tauto

/-- **C237, RESIT.** A regressor with both methods is needed. -/
theorem C237_resit (r : Option Regressor) (a : Num) : resitInit r a = .ok () ↔
    (∃ g, r = some g ∧ g.hasFit = true ∧ g.hasPredict = true) ∧ (a.NonNeg ∨ a = .nan) := by
  rw [← below_false]
  unfold resitInit
  cases r with
  | none => simp
  | some g => cases hf : g.hasFit <;> cases hp : g.hasPredict <;> cases hb : below a <;> simp [hf, hp]

/-- **C237, BottomUpParceLiNGAM.** A regressor may be left out. -/
theorem C237_parce (r : Option Regressor) (a : Num) (ind : String) (t : Num) : parceInit r a ind t = .ok () ↔
    (∀ g, r = some g → g.hasFit = true ∧ g.hasPredict = true) ∧ (a.NonNeg ∨ a = .nan) ∧ (ind = "hsic" ∨ ind = "fcorr") ∧
      (t.NonNeg ∨ t = .nan) := by
  simp only [← below_false]
  unfold parceInit
  cases r with
  | none =>
    split_ifs <;> simp_all
    tauto
  | some g =>
    cases hf : g.hasFit <;> cases hp : g.hasPredict <;> simp [hf, hp]
    split_ifs <;> simp_all
    tauto

/-- The default settings are accepted; a level that is not a number is accepted too, and so is a threshold 0, for which the message says
that it must be greater than 0. -/
example : rcdInit (.fin 2) (.fin (1 / 100)) (.fin (1 / 100)) (.fin (1 / 100)) "mdbs" "hsic" (.fin (1 / 2)) = .ok () ∧
    rcdInit .nan .nan .nan .nan "scott" "fcorr" (.fin 0) = .ok () ∧
    rcdInit (.fin 0) .nan .nan .nan "scott" "fcorr" (.fin 0) = .error .maxNum ∧ camuvInit (.fin (-1)) (.fin 2) "hsic" (.fin 0) = .error .alpha ∧
    resitInit none (.fin 0) = .error .noRegressor ∧ parceInit none (.fin 0) "hsic" (.fin 0) = .ok () := by
  decide +kernel

/-! ### C237: lists of data sets -/

section lists
variable {R A E κ S : Type} [DecidableEq κ] {valid : R → Except E A} {key : A → κ}

theorem checkItems_ok (k0 : κ) : ∀ (xs : List R) (ys : List A), checkItems valid key k0 xs = .ok ys ↔
    xs.map valid = ys.map .ok ∧ ∀ a ∈ ys, key a = k0
  | [], ys => by
    cases ys <;> simp [checkItems]
  | x :: xs, ys => by
    unfold checkItems
    cases hx : valid x with
    | error e => cases ys <;> simp [hx]
    | ok a =>
      simp only
      by_cases hk : key a = k0
      · rw [if_pos hk]
        have ih := checkItems_ok k0 xs
        cases hc : checkItems valid key k0 xs with
        | error e =>
          simp only [reduceCtorEq, false_iff]
          rintro ⟨h1, h2⟩
          cases ys with
          | nil => simp at h1
          | cons y ys =>
            rw [List.map_cons, List.map_cons, List.cons.injEq] at h1
            have := (ih ys).2 ⟨h1.2, fun a ha => h2 a (List.mem_cons_of_mem _ ha)⟩
            rw [hc] at this
            cases this
        | ok as =>
          have hA := (ih as).1 hc
          simp only [Except.ok.injEq]
          constructor
          · rintro rfl
            exact ⟨by rw [List.map_cons, List.map_cons, hA.1, hx], fun b hb => by
              rcases List.mem_cons.1 hb with rfl | hb
              exacts [hk, hA.2 b hb]⟩
          · rintro ⟨h1, h2⟩
            cases ys with
            | nil => simp at h1
            | cons y ys =>
              rw [List.map_cons, List.map_cons, List.cons.injEq, hx, Except.ok.injEq] at h1
              have := (ih ys).2 ⟨h1.2, fun a ha => h2 a (List.mem_cons_of_mem _ ha)⟩
              rw [hc, Except.ok.injEq] at this
              rw [h1.1, this]
      · rw [if_neg hk]
        simp only [reduceCtorEq, false_iff]
        rintro ⟨h1, h2⟩
        cases ys with
        | nil => simp at h1
        | cons y ys =>
          rw [List.map_cons, List.map_cons, List.cons.injEq, hx, Except.ok.injEq] at h1
          exact hk (h1.1 ▸ h2 y List.mem_cons_self)

/-- **C237, lists of data sets.** A list is accepted exactly if it is a list of at least two valid data sets that all have the same number of
columns (`LongitudinalLiNGAM`: the same shape), and then all of them are used, in the given order. -/
theorem C237_lists (isList : Bool) (xs : List R) (o : Obj κ S) (ys : List A) : (checkList valid key isList xs o).2 = .ok ys ↔
    isList = true ∧ 2 ≤ xs.length ∧ SameKind valid key xs ys := by
  unfold checkList SameKind
  cases isList
  · simp
  · simp only [Bool.not_true, Bool.false_eq_true, if_false, true_and]
    match xs with
    | [] => simp
    | [x] => simp
    | x :: y :: xs =>
      simp only
      cases hx : valid x with
      | error e =>
        cases ys with
        | nil => simp
        | cons z zs => simp [hx]
      | ok a =>
        simp only
        rw [checkItems_ok]
        constructor
        · rintro ⟨h1, h2⟩
          exact ⟨by simp, h1, fun b hb c hc => (h2 b hb).trans (h2 c hc).symm⟩
        · rintro ⟨_, h1, h2⟩
          refine ⟨h1, fun b hb => h2 b hb a ?_⟩
          cases ys with
          | nil => simp at h1
          | cons z zs =>
            simp only [List.map_cons, List.cons.injEq, hx, Except.ok.injEq] at h1
            rw [h1.1]
            exact List.mem_cons_self

/-- **C237, a rejected list.** If `fit` rejects its argument, the result of the previous fit is kept; otherwise the result is replaced by the one
for the new data sets. -/
theorem C237_rejected (search : List A → S) (isList : Bool) (xs : List R) (o : Obj κ S) :
    (∀ e, (fit valid key search isList xs o).2 = .error e → (fit valid key search isList xs o).1.result = o.result) ∧
    ∀ r, (fit valid key search isList xs o).2 = .ok r → (fit valid key search isList xs o).1.result = some r ∧
      ∃ ys, SameKind valid key xs ys ∧ r = search ys := by
  have hres : (checkList valid key isList xs o).1.result = o.result := by
    unfold checkList
    split
    · rfl
    · split
      · rfl
      · rfl
      · split <;> rfl
  unfold fit
  constructor
  · intro e he
    rcases h : checkList valid key isList xs o with ⟨o', r⟩
    rw [h] at he hres
    cases r with
    | error e' => exact hres
    | ok ys => cases he
  · intro r hr
    have hl := C237_lists (valid := valid) (key := key) isList xs o
    rcases h : checkList valid key isList xs o with ⟨o', r'⟩
    rw [h] at hr hl
    cases r' with
    | error e' => cases hr
    | ok ys =>
      simp only [Except.ok.injEq] at hr
      exact ⟨congrArg some hr, ys, ((hl ys).1 rfl).2.2, hr.symm⟩

/-- But the number of columns that the object remembers is that of the rejected data: here 3 instead of 2 after a list of data sets with three
and two columns. -/
theorem C237_rejected_columns : (fit (R := Nat) (E := Unit) (κ := Nat) (S := List Nat) (fun c => .ok c) id id true [2, 2] ⟨none, none, none⟩).1.key = some 2 ∧
    (fit (R := Nat) (E := Unit) (κ := Nat) (S := List Nat) (fun c => .ok c) id id true [3, 2]
      (fit (R := Nat) (E := Unit) (κ := Nat) (S := List Nat) (fun c => .ok c) id id true [2, 2] ⟨none, none, none⟩).1).1 =
      ⟨some 2, some 3, some [2, 2]⟩ := ⟨rfl, rfl⟩

end lists

/-- A single data set is rejected, and so are data sets with different numbers of columns. -/
example : (checkList (R := Nat) (E := Unit) (κ := Nat) (S := Unit) (fun c => .ok c) id true [2] ⟨none, none, none⟩).2 = .error .tooFew ∧
    (checkList (R := Nat) (E := Unit) (κ := Nat) (S := Unit) (fun c => .ok c) id true [2, 3] ⟨none, none, none⟩).2 = .error .different ∧
    (checkList (R := Nat) (E := Unit) (κ := Nat) (S := Unit) (fun c => .ok c) id true [2, 2] ⟨none, none, none⟩).2 = .ok [2, 2] := ⟨rfl, rfl, rfl⟩

/-! ### C238: `max_explanatory_num` -/

variable {t : Rcd.Tests} {n : Nat}

theorem rcdLoop_congr {x : Num} {m : Nat} (h : ∀ l, 1 ≤ l → less l x = decide (l < m)) : ∀ fuel l s, 1 ≤ l →
    rcdLoop t n x fuel l s = Rcd.loop t n m fuel l s
  | 0, _, _, _ => rfl
  | fuel + 1, l, s, hl => by
    unfold rcdLoop Rcd.loop
    simp only
    rw [rcdLoop_congr h fuel 1 _ le_rfl, rcdLoop_congr h fuel (l + 1) _ (by omega), h l hl]
    by_cases hm : l < m
    · simp [hm]
    · simp [hm]

/-- **C238, numbers that are not integers.** `max_explanatory_num` is rounded up; NaN acts like 1. -/
theorem C238_rounded_partial (q : ℚ) (fuel : Nat) :
    rcdAncestors t n (.fin q) fuel = Rcd.extractAncestors t n ⌈q⌉₊ fuel ∧ rcdAncestors t n .nan fuel = Rcd.extractAncestors t n 1 fuel :=
  ⟨rcdLoop_congr (fun l _ => by unfold less; rw [decide_eq_decide]; exact Nat.lt_ceil.symm) _ _ _ le_rfl,
    rcdLoop_congr (fun l hl => by unfold less; rw [eq_comm, decide_eq_false_iff_not]; omega) _ _ _ le_rfl⟩

/-- **C238, infinity.** With `max_explanatory_num = inf`, which the constructor accepts, `fit` never ends, for all data. -/
theorem C238_infinite (fuel : Nat) : rcdAncestors t n .posInf fuel = none := by
  have : ∀ fuel l s, rcdLoop t n .posInf fuel l s = none := by
    intro fuel
    induction fuel with
    | zero => intro l s; rfl
    | succ fuel ih =>
      intro l s
      unfold rcdLoop
      simp only [ih, less, if_true, ite_self]
  exact this _ _ _

theorem combos_long {l : Nat} (h : n ≤ l) : Rcd.combos (l + 1) (List.range n) = [] := by
  rw [List.eq_nil_iff_forall_not_mem]
  intro c hc
  obtain ⟨h1, h2⟩ := Rcd.mem_combos.1 hc
  have := h1.length_le
  rw [List.length_range] at this
  omega

/-- Once the sets are larger than the number of variables, nothing happens any more. -/
theorem loop_tail (m : Nat) : ∀ fuel l (s : Rcd.St) M, n ≤ l → Rcd.loop t n m fuel l s = some M → M = s.M
  | 0, _, _, _, _, h => by cases h
  | fuel + 1, l, s, M, hl, h => by
    unfold Rcd.loop Rcd.pass at h
    rw [combos_long hl] at h
    simp only [List.foldl_nil, Bool.false_eq_true, if_false] at h
    split at h
    · exact loop_tail m fuel (l + 1) { s with changed := false } M (by omega) h
    · exact (Option.some.inj h).symm

/-- A run with the smaller limit and a run with the larger limit agree. -/
theorem loop_limits {m m' : Nat} (hm : n ≤ m + 1) (hmm : m ≤ m') : ∀ fuel fuel' l (s : Rcd.St) M M', Rcd.loop t n m fuel l s = some M →
    Rcd.loop t n m' fuel' l s = some M' → M = M'
  | 0, _, _, _, _, _, h, _ => by cases h
  | _ + 1, 0, _, _, _, _, _, h' => by cases h'
  | fuel + 1, fuel' + 1, l, s, M, M', h, h' => by
    unfold Rcd.loop at h h'
    simp only at h h'
    split at h
    · rename_i hc
      rw [if_pos hc] at h'
      exact loop_limits hm hmm fuel fuel' 1 _ M M' h h'
    · rename_i hc
      rw [if_neg hc] at h'
      split at h
      · rename_i hl
        rw [if_pos (by omega)] at h'
        exact loop_limits hm hmm fuel fuel' (l + 1) _ M M' h h'
      · rename_i hl
        have hM := Option.some.inj h
        split at h'
        · rw [loop_tail m' fuel' (l + 1) _ M' (by omega) h', hM]
        · rw [← hM, Option.some.inj h']

/-- **C238, large limits.** All limits from the number of variables minus one on give the same ancestors (and therefore the same result). -/
theorem C238_large {m m' : Nat} (h0 : 0 < m) (hm : n ≤ m + 1) (h0' : 0 < m') (hm' : n ≤ m' + 1) {fuel fuel' : Nat} (hf : n * n * m + m ≤ fuel)
    (hf' : n * n * m' + m' ≤ fuel') : Rcd.extractAncestors t n m fuel = Rcd.extractAncestors t n m' fuel' := by
  obtain ⟨M, hM, _⟩ := Rcd.C25_ancestors_terminate t n h0
  obtain ⟨M', hM', _⟩ := Rcd.C25_ancestors_terminate t n h0'
  have h := hM fuel hf
  have h' := hM' fuel' hf'
  rw [h, h', Option.some.injEq]
  rcases Nat.le_total m m' with hle | hle
  · exact loop_limits hm hle _ _ _ _ _ _ h h'
  · exact (loop_limits hm' hle _ _ _ _ _ _ h' h).symm

/-- Three variables: the limits 2 and 7 give the same ancestors, and 2 is the rounded value of 3/2. -/
example : Rcd.extractAncestors t 3 2 80 = Rcd.extractAncestors t 3 7 80 ∧
    rcdAncestors t 3 (.fin (3 / 2)) 80 = Rcd.extractAncestors t 3 2 80 := by
  refine ⟨C238_large (by omega) (by omega) (by omega) (by omega) (by omega) (by omega), ?_⟩
  have : ⌈(3 / 2 : ℚ)⌉₊ = 2 := by
    rw [Nat.ceil_eq_iff (by omega)]
    norm_num
  rw [(C238_rounded_partial (3 / 2) 80).1, this]

end Verif.Inputs
