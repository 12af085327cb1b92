import Verif.Model.Imputation
import Verif.Spec.Graph
import Mathlib.Algebra.Field.Rat
import Mathlib.Data.List.NodupEquivFin

/-! Properties of `bootstrap_with_imputation`. -/
set_option autoImplicit false
set_option linter.unusedSectionVars false
namespace Verif.Imputation

variable {K : Type} [Field K]

theorem mapM_ok {A B : Type} (f : A → Except Err B) : ∀ (l : List A) (bs : List B), l.mapM f = Except.ok bs →
    bs.length = l.length ∧ ∀ (i : Nat) (a : A), l[i]? = some a → ∃ b, bs[i]? = some b ∧ f a = Except.ok b
  | [], bs, h => by
    simp only [List.mapM_nil] at h
    cases h
    exact ⟨rfl, fun i a h => by simp at h⟩
  | a :: l, bs, h => by
    rw [List.mapM_cons] at h
    cases hf : f a with
    | error e => rw [hf] at h; cases h
    | ok b =>
      rw [hf] at h
      cases hl : l.mapM f with
      | error e => rw [hl] at h; cases h
      | ok bs' =>
        rw [hl] at h
        cases h
        obtain ⟨h1, h2⟩ := mapM_ok f l bs' hl
        refine ⟨by simp [h1], ?_⟩
        intro i x hx
        cases i with
        | zero => simp only [List.getElem?_cons_zero, Option.some.injEq] at hx; subst hx; exact ⟨b, by simp, hf⟩
        | succ i => simpa using h2 i x (by simpa using hx)

theorem mapM_all {A B : Type} (f : A → Except Err B) (l : List A) (h : ∀ a ∈ l, ∃ b, f a = Except.ok b) :
    ∃ bs, l.mapM f = Except.ok bs := by
  induction l with
  | nil => exact ⟨[], rfl⟩
  | cons a l ih =>
    obtain ⟨b, hb⟩ := h a (by simp)
    obtain ⟨bs, hbs⟩ := ih (fun x hx => h x (by simp [hx]))
    exact ⟨b :: bs, by rw [List.mapM_cons, hb, hbs]; rfl⟩

theorem unique_iff (l : List Int) :
    (unique l = (List.range l.length).map (fun i : Nat => (i : Int))) ↔ ∃ o, IsOrder l.length o ∧ l = o.map (fun i : Nat => (i : Int)) := by
  have hperm : (unique l).Perm l.dedup := List.perm_insertionSort _ _
  have hmem : ∀ x, x ∈ unique l ↔ x ∈ l := fun x => by rw [hperm.mem_iff, List.mem_dedup]
  constructor
  · intro h
    have hlen : l.dedup.length = l.length := by
      rw [← hperm.length_eq, h]; simp
    have hnd : l.Nodup := by
      rw [← List.dedup_eq_self]
      exact (List.dedup_sublist l).eq_of_length hlen
    have hall : ∀ x ∈ l, ∃ i, i < l.length ∧ x = (i : Int) := by
      intro x hx
      have := (hmem x).2 hx
      rw [h, List.mem_map] at this
      obtain ⟨i, hi, rfl⟩ := this
      exact ⟨i, List.mem_range.1 hi, rfl⟩
    have hl : l = (l.map Int.toNat).map (fun i : Nat => (i : Int)) := by
      rw [List.map_map]
      conv_lhs => rw [← List.map_id l]
      refine List.map_congr_left (fun x hx => ?_)
      obtain ⟨i, _, rfl⟩ := hall x hx
      simp
    refine ⟨l.map Int.toNat, ⟨?_, ?_⟩, hl⟩
    · rw [hl] at hnd
      exact hnd.of_map
    · intro i
      rw [List.mem_map]
      constructor
      · rintro ⟨x, hx, rfl⟩
        obtain ⟨i, hi, rfl⟩ := hall x hx
        simpa using hi
      · intro hi
        refine ⟨(i : Int), ?_, by simp⟩
        rw [← hmem, h, List.mem_map]
        exact ⟨i, List.mem_range.2 hi, rfl⟩
  · rintro ⟨o, ho, hl⟩
    have hndl : l.Nodup := by
      rw [hl]
      exact ho.1.map (fun a b h => by simpa using h)
    have hp : (unique l).Perm ((List.range l.length).map (fun i : Nat => (i : Int))) := by
      refine hperm.trans ?_
      rw [List.dedup_eq_self.2 hndl]
      have ho' : o.Perm (List.range l.length) := by
        rw [List.perm_ext_iff_of_nodup ho.1 List.nodup_range]
        intro a
        rw [ho.2 a, List.mem_range]
      conv_lhs => rw [hl]
      exact ho'.map _
    refine hp.eq_of_pairwise (le := fun a b => a ≤ b) (fun a b _ _ h1 h2 => le_antisymm h1 h2) ?_ ?_
    · exact List.pairwise_insertionSort _ _
    · rw [List.pairwise_map]
      exact List.pairwise_le_range.imp (fun h => by exact_mod_cast h)

/-- Specification: the numbers `0, …, n-1` in some order. -/
def IsColumnOrder (n : Nat) (l : List Int) : Prop := ∃ o, IsOrder n o ∧ l = o.map (fun i : Nat => (i : Int))

theorem discoveryOk_iff (k n : Nat) (d : Discovery K) :
    discoveryOk k n d = true ↔ IsColumnOrder n d.order ∧ ∃ p, d.shape = p ++ [n, n] := by
  unfold discoveryOk IsColumnOrder
  simp only [Bool.and_eq_true, decide_eq_true_eq, unique_iff]
  constructor
  · rintro ⟨⟨h1, h2⟩, h3⟩
    rw [h1] at h2
    refine ⟨h2, d.shape.take (d.shape.length - 2), ?_⟩
    conv_lhs => rw [← List.take_append_drop (d.shape.length - 2) d.shape, h3]
  · rintro ⟨⟨o, ho, hl⟩, p, hp⟩
    have hlen : d.order.length = n := by
      rw [hl, List.length_map]
      have : o.Perm (List.range n) := by
        rw [List.perm_ext_iff_of_nodup ho.1 List.nodup_range]
        intro a
        rw [ho.2 a, List.mem_range]
      simpa using this.length_eq
    refine ⟨⟨hlen, o, hlen.symm ▸ ho, hl⟩, ?_⟩
    rw [hp]
    simp

/-- **C52.** In the result, repetition `i` has as imputations exactly the cells missing in the resampled data: such a
cell holds the imputer's value (a number), every other cell is NaN; the order is a permutation of the columns; the
recorded rows are those of the resampled data. -/
theorem C52_records (X : Data K) (N n : Nat) (idx : Nat → Nat → Nat) (imp : Nat → Data K → Imputed K)
    (cd : Nat → Imputed K → Discovery K) (m : Nat) (res : List (Sample K))
    (h : bootstrap X N n idx imp cd m = Except.ok res) :
    res.length = m ∧ ∀ i, i < m → ∃ s, res[i]? = some s ∧ s.index = idx i ∧ IsColumnOrder n s.order ∧
      0 < s.reps ∧ ∀ k r c, k < s.reps → r < N → c < n →
        ((s.imputed k r c).isSome ↔ X (idx i r) c = none) ∧
        (X (idx i r) c = none → s.imputed k r c = (imp i (fun r c => X (idx i r) c)).val k r c) := by
  obtain ⟨h1, h2⟩ := mapM_ok _ _ _ h
  refine ⟨by simpa using h1, fun i hi => ?_⟩
  obtain ⟨s, hs, hst⟩ := h2 i i (by simp [hi])
  refine ⟨s, hs, ?_⟩
  unfold step at hst
  simp only [] at hst
  by_cases hio : imputerOk N n (imp i (rowsOf X (idx i)))
  · rw [if_pos hio] at hst
    by_cases hdo : discoveryOk (imp i (rowsOf X (idx i))).reps n (cd i (imp i (rowsOf X (idx i)))) = true
    · rw [if_pos hdo, Except.ok.injEq] at hst
      subst hst
      refine ⟨rfl, ((discoveryOk_iff _ _ _).1 hdo).1, hio.1, ?_⟩
      intro k r c hk hr hc
      have hsome := hio.2.2.2 k hk r hr c hc
      show ((record (rowsOf X (idx i)) (imp i (rowsOf X (idx i))) k r c).isSome ↔ _) ∧ _
      unfold record
      by_cases hx : X (idx i r) c = none
      · have hx' : (rowsOf X (idx i) r c).isNone = true := by simp [rowsOf, hx]
        rw [if_pos hx']
        exact ⟨⟨fun _ => hx, fun _ => hsome⟩, fun _ => if_pos hx'⟩
      · have hx' : ¬ (rowsOf X (idx i) r c).isNone = true := by simp [rowsOf, hx]
        rw [if_neg hx']
        exact ⟨⟨fun h => by simp at h, fun h => absurd h hx⟩, fun h => absurd h hx⟩
    · rw [if_neg hdo] at hst; cases hst
  · rw [if_neg hio] at hst; cases hst

/-- **C52.** The call succeeds exactly when in every repetition the imputer returns matrices of the right shape without
NaN and the causal discovery model returns a permutation of the columns and matrices of the right size. -/
theorem C52_accepts_iff (X : Data K) (N n : Nat) (idx : Nat → Nat → Nat) (imp : Nat → Data K → Imputed K)
    (cd : Nat → Imputed K → Discovery K) (m : Nat) :
    (∃ res, bootstrap X N n idx imp cd m = Except.ok res) ↔ ∀ i, i < m →
      imputerOk N n (imp i (fun r c => X (idx i r) c)) ∧
      IsColumnOrder n (cd i (imp i (fun r c => X (idx i r) c))).order ∧
      ∃ p, (cd i (imp i (fun r c => X (idx i r) c))).shape = p ++ [n, n] := by
  have hstep : ∀ i, (∃ s, step X N n (idx i) (imp i) (cd i) = Except.ok s) ↔
      imputerOk N n (imp i (fun r c => X (idx i r) c)) ∧
      IsColumnOrder n (cd i (imp i (fun r c => X (idx i r) c))).order ∧
      ∃ p, (cd i (imp i (fun r c => X (idx i r) c))).shape = p ++ [n, n] := by
    intro i
    show _ ↔ imputerOk N n (imp i (rowsOf X (idx i))) ∧ IsColumnOrder n (cd i (imp i (rowsOf X (idx i)))).order ∧
      ∃ p, (cd i (imp i (rowsOf X (idx i)))).shape = p ++ [n, n]
    rw [← discoveryOk_iff (imp i (rowsOf X (idx i))).reps]
    unfold step
    simp only []
    by_cases h1 : imputerOk N n (imp i (rowsOf X (idx i)))
    · rw [if_pos h1]
      by_cases h2 : discoveryOk (imp i (rowsOf X (idx i))).reps n (cd i (imp i (rowsOf X (idx i)))) = true
      · rw [if_pos h2]; simp [h1, h2]
      · rw [if_neg h2]; simp [h2]
    · rw [if_neg h1]; simp [h1]
  constructor
  · rintro ⟨res, h⟩ i hi
    obtain ⟨s, _, hs⟩ := (mapM_ok _ _ _ h).2 i i (by simp [hi])
    exact (hstep i).1 ⟨s, hs⟩
  · intro h
    exact mapM_all _ _ (fun i hi => (hstep i).2 (h i (List.mem_range.1 hi)))

/-- Two columns, three rows, one value missing. -/
def wX : Data ℚ := fun r c => if r = 1 ∧ c = 0 then none else some (r + c)
/-- Rows 1, 1, 2 in each repetition. -/
def wIdx : Nat → Nat → Nat := fun _ r => if r = 0 then 1 else r
/-- A model that returns the columns in reverse order. -/
def wCd : Nat → Imputed ℚ → Discovery ℚ := fun _ o => ⟨[1, 0], [o.reps, 2, 2], List.replicate o.reps (fun _ _ => 0)⟩

/-- A concrete run: the two copies of row 1 have their missing cell imputed, all other cells are NaN. -/
example : ((bootstrap wX 3 2 wIdx (fun _ => defaultImputer 2 3 2 (fun k _ _ => k + 7)) wCd 2).toOption.map
    (fun l => l.map (fun s => [s.imputed 1 0 0, s.imputed 1 1 0, s.imputed 1 2 0, s.imputed 1 0 1]))) =
    some [[some 8, some 8, none, none], [some 8, some 8, none, none]] := by decide +kernel

/-- The number of matrices is not checked: a model that returns a single matrix for `reps` data sets is accepted. -/
theorem C52_repetitions_unchecked (reps n : Nat) (o : List Nat) (ho : IsOrder n o) (M : Nat → Nat → K) :
    discoveryOk reps n ⟨o.map (fun i : Nat => (i : Int)), [n, n], [M]⟩ = true :=
  (discoveryOk_iff _ _ _).2 ⟨⟨o, ho, rfl⟩, [], rfl⟩

/-! ### C88: the default imputer -/

theorem observed_all (S : Data K) (N n : Nat) :
    (observed S N n).length = n ↔ ∀ c, c < n → ∃ r, r < N ∧ S r c ≠ none := by
  unfold observed
  constructor
  · intro h c hc
    have : (List.range n).filter (fun c => (List.range N).any (fun r => (S r c).isSome)) = List.range n :=
      List.filter_sublist.eq_of_length (by rw [h, List.length_range])
    rw [List.filter_eq_self] at this
    have := this c (List.mem_range.2 hc)
    rw [List.any_eq_true] at this
    obtain ⟨r, hr, hs⟩ := this
    exact ⟨r, List.mem_range.1 hr, by intro h0; rw [h0] at hs; cases hs⟩
  · intro h
    have : (List.range n).filter (fun c => (List.range N).any (fun r => (S r c).isSome)) = List.range n := by
      rw [List.filter_eq_self]
      intro c hc
      obtain ⟨r, hr, hs⟩ := h c (List.mem_range.1 hc)
      rw [List.any_eq_true]
      refine ⟨r, List.mem_range.2 hr, ?_⟩
      cases hx : S r c with
      | none => exact absurd hx hs
      | some x => rfl
    rw [this, List.length_range]

/-- **C88 (partial).** With the default imputer, and a causal discovery model that behaves, the call succeeds exactly
when every resampled data set has an observed value in every column.  Missing: success for all data sets whose
columns have observed values, which is false (`C88_fails`). -/
theorem C88_default_iff_partial (X : Data K) (N n reps : Nat) (hr : 0 < reps) (idx : Nat → Nat → Nat)
    (fill : Nat → Nat → Nat → Nat → K) (cd : Nat → Imputed K → Discovery K) (m : Nat)
    (hcd : ∀ i o, IsColumnOrder n (cd i o).order ∧ ∃ p, (cd i o).shape = p ++ [n, n]) :
    (∃ res, bootstrap X N n idx (fun i => defaultImputer reps N n (fill i)) cd m = Except.ok res) ↔
      ∀ i, i < m → ∀ c, c < n → ∃ r, r < N ∧ X (idx i r) c ≠ none := by
  rw [C52_accepts_iff]
  have key : ∀ i, imputerOk N n (defaultImputer reps N n (fill i) (fun r c => X (idx i r) c)) ↔
      ∀ c, c < n → ∃ r, r < N ∧ X (idx i r) c ≠ none := by
    intro i
    rw [← observed_all (fun r c => X (idx i r) c) N n]
    unfold imputerOk
    constructor
    · rintro ⟨_, _, h, _⟩; exact h
    · intro h
      refine ⟨hr, rfl, h, ?_⟩
      intro k hk r hr c hc
      simp only [defaultImputer]
      rw [List.getElem?_eq_getElem (by rw [h]; exact hc)]
      rfl
  constructor
  · intro h i hi; exact (key i).1 (h i hi).1
  · intro h i hi; exact ⟨(key i).2 (h i hi), hcd i _⟩

/-- With the default imputer observed values are not changed. -/
theorem C88_keeps_observed (S : Data K) (N n reps : Nat) (fill : Nat → Nat → Nat → K)
    (h : ∀ c, c < n → ∃ r, r < N ∧ S r c ≠ none) (k r c : Nat) (hc : c < n) (x : K) (hx : S r c = some x) :
    (defaultImputer reps N n fill S).val k r c = some x := by
  have hobs := (observed_all S N n).2 h
  have hself : observed S N n = List.range n := by
    unfold observed at *
    exact List.filter_sublist.eq_of_length (by rw [hobs, List.length_range])
  simp only [defaultImputer, hself, List.getElem?_range hc, hx, Option.getD_some]

/-- **C88 is violated**: a column observed in row 0 only, and a resample without row 0. -/
theorem C88_fails : (∀ c, c < 2 → ∃ r, r < 2 ∧ (fun r c => if r = 1 ∧ c = 0 then none else some (0 : ℚ)) r c ≠ none) ∧
    (bootstrap (fun r c => if r = 1 ∧ c = 0 then none else some (0 : ℚ)) 2 2 (fun _ _ => 1)
      (fun _ => defaultImputer 10 2 2 (fun _ _ _ => 0)) wCd 1).toOption.isNone = true := by
  constructor
  · intro c _
    exact ⟨0, by decide, by simp⟩
  · decide +kernel

end Verif.Imputation
