import Verif.Model.Bootstrap
import Verif.Spec.Counting
import Mathlib.Data.List.Nodup
import Mathlib.Algebra.BigOperators.Group.List.Lemmas
import Mathlib.Data.List.Perm.Basic
import Mathlib.Data.List.Perm.Lattice
import Mathlib.Tactic.Linarith
import Mathlib.Tactic.NormNum
import Mathlib.Algebra.Order.Field.Basic

/-! Lemmas about the bootstrap model. -/
set_option autoImplicit false
namespace Verif.Boot

/-! ### Sorting and counting -/

/-- `np.argsort` exists: stable merge sort of the positions. -/
def stableArgsort : Argsort where
  run l := (List.range l.length).mergeSort (fun i j => decide (l.getD i 0 ≤ l.getD j 0))
  perm l := List.mergeSort_perm _ _
  sorted l := by
    rw [List.pairwise_map]
    have := List.pairwise_mergeSort (le := fun i j => decide (l.getD i 0 ≤ l.getD j 0))
      (by intro a b c; simp only [decide_eq_true_eq]; exact le_trans)
      (by intro a b; simp only [Bool.or_eq_true, decide_eq_true_eq]; exact le_total _ _) (List.range l.length)
    exact this.imp (by simp)

theorem take'_range {α : Type} (l : List α) : take' l (List.range l.length) = l := by
  unfold take'
  induction l with
  | nil => rfl
  | cons a l ih =>
    rw [List.length_cons, List.range_succ_eq_map, List.filterMap_cons]
    simp only [List.getElem?_cons_zero]
    rw [List.filterMap_map]
    congr 1

theorem take'_perm {α : Type} (l : List α) {o : List Nat} (h : o.Perm (List.range l.length)) :
    (take' l o).Perm l := by
  have h1 := h.filterMap (fun i => l[i]?)
  have h2 : (List.range l.length).filterMap (fun i => l[i]?) = l := take'_range l
  rw [h2] at h1
  exact h1

theorem take'_take {α : Type} (l : List α) {o : List Nat} (ho : ∀ i ∈ o, i < l.length) (k : Nat) :
    take' l (o.take k) = (take' l o).take k := by
  unfold take'
  induction o generalizing k with
  | nil => simp
  | cons i o ih =>
    cases k with
    | zero => simp
    | succ k =>
      have h1 := ho i (by simp)
      rw [List.take_succ_cons, List.filterMap_cons, List.filterMap_cons]
      simp only [List.getElem?_eq_getElem h1, List.take_succ_cons]
      rw [ih (fun j hj => ho j (by simp [hj]))]

theorem take'_map {α β : Type} (l : List α) (f : α → β) (d : β) {o : List Nat} (ho : ∀ i ∈ o, i < l.length) :
    (take' l o).map f = o.map (fun i => (l.map f).getD i d) := by
  unfold take'
  induction o with
  | nil => rfl
  | cons i o ih =>
    have h1 := ho i (by simp)
    rw [List.filterMap_cons]
    simp only [List.getElem?_eq_getElem h1, List.map_cons]
    rw [ih (fun j hj => ho j (by simp [hj]))]
    congr 1
    simp [List.getD, h1]

theorem Argsort.lt (as : Argsort) (l : List ℚ) {i : Nat} (h : i ∈ as.run l) : i < l.length := by
  simpa using (as.perm l).mem_iff.1 h

/-- Sorting rows by a key: a permutation, sorted by the key. -/
theorem sortRows {α : Type} (as : Argsort) (key : α → ℚ) (l : List α) :
    (take' l (as.run (l.map key))).Perm l ∧ (take' l (as.run (l.map key))).Pairwise (fun a b => key a ≤ key b) := by
  have hp := as.perm (l.map key)
  rw [List.length_map] at hp
  refine ⟨take'_perm l hp, ?_⟩
  have hs := as.sorted (l.map key)
  rw [← take'_map l key 0 (fun i hi => by simpa using as.lt _ hi)] at hs
  exact List.pairwise_map.1 hs

theorem cut_eq {α : Type} (k : Option Nat) (l : List α) : ∃ m, cut k l = l.take m ∧ (k = none → m = l.length) ∧
    ∀ q, k = some q → m = q := by
  cases k with
  | none => exact ⟨l.length, by simp [cut], fun _ => rfl, by simp⟩
  | some q => exact ⟨q, rfl, by simp, fun q' h => by simpa using h⟩

/-- What the "sorted by count, first `k`" step does. -/
theorem topCounts_spec {α : Type} (as : Argsort) (k : Option Nat) (u : List (α × Nat)) :
    ∃ full : List (α × Nat), full.Perm u ∧ full.Pairwise (fun a b => b.2 ≤ a.2) ∧
      topCounts as k u = cut k full := by
  obtain ⟨hp, hs⟩ := sortRows as (fun p : α × Nat => -(p.2 : ℚ)) u
  refine ⟨_, hp, hs.imp ?_, ?_⟩
  · intro a b h
    have : (b.2 : ℚ) ≤ a.2 := by linarith
    exact_mod_cast this
  · unfold topCounts
    cases k with
    | none => rfl
    | some k =>
      simp only [cut]
      exact take'_take u (fun i hi => by simpa using as.lt _ hi) k

theorem uniq_perm {α : Type} [DecidableEq α] (le : α → α → Bool) (l : List α) :
    (uniq le l).Perm (l.dedup.map (fun x => (x, cnt l x))) :=
  (List.mergeSort_perm _ _).map _

theorem mem_uniq {α : Type} [DecidableEq α] {le : α → α → Bool} {l : List α} {p : α × Nat} :
    p ∈ uniq le l ↔ p.1 ∈ l ∧ p.2 = cnt l p.1 := by
  rw [(uniq_perm le l).mem_iff, List.mem_map]
  constructor
  · rintro ⟨x, hx, rfl⟩; exact ⟨List.mem_dedup.1 hx, rfl⟩
  · rintro ⟨h1, h2⟩; exact ⟨p.1, List.mem_dedup.2 h1, by rw [← h2]⟩

theorem uniq_fst_perm {α : Type} [DecidableEq α] (le : α → α → Bool) (l : List α) :
    ((uniq le l).map Prod.fst).Perm l.dedup := by
  have := (uniq_perm le l).map Prod.fst
  simpa [Function.comp_def] using this

/-- The list of distinct values with counts, sorted by decreasing count and cut. -/
structure IsTop {α : Type} [DecidableEq α] (l : List α) (k : Option Nat) (out : List (α × Nat)) : Prop where
  /-- each value occurs at most once -/
  nodup : (out.map Prod.fst).Nodup
  /-- with its exact count -/
  exact : ∀ p ∈ out, p.1 ∈ l ∧ p.2 = cnt l p.1
  /-- in non-increasing order of count -/
  sorted : out.Pairwise (fun a b => b.2 ≤ a.2)
  /-- nothing is missing without a cut -/
  complete : k = none → ∀ x ∈ l, (x, cnt l x) ∈ out
  /-- with a cut, as many as requested if available -/
  length : ∀ q, k = some q → out.length = min q l.dedup.length
  /-- and every omitted value has at most the count of every kept one -/
  top : ∀ x ∈ l, x ∉ out.map Prod.fst → ∀ p ∈ out, cnt l x ≤ p.2

theorem isTop {α : Type} [DecidableEq α] (as : Argsort) (k : Option Nat) (le : α → α → Bool) (l : List α) :
    IsTop l k (topCounts as k (uniq le l)) := by
  obtain ⟨full, hp, hs, he⟩ := topCounts_spec as k (uniq le l)
  obtain ⟨m, hm, hm1, hm2⟩ := cut_eq k full
  rw [he, hm]
  have hfull : ∀ p, p ∈ full ↔ p.1 ∈ l ∧ p.2 = cnt l p.1 := fun p => by rw [hp.mem_iff, mem_uniq]
  have hnd : (full.map Prod.fst).Nodup :=
    ((hp.map Prod.fst).trans (uniq_fst_perm le l)).nodup_iff.2 (List.nodup_dedup l)
  have hlen : full.length = l.dedup.length := by
    rw [← List.length_map (f := Prod.fst)]
    exact ((hp.map Prod.fst).trans (uniq_fst_perm le l)).length_eq
  constructor
  · rw [List.map_take]; exact hnd.sublist (List.take_sublist _ _)
  · intro p hp'; exact (hfull p).1 (List.mem_of_mem_take hp')
  · exact hs.sublist (List.take_sublist _ _)
  · intro hk x hx
    rw [hm1 hk, List.take_length]
    exact (hfull (x, cnt l x)).2 ⟨hx, rfl⟩
  · intro q hq
    rw [List.length_take, hlen, hm2 q hq]
  · intro x hx hout p hpm
    have hxf : (x, cnt l x) ∈ full := (hfull (x, cnt l x)).2 ⟨hx, rfl⟩
    rw [← List.take_append_drop m full] at hxf hs
    rcases List.mem_append.1 hxf with h | h
    · exact absurd (List.mem_map.2 ⟨_, h, rfl⟩) hout
    · exact (List.pairwise_append.1 hs).2.2 p hpm _ h

/-! ### Directions -/
open Verif.Paths (nan0)

/-- The row `[to, from]` or `[to, from, sign]` written for a cell. -/
def rowOf (split : Bool) (m : Mat) (i j : Nat) : List Int :=
  if split then [Int.ofNat i, Int.ofNat j, sgn (nan0 (m i j))] else [Int.ofNat i, Int.ofNat j]

theorem mem_directionsOf {r c : Nat} {thr : ℚ} {split : Bool} {m : Mat} {x : List Int} :
    x ∈ directionsOf r c thr split m ↔
      ∃ i j, i < r ∧ j < c ∧ thr < |nan0 (m i j)| ∧ x = rowOf split m i j := by
  unfold directionsOf
  simp only [List.mem_flatMap, List.mem_range, List.mem_map, List.mem_filter, decide_eq_true_eq]
  constructor
  · rintro ⟨i, hi, j, ⟨hj, h⟩, rfl⟩; exact ⟨i, j, hi, hj, h, rfl⟩
  · rintro ⟨i, j, hi, hj, h, rfl⟩; exact ⟨i, hi, j, ⟨hj, h⟩, rfl⟩

theorem rowOf_inj {split : Bool} {m : Mat} {i j i' j' : Nat} (h : rowOf split m i j = rowOf split m i' j') :
    i = i' ∧ j = j' := by
  unfold rowOf at h
  cases split <;> simp_all

theorem nodup_directionsOf (r c : Nat) (thr : ℚ) (split : Bool) (m : Mat) :
    (directionsOf r c thr split m).Nodup := by
  unfold directionsOf
  rw [List.nodup_flatMap]
  refine ⟨fun i _ => ?_, ?_⟩
  · refine List.Nodup.map_on ?_ (List.nodup_range.filter _)
    intro a _ b _ h
    exact (rowOf_inj (split := split) (m := m) (i := i) (i' := i) h).2
  · refine List.nodup_range.imp ?_
    intro a b hab x hx hy
    obtain ⟨j, _, rfl⟩ := List.mem_map.1 hx
    obtain ⟨j', _, h⟩ := List.mem_map.1 hy
    exact hab (rowOf_inj (split := split) (m := m) h).1.symm

theorem count_flatMap_nodup {α β : Type} [DecidableEq β] (f : α → List β) (hf : ∀ a, (f a).Nodup) (ms : List α)
    (x : β) : cnt (ms.flatMap f) x = ms.countP (fun m => decide (x ∈ f m)) := by
  induction ms with
  | nil => rfl
  | cons a ms ih =>
    unfold cnt at ih ⊢
    rw [List.flatMap_cons, List.count_append, ih, List.countP_cons]
    by_cases h : x ∈ f a
    · rw [List.count_eq_one_of_mem (hf a) h]; simp [h]; omega
    · rw [List.count_eq_zero_of_not_mem h]; simp [h]

/-- Occurrences with a given sign of the coefficient. -/
def occSign (ms : List Mat) (thr : ℚ) (i j : Nat) (s : Int) : Nat :=
  ms.countP (fun m => decide (thr < |nan0 (m i j)| ∧ sgn (nan0 (m i j)) = s))

theorem sgn_pm {x thr : ℚ} (h0 : 0 ≤ thr) (h : thr < |x|) : sgn x = 1 ∨ sgn x = -1 := by
  have : x ≠ 0 := by rintro rfl; simp at h; linarith
  unfold sgn
  rcases lt_or_gt_of_ne this with h1 | h1
  · right; rw [if_neg (not_lt.2 h1.le), if_pos h1]
  · left; rw [if_pos h1]

theorem count_directions (ms : List Mat) (r c : Nat) (thr : ℚ) {i j : Nat} (hi : i < r) (hj : j < c) :
    cnt (ms.flatMap (directionsOf r c thr false)) [Int.ofNat i, Int.ofNat j] = occ ms thr i j := by
  rw [count_flatMap_nodup _ (nodup_directionsOf r c thr false)]
  apply List.countP_congr
  intro m _
  simp only [decide_eq_true_eq, mem_directionsOf]
  constructor
  · rintro ⟨i', j', _, _, h, he⟩
    simp [rowOf] at he
    obtain ⟨rfl, rfl⟩ := he
    exact h
  · intro h; exact ⟨i, j, hi, hj, h, rfl⟩

theorem occSign_one {ms : List Mat} {thr : ℚ} (h0 : 0 ≤ thr) (i j : Nat) :
    occSign ms thr i j 1 = occPos ms thr i j := by
  apply List.countP_congr
  intro m _
  simp only [decide_eq_true_eq]
  change (thr < |nan0 (m i j)| ∧ _) ↔ thr < nan0 (m i j)
  generalize nan0 (m i j) = x
  unfold sgn
  rcases lt_trichotomy x 0 with h | h | h
  · rw [if_neg (not_lt.2 h.le), if_pos h]
    constructor
    · rintro ⟨_, h⟩; omega
    · intro h'; linarith
  · subst h; simp; linarith
  · rw [if_pos h, abs_of_pos h]; simp

theorem occSign_neg_one {ms : List Mat} {thr : ℚ} (h0 : 0 ≤ thr) (i j : Nat) :
    occSign ms thr i j (-1) = occNeg ms thr i j := by
  apply List.countP_congr
  intro m _
  simp only [decide_eq_true_eq]
  change (thr < |nan0 (m i j)| ∧ _) ↔ nan0 (m i j) < -thr
  generalize nan0 (m i j) = x
  unfold sgn
  rcases lt_trichotomy x 0 with h | h | h
  · rw [if_neg (not_lt.2 h.le), if_pos h, abs_of_neg h]
    constructor
    · rintro ⟨h, _⟩; linarith
    · intro h'; exact ⟨by linarith, rfl⟩
  · subst h; simp; linarith
  · rw [if_pos h]
    constructor
    · rintro ⟨_, h⟩; omega
    · intro h'; linarith

theorem occSign_other {ms : List Mat} {thr : ℚ} (h0 : 0 ≤ thr) {i j : Nat} {s : Int} (h : 0 < occSign ms thr i j s) :
    s = 1 ∨ s = -1 := by
  obtain ⟨m, _, h⟩ := List.countP_pos_iff.1 h
  simp only [decide_eq_true_eq] at h
  rcases sgn_pm h0 h.1 with h' | h' <;> omega

theorem IsTop.full {α : Type} [DecidableEq α] {l : List α} {k : Option Nat} {out : List (α × Nat)} (h : IsTop l k out)
    {q : Nat} (hq : k = some q) : out.length ≤ q ∧ ((∃ x ∈ l, x ∉ out.map Prod.fst) → out.length = q) := by
  have hl := h.length q hq
  refine ⟨by omega, ?_⟩
  rintro ⟨x, hx, hno⟩
  have hsub : (x :: out.map Prod.fst).Subperm l.dedup := by
    apply List.subperm_of_subset
    · exact List.nodup_cons.2 ⟨hno, h.nodup⟩
    · intro y hy
      rcases List.mem_cons.1 hy with rfl | hy
      · exact List.mem_dedup.2 hx
      · obtain ⟨p, hp, rfl⟩ := List.mem_map.1 hy
        exact List.mem_dedup.2 (h.exact p hp).1
  have := hsub.length_le
  simp at this
  omega

theorem count_directions_sign (ms : List Mat) (r c : Nat) (thr : ℚ) {i j : Nat} {s : Int} (hi : i < r) (hj : j < c) :
    cnt (ms.flatMap (directionsOf r c thr true)) [Int.ofNat i, Int.ofNat j, s] = occSign ms thr i j s := by
  rw [count_flatMap_nodup _ (nodup_directionsOf r c thr true)]
  apply List.countP_congr
  intro m _
  simp only [decide_eq_true_eq, mem_directionsOf]
  constructor
  · rintro ⟨i', j', _, _, h, he⟩
    simp [rowOf] at he
    obtain ⟨rfl, rfl, rfl⟩ := he
    exact ⟨h, rfl⟩
  · rintro ⟨h, rfl⟩; exact ⟨i, j, hi, hj, h, rfl⟩

theorem mem_dirs_false {ms : List Mat} {r c : Nat} {thr : ℚ} {x : List Int} :
    x ∈ ms.flatMap (directionsOf r c thr false) ↔
      ∃ i j, i < r ∧ j < c ∧ 0 < occ ms thr i j ∧ x = [Int.ofNat i, Int.ofNat j] := by
  simp only [List.mem_flatMap, mem_directionsOf, occ, List.countP_pos_iff, decide_eq_true_eq]
  change _ ↔ ∃ i j, i < r ∧ j < c ∧ (∃ m ∈ ms, thr < |nan0 (m i j)|) ∧ _
  constructor
  · rintro ⟨m, hm, i, j, hi, hj, h, rfl⟩; exact ⟨i, j, hi, hj, ⟨m, hm, h⟩, rfl⟩
  · rintro ⟨i, j, hi, hj, ⟨m, hm, h⟩, rfl⟩; exact ⟨m, hm, i, j, hi, hj, h, rfl⟩

theorem mem_dirs_true {ms : List Mat} {r c : Nat} {thr : ℚ} {x : List Int} :
    x ∈ ms.flatMap (directionsOf r c thr true) ↔
      ∃ i j s, i < r ∧ j < c ∧ 0 < occSign ms thr i j s ∧ x = [Int.ofNat i, Int.ofNat j, s] := by
  simp only [List.mem_flatMap, mem_directionsOf, occSign, List.countP_pos_iff, decide_eq_true_eq]
  constructor
  · rintro ⟨m, hm, i, j, hi, hj, h, rfl⟩; exact ⟨i, j, _, hi, hj, ⟨m, hm, h, rfl⟩, rfl⟩
  · rintro ⟨i, j, s, hi, hj, ⟨m, hm, h, rfl⟩, rfl⟩; exact ⟨m, hm, i, j, hi, hj, h, rfl⟩

theorem occ_eq_signs {ms : List Mat} {thr : ℚ} (h0 : 0 ≤ thr) (i j : Nat) :
    occ ms thr i j = occSign ms thr i j 1 + occSign ms thr i j (-1) := by
  change ms.countP (fun m => decide (thr < |nan0 (m i j)|)) = _
  unfold occSign
  induction ms with
  | nil => rfl
  | cons m ms ih =>
    simp only [List.countP_cons, ih]
    by_cases h : thr < |nan0 (m i j)|
    · rcases sgn_pm h0 h with hs | hs
      · simp [h, hs]; omega
      · simp [h, hs]; omega
    · simp [h]

theorem checkParams_ok {k : Option Int} {thr : Option ℚ} {k' : Option Nat} {t : ℚ}
    (h : checkParams k thr = .ok (k', t)) : 0 ≤ t ∧ t = thr.getD 0 ∧ k' = k.map Int.toNat ∧ (∀ q, k = some q → 0 < q) ∧
      ∀ q, thr = some q → 0 < q := by
  unfold checkParams at h
  split at h
  · split at h
    · injection h with h; injection h with h1 h2; subst h1; subst h2; simp_all
    · cases h
  · injection h with h; injection h with h1 h2; subst h1; subst h2; simp
  · split at h
    · split at h
      · injection h with h; injection h with h1 h2; subst h1; subst h2; simp_all; linarith
      · cases h
    · cases h
  · split at h
    · injection h with h; injection h with h1 h2; subst h1; subst h2; simp_all; linarith
    · cases h

theorem checkParams_iff {k : Option Int} {thr : Option ℚ} :
    (∃ p, checkParams k thr = .ok p) ↔ (∀ q, k = some q → 0 < q) ∧ ∀ q, thr = some q → 0 < q := by
  unfold checkParams
  cases k <;> cases thr <;> simp <;> split <;> simp_all
  · split <;> simp_all

/-! ### DAG counts -/

theorem flat_length (f : Nat → Nat → Int) (c : Nat) : ∀ r,
    ((List.range r).flatMap (fun i => (List.range c).map (f i))).length = r * c
  | 0 => by simp
  | r + 1 => by
    rw [List.range_succ, List.flatMap_append, List.length_append, flat_length f c r]
    simp [Nat.succ_mul]

theorem flat_get (f : Nat → Nat → Int) (c : Nat) {j : Nat} (hj : j < c) : ∀ {r i : Nat}, i < r →
    ((List.range r).flatMap (fun i => (List.range c).map (f i)))[i * c + j]? = some (f i j)
  | 0, i, h => absurd h (by omega)
  | r + 1, i, h => by
    rw [List.range_succ, List.flatMap_append]
    by_cases hi : i < r
    · rw [List.getElem?_append_left, flat_get f c hj hi]
      rw [flat_length]
      have : (i + 1) * c ≤ r * c := Nat.mul_le_mul_right c hi
      rw [Nat.succ_mul] at this
      omega
    · have : i = r := by omega
      subst this
      rw [List.getElem?_append_right (by rw [flat_length]; omega), flat_length]
      simp [hj]

/-- The (signed) cell value of the thresholded matrix. -/
def cellOf (thr : ℚ) (split : Bool) (m : Mat) (i j : Nat) : Int :=
  if thr < |nan0 (m i j)| then (if split then sgn (nan0 (m i j)) else 1) else 0

theorem dagOf_getD {r c : Nat} {thr : ℚ} {split : Bool} {m : Mat} {i j : Nat} (hi : i < r) (hj : j < c) :
    (dagOf r c thr split m).getD (i * c + j) 0 = cellOf thr split m i j := by
  have := flat_get (cellOf thr split m) c hj hi
  rw [List.getD, show dagOf r c thr split m = (List.range r).flatMap (fun i => (List.range c).map
    (cellOf thr split m i)) from rfl, this]
  rfl

theorem dagOf_eq_iff {r c : Nat} {thr : ℚ} {split : Bool} {m m' : Mat} :
    dagOf r c thr split m = dagOf r c thr split m' ↔
      ∀ i, i < r → ∀ j, j < c → cellOf thr split m i j = cellOf thr split m' i j := by
  constructor
  · intro h i hi j hj
    rw [← dagOf_getD (r := r) hi hj, h, dagOf_getD hi hj]
  · intro h
    change (List.range r).flatMap (fun i => (List.range c).map (cellOf thr split m i)) =
      (List.range r).flatMap (fun i => (List.range c).map (cellOf thr split m' i))
    apply List.flatMap_congr
    intro i hi
    apply List.map_congr_left
    intro j hj
    exact h i (List.mem_range.1 hi) j (List.mem_range.1 hj)

theorem sgn_eq {x y thr : ℚ} (h0 : 0 ≤ thr) :
    ((if thr < |x| then sgn x else 0) = (if thr < |y| then sgn y else 0)) ↔
      (thr < x ↔ thr < y) ∧ (x < -thr ↔ y < -thr) := by
  have key : ∀ z : ℚ, (if thr < |z| then sgn z else 0) = if thr < z then 1 else if z < -thr then -1 else 0 := by
    intro z
    unfold sgn
    rcases lt_trichotomy z 0 with h | h | h
    · rw [abs_of_neg h, if_neg (not_lt.2 h.le), if_pos h, if_neg (by linarith : ¬ thr < z)]
      by_cases h1 : thr < -z
      · rw [if_pos h1, if_pos (by linarith)]
      · rw [if_neg h1, if_neg (by linarith)]
    · subst h
      rw [abs_zero, if_neg (not_lt.2 h0), if_neg (not_lt.2 h0), if_neg (by linarith)]
    · rw [abs_of_pos h, if_pos h]
      by_cases h1 : thr < z
      · rw [if_pos h1, if_pos h1]
      · rw [if_neg h1, if_neg h1, if_neg (by linarith)]
  rw [key, key]
  by_cases h1 : thr < x <;> by_cases h2 : thr < y <;> by_cases h3 : x < -thr <;> by_cases h4 : y < -thr <;>
    simp [h1, h2, h3, h4] <;> linarith

theorem dagOf_false_iff {r c : Nat} {thr : ℚ} {m m' : Mat} :
    dagOf r c thr false m = dagOf r c thr false m' ↔ SameEdges r c thr m m' := by
  rw [dagOf_eq_iff]
  refine forall_congr' fun i => forall_congr' fun _ => forall_congr' fun j => forall_congr' fun _ => ?_
  change _ ↔ (thr < |nan0 (m i j)| ↔ thr < |nan0 (m' i j)|)
  unfold cellOf
  by_cases h1 : thr < |nan0 (m i j)| <;> by_cases h2 : thr < |nan0 (m' i j)| <;> simp [h1, h2]

theorem dagOf_true_iff {r c : Nat} {thr : ℚ} (h0 : 0 ≤ thr) {m m' : Mat} :
    dagOf r c thr true m = dagOf r c thr true m' ↔ SameSignedEdges r c thr m m' := by
  rw [dagOf_eq_iff]
  refine forall_congr' fun i => forall_congr' fun _ => forall_congr' fun j => forall_congr' fun _ => ?_
  exact sgn_eq h0

theorem cellOf_ne_zero {thr : ℚ} (h0 : 0 ≤ thr) {split : Bool} {m : Mat} {i j : Nat} :
    cellOf thr split m i j ≠ 0 ↔ thr < |nan0 (m i j)| := by
  unfold cellOf
  split
  · rename_i h
    refine ⟨fun _ => h, fun _ => ?_⟩
    cases split
    · simp
    · rcases sgn_pm h0 h with hs | hs <;> simp [hs]
  · rename_i h; simp [h]

theorem mem_cells {r c : Nat} {thr : ℚ} (h0 : 0 ≤ thr) {split : Bool} {m : Mat} {i j : Nat} :
    (i, j) ∈ cells r c (dagOf r c thr split m) ↔ i < r ∧ j < c ∧ thr < |nan0 (m i j)| := by
  unfold cells
  simp only [List.mem_flatMap, List.mem_range, List.mem_map, List.mem_filter, decide_eq_true_eq, Prod.mk.injEq]
  constructor
  · rintro ⟨i', hi, j', ⟨hj, h⟩, rfl, rfl⟩
    rw [dagOf_getD hi hj, cellOf_ne_zero h0] at h
    exact ⟨hi, hj, h⟩
  · rintro ⟨hi, hj, h⟩
    refine ⟨i, hi, j, ⟨hj, ?_⟩, rfl, rfl⟩
    rw [dagOf_getD hi hj, cellOf_ne_zero h0]
    exact h

theorem nodup_cells (r c : Nat) (flat : List Int) : (cells r c flat).Nodup := by
  unfold cells
  rw [List.nodup_flatMap]
  refine ⟨fun i _ => (List.nodup_range.filter _).map (fun a b h => by simpa using h), ?_⟩
  refine List.nodup_range.imp ?_
  intro a b hab x hx hy
  obtain ⟨_, _, rfl⟩ := List.mem_map.1 hx
  obtain ⟨_, _, h⟩ := List.mem_map.1 hy
  exact hab (by simpa using (Prod.mk.inj h).1.symm)

theorem cnt_map {α β : Type} [DecidableEq β] (f : α → β) (ms : List α) (x : β) :
    cnt (ms.map f) x = ms.countP (fun m => decide (f m = x)) := by
  unfold cnt
  rw [List.count, List.countP_map]
  apply List.countP_congr
  intro a _
  simp

theorem cnt_pos {α : Type} [DecidableEq α] {l : List α} {x : α} : 0 < cnt l x ↔ x ∈ l := List.count_pos_iff

theorem sum_cnt_dedup {α : Type} [DecidableEq α] (l : List α) : (l.dedup.map (cnt l)).sum = l.length :=
  List.sum_map_count_dedup_eq_length l

/-! ### Median -/

theorem median_spec {l : List ℚ} (h : l ≠ []) : IsMedian l (median l) := by
  have hp := List.mergeSort_perm l (fun a b => decide (a ≤ b))
  have hl : 0 < l.length := List.length_pos_iff.2 h
  have hlen := hp.length_eq
  refine ⟨h, _, hp, ?_, _, _, List.getElem?_eq_getElem (by omega), List.getElem?_eq_getElem (by omega), ?_⟩
  · have := List.pairwise_mergeSort (le := fun a b : ℚ => decide (a ≤ b))
      (by intro a b c; simp only [decide_eq_true_eq]; exact le_trans)
      (by intro a b; simp only [Bool.or_eq_true, decide_eq_true_eq]; exact le_total _ _) l
    exact this.imp (by simp)
  · unfold median
    simp only
    rw [List.getD, List.getD, List.getElem?_eq_getElem (by omega), List.getElem?_eq_getElem (by omega)]
    rfl

/-! ### Path strings -/

theorem digit_ne_underscore {d : Nat} (h : d < 10) : Char.ofNat (48 + d) ≠ '_' := by
  have : d = 0 ∨ d = 1 ∨ d = 2 ∨ d = 3 ∨ d = 4 ∨ d = 5 ∨ d = 6 ∨ d = 7 ∨ d = 8 ∨ d = 9 := by omega
  rcases this with rfl | rfl | rfl | rfl | rfl | rfl | rfl | rfl | rfl | rfl <;> decide

theorem digit_value {d : Nat} (h : d < 10) : (Char.ofNat (48 + d)).toNat - 48 = d := by
  have : d = 0 ∨ d = 1 ∨ d = 2 ∨ d = 3 ∨ d = 4 ∨ d = 5 ∨ d = 6 ∨ d = 7 ∨ d = 8 ∨ d = 9 := by omega
  rcases this with rfl | rfl | rfl | rfl | rfl | rfl | rfl | rfl | rfl | rfl <;> decide

theorem natStr_no_underscore (k : Nat) : '_' ∉ natStr k := by
  induction k using Nat.strongRecOn with
  | _ k ih =>
    rw [natStr]
    split
    · rename_i h
      simpa using (digit_ne_underscore h).symm
    · rename_i h
      intro hm
      rcases List.mem_append.1 hm with hm | hm
      · exact ih (k / 10) (by omega) hm
      · simp at hm
        exact digit_ne_underscore (Nat.mod_lt k (by omega)) hm.symm

theorem parse_natStr (k : Nat) : parseNat (natStr k) = k := by
  induction k using Nat.strongRecOn with
  | _ k ih =>
    rw [natStr]
    split
    · rename_i h
      simp [parseNat, digit_value h]
    · rename_i h
      have := ih (k / 10) (by omega)
      unfold parseNat at this ⊢
      rw [List.foldl_append, this]
      simp only [List.foldl_cons, List.foldl_nil]
      rw [digit_value (Nat.mod_lt k (by omega))]
      omega

theorem decode_encode {p : List Nat} (hp : p ≠ []) : decode (encode p) = p := by
  unfold decode encode
  rw [List.splitOn_intercalate '_' (by
    intro l hl
    obtain ⟨k, _, rfl⟩ := List.mem_map.1 hl
    exact natStr_no_underscore k) (by simpa using hp)]
  rw [List.map_map]
  conv => rhs; rw [← List.map_id p]
  apply List.map_congr_left
  intro k _
  exact parse_natStr k

theorem encode_inj {p q : List Nat} (hp : p ≠ []) (hq : q ≠ []) (h : encode p = encode q) : p = q := by
  rw [← decode_encode hp, h, decode_encode hq]

end Verif.Boot
