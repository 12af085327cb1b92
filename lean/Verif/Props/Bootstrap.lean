import Verif.Proofs.Bootstrap
import Verif.Props.Paths
import Verif.Props.DirectLingam
import Mathlib.Tactic.FieldSimp
import Mathlib.Tactic.Ring
import Mathlib.Tactic.IntervalCases
import Mathlib.Tactic.Positivity

/-!
# Bootstrap results (C16–C22)

`as : Argsort` is any behaviour of `np.argsort` on ties.
-/
set_option linter.unusedSectionVars false
set_option autoImplicit false
namespace Verif.Boot

/-- The parameters pass the checks of the method. -/
def ValidParams (k : Option Int) (thr : Option ℚ) : Prop :=
  (∀ q, k = some q → 0 < q) ∧ ∀ q, thr = some q → 0 < q

theorem params_ok {k : Option Int} {thr : Option ℚ} (h : ValidParams k thr) :
    checkParams k thr = .ok (k.map Int.toNat, thr.getD 0) ∧ 0 ≤ thr.getD 0 := by
  obtain ⟨⟨k', t⟩, h'⟩ := checkParams_iff.2 h
  obtain ⟨h1, h2, h3, _⟩ := checkParams_ok h'
  subst h2; subst h3
  exact ⟨h', h1⟩

/-- Invalid parameters are rejected. -/
theorem C16_invalid_params (as : Argsort) (r c : Nat) (ms : List Mat) (k : Option Int) (thr : Option ℚ) (split : Bool)
    (h : ¬ ValidParams k thr) : ∃ e, directionCounts as r c ms k thr split = .error e := by
  cases hc : checkParams k thr with
  | error e => exact ⟨e, by simp [directionCounts, hc, bind, Except.bind]⟩
  | ok p => exact absurd (checkParams_iff.1 ⟨p, hc⟩) h

/-- C16: direction counts. `rows` are the listed `(from, to, count)`. -/
theorem C16_direction_counts (as : Argsort) (r c : Nat) {ms : List Mat} (hms : ms ≠ []) {k : Option Int}
    {thr : Option ℚ} (hv : ValidParams k thr) :
    ∃ rows : List (Nat × Nat × Nat),
      directionCounts as r c ms k thr false = .ok ⟨rows.map (fun x => (x.1 : Int)), rows.map (fun x => (x.2.1 : Int)),
        rows.map (fun x => x.2.2), none⟩ ∧
      (rows.map (fun x => (x.1, x.2.1))).Nodup ∧
      (∀ x ∈ rows, x.1 < c ∧ x.2.1 < r ∧ x.2.2 = occ ms (thr.getD 0) x.2.1 x.1 ∧ 0 < x.2.2) ∧
      rows.Pairwise (fun a b => b.2.2 ≤ a.2.2) ∧
      (k = none → ∀ i j, i < r → j < c → 0 < occ ms (thr.getD 0) i j → (j, i, occ ms (thr.getD 0) i j) ∈ rows) ∧
      (∀ i j, i < r → j < c → (j, i) ∉ rows.map (fun x => (x.1, x.2.1)) →
        ∀ x ∈ rows, occ ms (thr.getD 0) i j ≤ x.2.2) ∧
      (∀ q, k = some q → (rows.length : Int) ≤ q ∧
        ((∃ i j, i < r ∧ j < c ∧ 0 < occ ms (thr.getD 0) i j ∧ (j, i) ∉ rows.map (fun x => (x.1, x.2.1))) →
          (rows.length : Int) = q)) := by
  obtain ⟨hp, h0⟩ := params_ok hv
  have hpos : ∀ q, k = some q → 0 < q := hv.1
  generalize htg : thr.getD 0 = t at hp h0 ⊢
  by_cases hd : ms.flatMap (directionsOf r c t false) = []
  · have hocc : ∀ i j, i < r → j < c → occ ms t i j = 0 := by
      intro i j hi hj
      by_contra hc
      have : [Int.ofNat i, Int.ofNat j] ∈ ms.flatMap (directionsOf r c t false) :=
        mem_dirs_false.2 ⟨i, j, hi, hj, by omega, rfl⟩
      rw [hd] at this; simp at this
    refine ⟨[], ?_, by simp, by simp, by simp, ?_, by simp, ?_⟩
    · simp [directionCounts, hp, bind, Except.bind, hms, hd]
    · intro _ i j hi hj h; rw [hocc i j hi hj] at h; omega
    · intro q hq
      refine ⟨by have := hpos q hq; simp; omega, ?_⟩
      rintro ⟨i, j, hi, hj, h, _⟩
      rw [hocc i j hi hj] at h; omega
  · have ht := isTop as (k.map Int.toNat) lexLe (ms.flatMap (directionsOf r c t false))
    generalize htop : topCounts as (k.map Int.toNat) (uniq lexLe (ms.flatMap (directionsOf r c t false))) = top at ht
    have hform : ∀ p ∈ top, ∃ i j, i < r ∧ j < c ∧ 0 < occ ms t i j ∧ p = ([Int.ofNat i, Int.ofNat j], occ ms t i j) := by
      intro p hp'
      obtain ⟨h1, h2⟩ := ht.exact p hp'
      obtain ⟨i, j, hi, hj, hpos, he⟩ := mem_dirs_false.1 h1
      refine ⟨i, j, hi, hj, hpos, ?_⟩
      obtain ⟨p1, p2⟩ := p
      simp only at he h2
      subst he
      rw [count_directions ms r c t hi hj] at h2
      rw [h2]
    have hmemfst : ∀ i j, (j, i) ∈ (top.map (fun p => ((p.1.getD 1 0).toNat, (p.1.getD 0 0).toNat, p.2))).map
        (fun x => (x.1, x.2.1)) ↔ [Int.ofNat i, Int.ofNat j] ∈ top.map Prod.fst := by
      intro i j
      simp only [List.map_map, List.mem_map, Function.comp_apply, Prod.mk.injEq]
      constructor
      · rintro ⟨p, hp', h1, h2⟩
        obtain ⟨i', j', _, _, _, rfl⟩ := hform p hp'
        simp at h1 h2
        subst h1; subst h2
        exact ⟨_, hp', rfl⟩
      · rintro ⟨p, hp', h1⟩
        refine ⟨p, hp', ?_, ?_⟩ <;> rw [h1] <;> simp
    refine ⟨top.map (fun p => ((p.1.getD 1 0).toNat, (p.1.getD 0 0).toNat, p.2)), ?_, ?_, ?_, ?_, ?_, ?_, ?_⟩
    · simp only [directionCounts, hp, bind, Except.bind, hms, hd, if_false, htop, List.map_map]
      congr 2
      · apply List.map_congr_left
        intro p hp'
        obtain ⟨i, j, _, _, _, rfl⟩ := hform p hp'
        simp
      · apply List.map_congr_left
        intro p hp'
        obtain ⟨i, j, _, _, _, rfl⟩ := hform p hp'
        simp
    · rw [List.map_map]
      have := ht.nodup
      refine List.Nodup.map_on ?_ (List.Nodup.of_map _ this)
      intro p hp' p' hp'' he
      obtain ⟨i, j, _, _, _, rfl⟩ := hform p hp'
      obtain ⟨i', j', _, _, _, rfl⟩ := hform p' hp''
      simp at he
      obtain ⟨rfl, rfl⟩ := he
      rfl
    · intro x hx
      obtain ⟨p, hp', rfl⟩ := List.mem_map.1 hx
      obtain ⟨i, j, hi, hj, hpos, rfl⟩ := hform p hp'
      simpa using ⟨hj, hi, hpos⟩
    · rw [List.pairwise_map]
      exact ht.sorted.imp (by simp)
    · intro hk i j hi hj h
      have := ht.complete (by simp [hk]) _ (mem_dirs_false.2 ⟨i, j, hi, hj, h, rfl⟩)
      refine List.mem_map.2 ⟨_, this, ?_⟩
      rw [count_directions ms r c t hi hj]
      simp
    · intro i j hi hj hno x hx
      rw [hmemfst] at hno
      obtain ⟨p, hp', rfl⟩ := List.mem_map.1 hx
      by_cases hz : 0 < occ ms t i j
      · have := ht.top _ (mem_dirs_false.2 ⟨i, j, hi, hj, hz, rfl⟩) hno p hp'
        rw [count_directions ms r c t hi hj] at this
        exact this
      · omega
    · intro q hq
      have hq0 := hpos q hq
      have := ht.full (q := q.toNat) (by simp [hq])
      rw [List.length_map]
      refine ⟨by omega, ?_⟩
      rintro ⟨i, j, hi, hj, h, hno⟩
      rw [hmemfst] at hno
      have := this.2 ⟨_, mem_dirs_false.2 ⟨i, j, hi, hj, h, rfl⟩, hno⟩
      omega

/-- C17: direction counts split by sign. `rows` are the listed `(from, to, sign, count)`; the count is the number of
samples with a coefficient above `thr` (sign 1) or below `-thr` (sign -1). -/
theorem C17_signed_direction_counts (as : Argsort) (r c : Nat) {ms : List Mat} (hms : ms ≠ []) {k : Option Int}
    {thr : Option ℚ} (hv : ValidParams k thr) :
    ∃ rows : List (Nat × Nat × Int × Nat),
      directionCounts as r c ms k thr true = .ok ⟨rows.map (fun x => (x.1 : Int)), rows.map (fun x => (x.2.1 : Int)),
        rows.map (fun x => x.2.2.2), some (rows.map (fun x => x.2.2.1))⟩ ∧
      (rows.map (fun x => (x.1, x.2.1, x.2.2.1))).Nodup ∧
      (∀ x ∈ rows, x.1 < c ∧ x.2.1 < r ∧ 0 < x.2.2.2 ∧
        ((x.2.2.1 = 1 ∧ x.2.2.2 = occPos ms (thr.getD 0) x.2.1 x.1) ∨
         (x.2.2.1 = -1 ∧ x.2.2.2 = occNeg ms (thr.getD 0) x.2.1 x.1))) ∧
      rows.Pairwise (fun a b => b.2.2.2 ≤ a.2.2.2) ∧
      (k = none → ∀ i j, i < r → j < c →
        (0 < occPos ms (thr.getD 0) i j → (j, i, 1, occPos ms (thr.getD 0) i j) ∈ rows) ∧
        (0 < occNeg ms (thr.getD 0) i j → (j, i, -1, occNeg ms (thr.getD 0) i j) ∈ rows)) ∧
      (∀ i j, i < r → j < c →
        ((j, i, 1) ∉ rows.map (fun x => (x.1, x.2.1, x.2.2.1)) → ∀ x ∈ rows, occPos ms (thr.getD 0) i j ≤ x.2.2.2) ∧
        ((j, i, -1) ∉ rows.map (fun x => (x.1, x.2.1, x.2.2.1)) → ∀ x ∈ rows, occNeg ms (thr.getD 0) i j ≤ x.2.2.2)) ∧
      (∀ q, k = some q → (rows.length : Int) ≤ q) := by
  obtain ⟨hp, h0⟩ := params_ok hv
  have hpos : ∀ q, k = some q → 0 < q := hv.1
  generalize htg : thr.getD 0 = t at hp h0 ⊢
  simp only [← occSign_one h0, ← occSign_neg_one h0]
  by_cases hd : ms.flatMap (directionsOf r c t true) = []
  · have hocc : ∀ i j s, i < r → j < c → occSign ms t i j s = 0 := by
      intro i j s hi hj
      by_contra hc
      have : [Int.ofNat i, Int.ofNat j, s] ∈ ms.flatMap (directionsOf r c t true) :=
        mem_dirs_true.2 ⟨i, j, s, hi, hj, by omega, rfl⟩
      rw [hd] at this; simp at this
    refine ⟨[], ?_, by simp, by simp, by simp, ?_, by simp, ?_⟩
    · simp [directionCounts, hp, bind, Except.bind, hms, hd]
    · intro _ i j hi hj
      rw [hocc i j _ hi hj, hocc i j _ hi hj]
      exact ⟨fun h => by omega, fun h => by omega⟩
    · intro q hq
      have := hpos q hq; simp; omega
  · have ht := isTop as (k.map Int.toNat) lexLe (ms.flatMap (directionsOf r c t true))
    generalize htop : topCounts as (k.map Int.toNat) (uniq lexLe (ms.flatMap (directionsOf r c t true))) = top at ht
    have hform : ∀ p ∈ top, ∃ i j s, i < r ∧ j < c ∧ 0 < occSign ms t i j s ∧
        p = ([Int.ofNat i, Int.ofNat j, s], occSign ms t i j s) := by
      intro p hp'
      obtain ⟨h1, h2⟩ := ht.exact p hp'
      obtain ⟨i, j, s, hi, hj, hpos, he⟩ := mem_dirs_true.1 h1
      refine ⟨i, j, s, hi, hj, hpos, ?_⟩
      obtain ⟨p1, p2⟩ := p
      simp only at he h2
      subst he
      rw [count_directions_sign ms r c t hi hj] at h2
      rw [h2]
    have hmemfst : ∀ i j s, (j, i, s) ∈ (top.map (fun p => ((p.1.getD 1 0).toNat, (p.1.getD 0 0).toNat, p.1.getD 2 0,
        p.2))).map (fun x => (x.1, x.2.1, x.2.2.1)) ↔ [Int.ofNat i, Int.ofNat j, s] ∈ top.map Prod.fst := by
      intro i j s
      simp only [List.map_map, List.mem_map, Function.comp_apply, Prod.mk.injEq]
      constructor
      · rintro ⟨p, hp', h1, h2, h3⟩
        obtain ⟨i', j', s', _, _, _, rfl⟩ := hform p hp'
        simp at h1 h2 h3
        subst h1; subst h2; subst h3
        exact ⟨_, hp', rfl⟩
      · rintro ⟨p, hp', h1⟩
        refine ⟨p, hp', ?_, ?_, ?_⟩ <;> rw [h1] <;> simp
    have hcomp : k = none → ∀ i j s, i < r → j < c → 0 < occSign ms t i j s →
        (j, i, s, occSign ms t i j s) ∈ top.map (fun p => ((p.1.getD 1 0).toNat, (p.1.getD 0 0).toNat, p.1.getD 2 0,
        p.2)) := by
      intro hk i j s hi hj h
      have := ht.complete (by simp [hk]) _ (mem_dirs_true.2 ⟨i, j, s, hi, hj, h, rfl⟩)
      refine List.mem_map.2 ⟨_, this, ?_⟩
      rw [count_directions_sign ms r c t hi hj]
      simp
    have htopn : ∀ i j s, i < r → j < c → (j, i, s) ∉ (top.map (fun p => ((p.1.getD 1 0).toNat, (p.1.getD 0 0).toNat,
        p.1.getD 2 0, p.2))).map (fun x => (x.1, x.2.1, x.2.2.1)) →
        ∀ x ∈ top.map (fun p => ((p.1.getD 1 0).toNat, (p.1.getD 0 0).toNat, p.1.getD 2 0, p.2)),
          occSign ms t i j s ≤ x.2.2.2 := by
      intro i j s hi hj hno x hx
      rw [hmemfst] at hno
      obtain ⟨p, hp', rfl⟩ := List.mem_map.1 hx
      by_cases hz : 0 < occSign ms t i j s
      · have := ht.top _ (mem_dirs_true.2 ⟨i, j, s, hi, hj, hz, rfl⟩) hno p hp'
        rw [count_directions_sign ms r c t hi hj] at this
        exact this
      · omega
    refine ⟨top.map (fun p => ((p.1.getD 1 0).toNat, (p.1.getD 0 0).toNat, p.1.getD 2 0, p.2)), ?_, ?_, ?_, ?_, ?_, ?_,
      ?_⟩
    · simp only [directionCounts, hp, bind, Except.bind, hms, hd, if_false, htop, List.map_map]
      congr 2
      · apply List.map_congr_left
        intro p hp'
        obtain ⟨i, j, s, _, _, _, rfl⟩ := hform p hp'
        simp
      · apply List.map_congr_left
        intro p hp'
        obtain ⟨i, j, s, _, _, _, rfl⟩ := hform p hp'
        simp
    · rw [List.map_map]
      have := ht.nodup
      refine List.Nodup.map_on ?_ (List.Nodup.of_map _ this)
      intro p hp' p' hp'' he
      obtain ⟨i, j, s, _, _, _, rfl⟩ := hform p hp'
      obtain ⟨i', j', s', _, _, _, rfl⟩ := hform p' hp''
      simp at he
      obtain ⟨rfl, rfl, rfl⟩ := he
      rfl
    · intro x hx
      obtain ⟨p, hp', rfl⟩ := List.mem_map.1 hx
      obtain ⟨i, j, s, hi, hj, hpos, rfl⟩ := hform p hp'
      rcases occSign_other h0 hpos with rfl | rfl
      · simpa using ⟨hj, hi, hpos⟩
      · simpa using ⟨hj, hi, hpos⟩
    · rw [List.pairwise_map]
      exact ht.sorted.imp (by simp)
    · intro hk i j hi hj
      exact ⟨hcomp hk i j 1 hi hj, hcomp hk i j (-1) hi hj⟩
    · intro i j hi hj
      exact ⟨htopn i j 1 hi hj, htopn i j (-1) hi hj⟩
    · intro q hq
      have hq0 := hpos q hq
      have := ht.full (q := q.toNat) (by simp [hq])
      rw [List.length_map]
      omega

/-- C17: the split counts sum to the unsplit count. -/
theorem C17_signs_sum (ms : List Mat) {thr : ℚ} (h0 : 0 ≤ thr) (i j : Nat) :
    occ ms thr i j = occPos ms thr i j + occNeg ms thr i j := by
  rw [← occSign_one h0, ← occSign_neg_one h0]
  exact occ_eq_signs h0 i j

/-! ### DAG counts -/

/-- The relation by which DAG counting groups samples. -/
def SameDag (split : Bool) (r c : Nat) (thr : ℚ) (m m' : Mat) : Prop :=
  if split then SameSignedEdges r c thr m m' else SameEdges r c thr m m'

theorem dagOf_iff {split : Bool} {r c : Nat} {thr : ℚ} (h0 : 0 ≤ thr) {m m' : Mat} :
    dagOf r c thr split m = dagOf r c thr split m' ↔ SameDag split r c thr m m' := by
  cases split
  · exact dagOf_false_iff
  · exact dagOf_true_iff h0

/-- A listed DAG describes the thresholded graph of `m`: the lists `from`/`to` (and `sign`) enumerate each edge once. -/
def Describes (split : Bool) (r c : Nat) (thr : ℚ) (m : Mat) (d : Dag) : Prop :=
  ∃ E : List (Nat × Nat), E.Nodup ∧ (∀ i j, (i, j) ∈ E ↔ i < r ∧ j < c ∧ thr < |(m i j).getD 0|) ∧
    d.src = E.map Prod.snd ∧ d.dst = E.map Prod.fst ∧
    d.sign = if split then some (E.map (fun p => if 0 < (m p.1 p.2).getD 0 then 1 else -1)) else none

theorem toDag_describes {split : Bool} {r c : Nat} {thr : ℚ} (h0 : 0 ≤ thr) (m : Mat) :
    Describes split r c thr m (toDag r c split (dagOf r c thr split m)) := by
  refine ⟨cells r c (dagOf r c thr split m), nodup_cells _ _ _, fun i j => mem_cells h0, rfl, rfl, ?_⟩
  unfold toDag
  cases split
  · rfl
  · simp only [if_true, Option.some.injEq]
    apply List.map_congr_left
    rintro ⟨i, j⟩ hp
    obtain ⟨hi, hj, h⟩ := (mem_cells h0).1 hp
    rw [dagOf_getD hi hj]
    simp only [cellOf, h, if_true]
    change sgn (Paths.nan0 (m i j)) = if 0 < Paths.nan0 (m i j) then 1 else -1
    unfold sgn
    split
    · rfl
    · rename_i h1
      have : Paths.nan0 (m i j) < 0 := by
        rcases lt_trichotomy (Paths.nan0 (m i j)) 0 with h2 | h2 | h2
        · exact h2
        · rw [h2, abs_zero] at h; exact absurd h (not_lt.2 h0)
        · exact absurd h2 h1
      rw [if_pos this]

/-- C18: DAG counts group the samples exactly by their thresholded (signed) edge set. `reps` pairs each listed DAG
with a sample having it and with the count. -/
theorem C18_dag_counts (as : Argsort) (r c : Nat) (ms : List Mat) {k : Option Int} {thr : Option ℚ}
    (hv : ValidParams k thr) (split : Bool) :
    ∃ reps : List (Mat × Dag × Nat),
      dagCounts as r c ms k thr split = .ok (reps.map (fun x => x.2.1), reps.map (fun x => x.2.2)) ∧
      (∀ x ∈ reps, x.1 ∈ ms ∧ Describes split r c (thr.getD 0) x.1 x.2.1 ∧
        x.2.2 = numWhere ms (fun m => SameDag split r c (thr.getD 0) m x.1) ∧ 0 < x.2.2) ∧
      reps.Pairwise (fun x y => ¬ SameDag split r c (thr.getD 0) x.1 y.1) ∧
      reps.Pairwise (fun x y => y.2.2 ≤ x.2.2) ∧
      (k = none → (∀ m ∈ ms, ∃ x ∈ reps, SameDag split r c (thr.getD 0) m x.1) ∧
        (reps.map (fun x => x.2.2)).sum = ms.length) ∧
      (∀ m ∈ ms, (∀ x ∈ reps, ¬ SameDag split r c (thr.getD 0) m x.1) →
        ∀ x ∈ reps, numWhere ms (fun m' => SameDag split r c (thr.getD 0) m' m) ≤ x.2.2) ∧
      (∀ q, k = some q → (reps.length : Int) ≤ q) := by
  classical
  obtain ⟨hp, h0⟩ := params_ok hv
  have hpos : ∀ q, k = some q → 0 < q := hv.1
  generalize htg : thr.getD 0 = t at hp h0 ⊢
  have ht := isTop as (k.map Int.toNat) lexLe (ms.map (dagOf r c t split))
  generalize htop : topCounts as (k.map Int.toNat) (uniq lexLe (ms.map (dagOf r c t split))) = top at ht
  have hcnt : ∀ m, cnt (ms.map (dagOf r c t split)) (dagOf r c t split m) =
      numWhere ms (fun m' => SameDag split r c t m' m) := by
    intro m
    rw [cnt_map]
    unfold numWhere
    apply List.countP_congr
    intro m' _
    simp [dagOf_iff h0]
  -- choose a representative sample for each listed flat matrix
  have hex : ∀ p ∈ top, ∃ m, m ∈ ms ∧ dagOf r c t split m = p.1 := by
    intro p hp'
    obtain ⟨m, hm, he⟩ := List.mem_map.1 (ht.exact p hp').1
    exact ⟨m, hm, he⟩
  let rep : List Int × Nat → Mat := fun p => if h : p ∈ top then (hex p h).choose else fun _ _ => none
  have hrep : ∀ p ∈ top, rep p ∈ ms ∧ dagOf r c t split (rep p) = p.1 := by
    intro p hp'
    simp only [rep, hp', dif_pos]
    exact (hex p hp').choose_spec
  refine ⟨top.map (fun p => (rep p, toDag r c split p.1, p.2)), ?_, ?_, ?_, ?_, ?_, ?_, ?_⟩
  · simp only [dagCounts, hp, bind, Except.bind, htop, List.map_map]
    rfl
  · intro x hx
    obtain ⟨p, hp', rfl⟩ := List.mem_map.1 hx
    obtain ⟨h1, h2⟩ := hrep p hp'
    obtain ⟨h3, h4⟩ := ht.exact p hp'
    refine ⟨h1, ?_, ?_, ?_⟩
    · simp only; rw [← h2]; exact toDag_describes h0 _
    · simp only; rw [h4, ← h2, hcnt]
    · simp only; rw [h4]; exact cnt_pos.2 h3
  · rw [List.pairwise_map]
    have hn : top.Pairwise (fun p q => p.1 ≠ q.1) := List.pairwise_map.1 ht.nodup
    refine hn.imp_of_mem ?_
    intro p q hp' hq' hne hs
    simp only at hs
    rw [← dagOf_iff h0, (hrep p hp').2, (hrep q hq').2] at hs
    exact hne hs
  · rw [List.pairwise_map]
    exact ht.sorted.imp (by simp)
  · intro hk
    constructor
    · intro m hm
      have := ht.complete (by simp [hk]) _ (List.mem_map.2 ⟨m, hm, rfl⟩)
      refine ⟨_, List.mem_map.2 ⟨_, this, rfl⟩, ?_⟩
      rw [← dagOf_iff h0, (hrep _ this).2]
    · rw [List.map_map]
      have hperm : (top.map Prod.fst).Perm (ms.map (dagOf r c t split)).dedup := by
        rw [List.perm_ext_iff_of_nodup ht.nodup (List.nodup_dedup _)]
        intro x
        rw [List.mem_dedup]
        constructor
        · intro hx
          obtain ⟨p, hp', rfl⟩ := List.mem_map.1 hx
          exact (ht.exact p hp').1
        · intro hx
          exact List.mem_map.2 ⟨_, ht.complete (by simp [hk]) x hx, rfl⟩
      have e1 : top.map ((fun x : Mat × Dag × Nat => x.2.2) ∘ fun p => (rep p, toDag r c split p.1, p.2)) =
          (top.map Prod.fst).map (cnt (ms.map (dagOf r c t split))) := by
        rw [List.map_map]
        apply List.map_congr_left
        intro p hp'
        simp only [Function.comp_apply]
        rw [(ht.exact p hp').2]
      rw [e1, (hperm.map _).sum_eq, sum_cnt_dedup, List.length_map]
  · intro m hm hno x hx
    obtain ⟨p, hp', rfl⟩ := List.mem_map.1 hx
    rw [← hcnt]
    refine ht.top _ (List.mem_map.2 ⟨m, hm, rfl⟩) ?_ p hp'
    intro hc
    obtain ⟨q, hq, he⟩ := List.mem_map.1 hc
    refine hno _ (List.mem_map.2 ⟨q, hq, rfl⟩) ?_
    rw [← dagOf_iff h0, (hrep q hq).2, he]
  · intro q hq
    have hq0 := hpos q hq
    have := ht.full (q := q.toNat) (by simp [hq])
    rw [List.length_map]
    omega

/-! ### Probabilities -/

theorem foldl_bp (ms : List Mat) (t : ℚ) (bp : Nat → Nat → ℚ) (i j : Nat) :
    ms.foldl (fun (bp : Nat → Nat → ℚ) B => fun i j => bp i j + (if t < |Paths.nan0 (B i j)| then 1 else 0)) bp i j =
      bp i j + occ ms t i j := by
  induction ms generalizing bp with
  | nil => simp [occ]
  | cons m ms ih =>
    rw [List.foldl_cons, ih]
    have : occ (m :: ms) t i j = occ ms t i j + if t < |Paths.nan0 (m i j)| then 1 else 0 := by
      unfold occ
      rw [List.countP_cons]
      simp only [decide_eq_true_eq]
      rfl
    rw [this]
    push_cast
    split <;> ring

/-- C19: the probability matrix is the fraction of samples with the edge, in [0, 1], so it agrees with the direction
counts of C16 at the same threshold. -/
theorem C19_probabilities {ms : List Mat} (hms : ms ≠ []) {thr : Option ℚ} (hv : ∀ q, thr = some q → 0 < q) :
    ∃ bp, probabilities ms thr = .ok bp ∧ ∀ i j, bp i j * ms.length = occ ms (thr.getD 0) i j ∧ 0 ≤ bp i j ∧ bp i j ≤ 1 := by
  obtain ⟨hp, h0⟩ := params_ok (k := none) ⟨by simp, hv⟩
  refine ⟨fun i j => (occ ms (thr.getD 0) i j : ℚ) / ms.length, ?_, ?_⟩
  · simp only [Option.map_none] at hp
    simp only [probabilities, hp, bind, Except.bind, hms, if_false]
    congr 1
    funext i j
    rw [foldl_bp]
    simp
  · intro i j
    have hl : (0 : ℚ) < ms.length := by exact_mod_cast List.length_pos_iff.2 hms
    have hle : (occ ms (thr.getD 0) i j : ℚ) ≤ ms.length := by exact_mod_cast List.countP_le_length
    refine ⟨by field_simp, by positivity, ?_⟩
    rw [div_le_one hl]; exact hle

/-- C19: probabilities do not increase with the threshold. -/
theorem C19_monotone {ms : List Mat} {t t' : Option ℚ} (ht : t.getD 0 ≤ t'.getD 0) {bp bp' : Nat → Nat → ℚ}
    (h : probabilities ms t = .ok bp) (h' : probabilities ms t' = .ok bp') (i j : Nat) : bp' i j ≤ bp i j := by
  have key : ∀ {t : Option ℚ} {bp : Nat → Nat → ℚ}, probabilities ms t = .ok bp →
      bp i j = (occ ms (t.getD 0) i j : ℚ) / ms.length := by
    intro t bp h
    cases hc : checkParams none t with
    | error e => simp [probabilities, hc, bind, Except.bind] at h
    | ok p =>
      obtain ⟨k', t'⟩ := p
      obtain ⟨_, h2, _⟩ := checkParams_ok hc
      simp only [probabilities, hc, bind, Except.bind] at h
      split at h
      · cases h
      · injection h with h
        rw [← h]
        simp only [foldl_bp, h2]
        simp
  rw [key h, key h']
  apply div_le_div_of_nonneg_right _ (by positivity)
  have : occ ms (t'.getD 0) i j ≤ occ ms (t.getD 0) i j := by
    apply List.countP_mono_left
    intro m _ hm
    simp only [decide_eq_true_eq] at hm ⊢
    exact lt_of_le_of_lt ht hm
  exact_mod_cast this

/-- C19: for the time series models (`c = r * blocks`) the returned blocks tile the probability matrix. -/
theorem C19_blocks {r c : Nat} (bp : Nat → Nat → ℚ) (hc : r ∣ c) :
    (hsplit r c bp).length * r = c ∧
      ∀ j, j < c → ∃ M, (hsplit r c bp)[j / r]? = some M ∧ ∀ i, M i (j % r) = bp i j := by
  unfold hsplit
  constructor
  · simp [Nat.div_mul_cancel hc]
  · intro j hj
    have : j / r < c / r := Nat.div_lt_div_of_lt_of_dvd hc hj
    refine ⟨fun i j' => bp i (j / r * r + j'), by simp [this], ?_⟩
    intro i
    simp only [Nat.div_add_mod']

/-! ### Total causal effects -/

/-- Number of samples whose total effect `j → i` is a number exceeding `thr` in absolute value. -/
def occTotal (ts : List Mat) (thr : ℚ) (i j : Nat) : Nat := ts.countP (fun T => exceeds thr (T i j))

theorem occTotal_eq (ts : List Mat) {thr : ℚ} (h0 : 0 ≤ thr) (i j : Nat) : occTotal ts thr i j = occ ts thr i j := by
  apply List.countP_congr
  intro T _
  unfold exceeds
  cases T i j with
  | none => simp [not_lt.2 h0]
  | some v => simp

theorem prob_eq (ts : List Mat) {thr : ℚ} (h0 : 0 ≤ thr) (i j : Nat) :
    (ts.map (fun T => if exceeds thr (T i j) then (1 : ℚ) else 0)).sum = occ ts thr i j := by
  rw [← occTotal_eq ts h0]
  unfold occTotal
  induction ts with
  | nil => rfl
  | cons T ts ih =>
    rw [List.map_cons, List.sum_cons, ih, List.countP_cons]
    push_cast
    split <;> ring

/-- The samples' total effects `j → i` that are numbers different from zero. -/
def nonzeroEffects (ts : List Mat) (i j : Nat) : List ℚ :=
  ts.filterMap (fun T => (T i j).filter (fun v => decide (v ≠ 0)))

theorem nonzero_eq (ts : List Mat) (i j : Nat) :
    (((ts.map (fun T => T i j)).filter (exceeds 0)).map Paths.nan0) = nonzeroEffects ts i j := by
  unfold nonzeroEffects
  induction ts with
  | nil => rfl
  | cons T ts ih =>
    rw [List.map_cons, List.filterMap_cons]
    cases h : T i j with
    | none => simpa [List.filter_cons, exceeds] using ih
    | some v =>
      by_cases hv : v = 0
      · subst hv
        have h1 : exceeds 0 (some (0 : ℚ)) = false := by simp [exceeds]
        rw [List.filter_cons, h1]
        simpa [Option.filter] using ih
      · have h1 : exceeds 0 (some v) = true := by simp [exceeds, hv]
        rw [List.filter_cons, if_pos h1, List.map_cons, ih]
        simp [Option.filter, hv, Paths.nan0]

/-- C20, the listing: pairs, probabilities, order of `get_total_causal_effects`, and what the effect column contains:
the median over **all** samples with a nonzero total effect. `rows` are `(from, to, effect, probability)`. -/
theorem C20_total_effects_listing (as : Argsort) (n : Nat) {ts : List Mat} (hts : ts ≠ []) {thr : Option ℚ}
    (hv : ∀ q, thr = some q → 0 < q) :
    ∃ rows : List (Nat × Nat × ℚ × ℚ),
      totalCausalEffects as n ts thr = .ok ⟨rows.map (fun x => x.1), rows.map (fun x => x.2.1),
        rows.map (fun x => x.2.2.1), rows.map (fun x => x.2.2.2)⟩ ∧
      (rows.map (fun x => (x.1, x.2.1))).Nodup ∧
      (∀ i j, (j, i) ∈ rows.map (fun x => (x.1, x.2.1)) ↔ i < n ∧ j < n ∧ 0 < occ ts (thr.getD 0) i j) ∧
      (∀ x ∈ rows, x.2.2.2 * ts.length = occ ts (thr.getD 0) x.2.1 x.1 ∧ 0 < x.2.2.2 ∧ x.2.2.2 ≤ 1) ∧
      rows.Pairwise (fun a b => b.2.2.2 ≤ a.2.2.2) ∧
      (∀ x ∈ rows, IsMedian (nonzeroEffects ts x.2.1 x.1) x.2.2.1) := by
  obtain ⟨hp, h0⟩ := params_ok (k := none) ⟨by simp, hv⟩
  simp only [Option.map_none] at hp
  generalize htg : thr.getD 0 = t at hp h0 ⊢
  have hl : (0 : ℚ) < ts.length := by exact_mod_cast List.length_pos_iff.2 hts
  simp only [totalCausalEffects, hp, bind, Except.bind, prob_eq ts h0, nonzero_eq]
  generalize hdirs : (List.range n).flatMap (fun i => ((List.range n).filter (fun j =>
    decide (0 < |(occ ts t i j : ℚ) / ts.length|))).map (fun j => (i, j))) = dirs
  have hmem : ∀ i j, (i, j) ∈ dirs ↔ i < n ∧ j < n ∧ 0 < occ ts t i j := by
    intro i j
    rw [← hdirs]
    simp only [List.mem_flatMap, List.mem_range, List.mem_map, List.mem_filter, decide_eq_true_eq, Prod.mk.injEq,
      abs_pos]
    have hne : ∀ a b, (occ ts t a b : ℚ) / ts.length ≠ 0 ↔ 0 < occ ts t a b := by
      intro a b
      rw [div_ne_zero_iff]
      constructor
      · rintro ⟨h, _⟩; exact Nat.pos_of_ne_zero (by exact_mod_cast h)
      · intro h; exact ⟨by exact_mod_cast h.ne', hl.ne'⟩
    constructor
    · rintro ⟨i', hi, j', ⟨hj, h⟩, rfl, rfl⟩; exact ⟨hi, hj, (hne _ _).1 h⟩
    · rintro ⟨hi, hj, h⟩; exact ⟨i, hi, j, ⟨hj, (hne _ _).2 h⟩, rfl, rfl⟩
  have hnd : dirs.Nodup := by
    rw [← hdirs, List.nodup_flatMap]
    refine ⟨fun i _ => (List.nodup_range.filter _).map (fun a b h => by simpa using h), ?_⟩
    refine List.nodup_range.imp ?_
    intro a b hab x hx hy
    obtain ⟨_, _, rfl⟩ := List.mem_map.1 hx
    obtain ⟨_, _, h⟩ := List.mem_map.1 hy
    exact hab (by simpa using (Prod.mk.inj h).1.symm)
  generalize hrows : dirs.map (fun d => (d, median (nonzeroEffects ts d.1 d.2),
    (occ ts t d.1 d.2 : ℚ) / ts.length)) = rows0
  obtain ⟨hperm, hsort⟩ := sortRows as (fun p : (Nat × Nat) × ℚ × ℚ => -p.2.2) rows0
  generalize hout : take' rows0 (as.run (rows0.map (fun p => -p.2.2))) = out at hperm hsort
  have hform : ∀ p ∈ out, ∃ i j, (i, j) ∈ dirs ∧ p = ((i, j), median (nonzeroEffects ts i j),
      (occ ts t i j : ℚ) / ts.length) := by
    intro p hp'
    have := hperm.mem_iff.1 hp'
    rw [← hrows] at this
    obtain ⟨⟨i, j⟩, h1, rfl⟩ := List.mem_map.1 this
    exact ⟨i, j, h1, rfl⟩
  have hfst : (out.map Prod.fst).Perm dirs := by
    have := hperm.map Prod.fst
    rw [← hrows, List.map_map] at this
    simpa [Function.comp_def] using this
  refine ⟨out.map (fun p => (p.1.2, p.1.1, p.2.1, p.2.2)), ?_, ?_, ?_, ?_, ?_, ?_⟩
  · simp only [List.map_map]
    rfl
  · rw [List.map_map]
    have h1 : out.map ((fun x : Nat × Nat × ℚ × ℚ => (x.1, x.2.1)) ∘ fun p => (p.1.2, p.1.1, p.2.1, p.2.2)) =
        (out.map Prod.fst).map Prod.swap := by rw [List.map_map]; rfl
    rw [h1]
    exact (hfst.nodup_iff.2 hnd).map Prod.swap_injective
  · intro i j
    rw [List.map_map]
    have h1 : out.map ((fun x : Nat × Nat × ℚ × ℚ => (x.1, x.2.1)) ∘ fun p => (p.1.2, p.1.1, p.2.1, p.2.2)) =
        (out.map Prod.fst).map Prod.swap := by rw [List.map_map]; rfl
    rw [h1, Direct.mem_map_swap, hfst.mem_iff, Prod.swap_prod_mk, hmem]
  · intro x hx
    obtain ⟨p, hp', rfl⟩ := List.mem_map.1 hx
    obtain ⟨i, j, hd, rfl⟩ := hform p hp'
    obtain ⟨_, _, h⟩ := (hmem i j).1 hd
    have hle : (occ ts t i j : ℚ) ≤ ts.length := by exact_mod_cast List.countP_le_length
    have hpos : (0 : ℚ) < occ ts t i j := by exact_mod_cast h
    refine ⟨by simp only; field_simp, by simp only; positivity, ?_⟩
    simp only
    rw [div_le_one hl]; exact hle
  · rw [List.pairwise_map]
    exact hsort.imp (by intro a b h; simp only; linarith)
  · intro x hx
    obtain ⟨p, hp', rfl⟩ := List.mem_map.1 hx
    obtain ⟨i, j, hd, rfl⟩ := hform p hp'
    obtain ⟨_, _, h⟩ := (hmem i j).1 hd
    apply median_spec
    obtain ⟨T, hT, hex⟩ := List.countP_pos_iff.1 h
    simp only [decide_eq_true_eq] at hex
    cases hTij : T i j with
    | none => rw [hTij] at hex; simp at hex; linarith
    | some v =>
      rw [hTij] at hex
      have hv0 : v ≠ 0 := by rintro rfl; simp at hex; linarith
      apply List.ne_nil_of_mem (a := v)
      exact List.mem_filterMap.2 ⟨T, hT, by simp [hTij, Option.filter, hv0]⟩

/-- The total effects of the samples counted in the probability. -/
def countedEffects (ts : List Mat) (thr : ℚ) (i j : Nat) : List ℚ :=
  ts.filterMap (fun T => (T i j).filter (fun v => decide (thr < |v|)))

theorem nonzero_eq_counted (ts : List Mat) (i j : Nat) : nonzeroEffects ts i j = countedEffects ts 0 i j := by
  unfold nonzeroEffects countedEffects
  congr 1
  funext T
  congr 1
  funext v
  simp

/-- C20, without a threshold (partial): then the effect column is the median over exactly the samples counted in the
probability. Missing: the same with a threshold, which is false (next theorem). -/
theorem C20_effect_is_median_partial (as : Argsort) (n : Nat) {ts : List Mat} (hts : ts ≠ []) :
    ∃ rows : List (Nat × Nat × ℚ × ℚ),
      totalCausalEffects as n ts none = .ok ⟨rows.map (fun x => x.1), rows.map (fun x => x.2.1),
        rows.map (fun x => x.2.2.1), rows.map (fun x => x.2.2.2)⟩ ∧
      ∀ x ∈ rows, IsMedian (countedEffects ts 0 x.2.1 x.1) x.2.2.1 ∧
        x.2.2.2 * ts.length = (countedEffects ts 0 x.2.1 x.1).length := by
  obtain ⟨rows, h1, _, _, h4, _, h6⟩ := C20_total_effects_listing as n hts (thr := none) (by simp)
  refine ⟨rows, h1, fun x hx => ⟨nonzero_eq_counted ts x.2.1 x.1 ▸ h6 x hx, ?_⟩⟩
  rw [(h4 x hx).1]
  congr 1
  simp only [Option.getD_none, occ, countedEffects, List.length_filterMap_eq_countP]
  apply List.countP_congr
  intro T _
  cases T x.2.1 x.1 with
  | none => simp [Option.filter]
  | some v => by_cases hv : v = 0 <;> simp [Option.filter, hv]

/-- Two samples with total effects 1 and 3 from 0 to 1. -/
def exTotals : List Mat := [fun i j => if i = 1 ∧ j = 0 then some 1 else some 0,
  fun i j => if i = 1 ∧ j = 0 then some 3 else some 0]

/-- C20 (violated): with `min_causal_effect = 2` only the sample with effect 3 is counted (probability 1/2), but the
reported effect is 2, the median of 1 and 3. -/
theorem C20_median_ignores_threshold (as : Argsort) :
    ∃ r, totalCausalEffects as 2 exTotals (some 2) = .ok r ∧ r.src = [0] ∧ r.dst = [1] ∧ r.probability = [1 / 2] ∧
      r.effect = [2] ∧ countedEffects exTotals 2 1 0 = [3] ∧ ¬ IsMedian (countedEffects exTotals 2 1 0) 2 := by
  have has : as.run [-(1 / 2 : ℚ)] = [0] := by
    have := as.perm [-(1 / 2 : ℚ)]
    exact List.perm_singleton.1 this
  have hd : (List.range 2).flatMap (fun i => ((List.range 2).filter (fun j => decide (0 < |((exTotals.map (fun T =>
      if exceeds 2 (T i j) then (1 : ℚ) else 0)).sum) / exTotals.length|))).map (fun j => (i, j))) = [(1, 0)] := by
    decide +kernel
  have hm : median (((exTotals.map (fun T => T 1 0)).filter (exceeds 0)).map Paths.nan0) = 2 := by
    rw [nonzero_eq, show nonzeroEffects exTotals 1 0 = [1, 3] by decide +kernel]
    unfold median
    rw [List.mergeSort_of_pairwise (by decide +kernel)]
    decide +kernel
  have hpr : ((exTotals.map (fun T => if exceeds 2 (T 1 0) then (1 : ℚ) else 0)).sum) / exTotals.length = 1 / 2 := by
    decide +kernel
  have hc : countedEffects exTotals 2 1 0 = [3] := by decide +kernel
  refine ⟨⟨[0], [1], [2], [1 / 2]⟩, ?_, rfl, rfl, rfl, rfl, hc, ?_⟩
  · simp only [totalCausalEffects, checkParams, bind, Except.bind, show (0 : ℚ) < 2 by norm_num, if_true, hd,
      List.map_cons, List.map_nil, hm, hpr, has, take']
    rfl
  · rw [hc]
    rintro ⟨_, s, hs, _, a, b, ha, hb, hx⟩
    rw [List.perm_singleton.1 hs] at ha hb
    simp at ha hb
    subst ha; subst hb
    norm_num at hx

/-! ### Paths -/

open Verif.Paths (clean)

/-- `p` is a directed path `src → … → dst` of the graph of sample `m` at the threshold. -/
def HasPath (n : Nat) (thr : ℚ) (src dst : Nat) (m : Mat) (p : List Nat) : Prop :=
  IsPath (Edge n (clean m) thr) src dst p

theorem collectPaths_acyclic {n src dst : Nat} {thr : ℚ} (hthr : 0 ≤ thr) (hsrc : src < n) (hne : src ≠ dst) :
    ∀ {ms : List Mat}, (∀ m ∈ ms, Acyclic (Edge n (clean m) thr)) →
      collectPaths n src dst thr ms = some (.ok (ms.flatMap (fun m =>
        (Paths.enum (Paths.toIndices n m thr) dst n src).map (fun p => (encode p, some (pathWeight (clean m) p))))))
  | [], _ => rfl
  | m :: ms, h => by
    rw [collectPaths, Paths.findAllPaths_acyclic hthr (h m (by simp)) hsrc hne,
      collectPaths_acyclic hthr hsrc hne (fun m' hm' => h m' (by simp [hm']))]
    simp only [List.flatMap_cons]
    congr 3
    rw [List.zip_map', ]

theorem IsPath.ne_nil {E : Nat → Nat → Prop} {a b : Nat} {p : List Nat} (h : IsPath E a b p) : p ≠ [] := by
  rintro rfl
  simp [IsPath] at h

/-- C21: `get_paths` on acyclic samples. `rows` are `(path, effect, probability)`. -/
theorem C21_get_paths (as : Argsort) (n : Nat) {ms : List Mat} (hms : ms ≠ []) {src dst : Nat} (hsrc : src < n)
    (hne : src ≠ dst) {thr : Option ℚ} (hv : ∀ q, thr = some q → 0 < q)
    (hac : ∀ m ∈ ms, Acyclic (Edge n (clean m) (thr.getD 0))) :
    ∃ rows : List (List Nat × ℚ × ℚ),
      getPaths as n ms src dst thr = some (.ok ⟨rows.map (fun x => x.1), rows.map (fun x => some x.2.1),
        rows.map (fun x => x.2.2)⟩) ∧
      (rows.map (fun x => x.1)).Nodup ∧
      (∀ p, p ∈ rows.map (fun x => x.1) ↔ ∃ m ∈ ms, HasPath n (thr.getD 0) src dst m p) ∧
      (∀ x ∈ rows, x.2.2 * ms.length = numWhere ms (fun m => HasPath n (thr.getD 0) src dst m x.1) ∧
        0 < x.2.2 ∧ x.2.2 ≤ 1) ∧
      rows.Pairwise (fun a b => b.2.2 ≤ a.2.2) ∧
      (∀ x ∈ rows, IsMedian ((listWhere ms (fun m => HasPath n (thr.getD 0) src dst m x.1)).map
        (fun m => pathWeight (clean m) x.1)) x.2.1) := by
  classical
  obtain ⟨hp, h0⟩ := params_ok (k := none) ⟨by simp, hv⟩
  simp only [Option.map_none] at hp
  generalize htg : thr.getD 0 = t at hp h0 hac ⊢
  have hl : (0 : ℚ) < ms.length := by exact_mod_cast List.length_pos_iff.2 hms
  let P : Mat → List (List Nat) := fun m => Paths.enum (Paths.toIndices n m t) dst n src
  have hP : ∀ m ∈ ms, ∀ p, p ∈ P m ↔ HasPath n t src dst m p := fun m hm p => Paths.mem_enum_acyclic (hac m hm) hsrc
  have hPnd : ∀ m, (P m).Nodup := fun m => Paths.enum_nodup (Paths.toIndices_nodup n m t) n src
  have hPne : ∀ m, ∀ p ∈ P m, p ≠ [] := fun m p h => IsPath.ne_nil (Paths.mem_enum.1 h).1
  let all : List (List Char × Option ℚ) := ms.flatMap (fun m =>
    (P m).map (fun p => (encode p, some (pathWeight (clean m) p))))
  have hcol : collectPaths n src dst t ms = some (.ok all) := collectPaths_acyclic h0 hsrc hne hac
  have hfst : all.map Prod.fst = ms.flatMap (fun m => (P m).map encode) := by
    simp only [all, List.map_flatMap, List.map_map]
    rfl
  have ht := isTop as none strLe (all.map Prod.fst)
  generalize htop : topCounts as none (uniq strLe (all.map Prod.fst)) = top at ht
  have hcnt : ∀ p, p ≠ [] → cnt (all.map Prod.fst) (encode p) = numWhere ms (fun m => HasPath n t src dst m p) := by
    intro p hpne
    rw [hfst, count_flatMap_nodup]
    · unfold numWhere
      apply List.countP_congr
      intro m hm
      simp only [decide_eq_true_eq]
      rw [← hP m hm, List.mem_map]
      constructor
      · rintro ⟨q, hq, he⟩
        rw [← encode_inj (hPne m q hq) hpne he]; exact hq
      · intro h; exact ⟨p, h, rfl⟩
    · intro m
      refine List.Nodup.map_on ?_ (hPnd m)
      intro a ha b hb h
      exact encode_inj (hPne m a ha) (hPne m b hb) h
  have hform : ∀ x ∈ top, ∃ p, p ≠ [] ∧ (∃ m ∈ ms, HasPath n t src dst m p) ∧
      x = (encode p, numWhere ms (fun m => HasPath n t src dst m p)) := by
    intro x hx
    obtain ⟨h1, h2⟩ := ht.exact x hx
    rw [hfst] at h1
    obtain ⟨m, hm, h3⟩ := List.mem_flatMap.1 h1
    obtain ⟨p, hpm, he⟩ := List.mem_map.1 h3
    refine ⟨p, hPne m p hpm, ⟨m, hm, (hP m hm p).1 hpm⟩, ?_⟩
    obtain ⟨x1, x2⟩ := x
    simp only at he h2
    subst he
    rw [h2, hcnt p (hPne m p hpm)]
  have heff : ∀ p, p ≠ [] → (all.filter (fun q => decide (q.1 = encode p))).map Prod.snd =
      ((listWhere ms (fun m => HasPath n t src dst m p)).map (fun m => pathWeight (clean m) p)).map some := by
    intro p hpne
    have step : ∀ m ∈ ms, (((P m).map (fun p => (encode p, some (pathWeight (clean m) p)))).filter
        (fun q => decide (q.1 = encode p))).map Prod.snd =
        if HasPath n t src dst m p then [some (pathWeight (clean m) p)] else [] := by
      intro m hm
      rw [List.filter_map, List.map_map]
      have hfe : (P m).filter ((fun q : List Char × Option ℚ => decide (q.1 = encode p)) ∘
          fun p => (encode p, some (pathWeight (clean m) p))) = (P m).filter (fun q => decide (q = p)) := by
        apply List.filter_congr
        intro q hq
        simp only [Function.comp_apply, decide_eq_decide]
        exact ⟨fun h => encode_inj (hPne m q hq) hpne h, fun h => by rw [h]⟩
      rw [hfe]
      by_cases hh : HasPath n t src dst m p
      · rw [if_pos hh]
        have : (P m).filter (fun q => decide (q = p)) = [p] := by
          have h1 := List.Nodup.filter (fun q => decide (q = p)) (hPnd m)
          have h2 : p ∈ (P m).filter (fun q => decide (q = p)) := by simp [(hP m hm p).2 hh]
          have h3 : ∀ q ∈ (P m).filter (fun q => decide (q = p)), q = p := by
            intro q hq; simpa using (List.mem_filter.1 hq).2
          have h4 := List.eq_replicate_of_mem h3
          have h5 : ((P m).filter (fun q => decide (q = p))).length ≤ 1 := by
            rw [h4] at h1
            by_contra hc
            exact (List.nodup_replicate.1 h1).not_gt (by omega)
          have h6 := List.length_pos_of_mem h2
          rw [h4, show ((P m).filter (fun q => decide (q = p))).length = 1 by omega]
          rfl
        rw [this]; rfl
      · rw [if_neg hh]
        have : (P m).filter (fun q => decide (q = p)) = [] := by
          rw [List.filter_eq_nil_iff]
          intro q hq h
          simp at h; subst h
          exact hh ((hP m hm q).1 hq)
        rw [this]; rfl
    simp only [all]
    unfold listWhere
    clear hcol hfst ht htop hcnt hform
    induction ms with
    | nil => rfl
    | cons m ms ih =>
      rw [List.flatMap_cons, List.filter_append, List.map_append, step m (by simp), List.filter_cons]
      by_cases hms' : ms = []
      · subst hms'
        by_cases hh : HasPath n t src dst m p <;> simp [hh]
      · rw [ih hms' (fun m' hm' => hac m' (by simp [hm'])) (by exact_mod_cast List.length_pos_iff.2 hms')
          (fun m' hm' => hP m' (by simp [hm'])) (fun m' hm' => step m' (by simp [hm']))]
        by_cases hh : HasPath n t src dst m p <;> simp [hh]
  refine ⟨top.map (fun x => (decode x.1, median ((all.filter (fun q => decide (q.1 = x.1))).map
    (fun q => Paths.nan0 q.2)), (x.2 : ℚ) / ms.length)), ?_, ?_, ?_, ?_, ?_, ?_⟩
  · simp only [getPaths, hp, hcol, htop, List.map_map]
    congr 3
    apply List.map_congr_left
    intro x hx
    obtain ⟨p, hpne, _, rfl⟩ := hform x hx
    simp only [Function.comp_apply, medianNan]
    rw [heff p hpne]
    have hany : (((listWhere ms (fun m => HasPath n t src dst m p)).map (fun m => pathWeight (clean m) p)).map
        some).any (fun x => x.isNone) = false := by simp
    rw [hany]
    simp only [Bool.false_eq_true, if_false]
    rw [← heff p hpne, List.map_map]
    rfl
  · rw [List.map_map]
    have := ht.nodup
    refine List.Nodup.map_on ?_ (List.Nodup.of_map _ this)
    intro x hx y hy he
    obtain ⟨p, hpne, _, rfl⟩ := hform x hx
    obtain ⟨q, hqne, _, rfl⟩ := hform y hy
    simp only [Function.comp_apply, decode_encode hpne, decode_encode hqne] at he
    rw [he]
  · intro p
    rw [List.map_map]
    constructor
    · intro h
      obtain ⟨x, hx, rfl⟩ := List.mem_map.1 h
      obtain ⟨q, hqne, hex, rfl⟩ := hform x hx
      simp only [Function.comp_apply, decode_encode hqne]
      exact hex
    · rintro ⟨m, hm, h⟩
      have hmem : encode p ∈ all.map Prod.fst := by
        rw [hfst]
        exact List.mem_flatMap.2 ⟨m, hm, List.mem_map.2 ⟨p, (hP m hm p).2 h, rfl⟩⟩
      refine List.mem_map.2 ⟨_, ht.complete rfl _ hmem, ?_⟩
      simp only [Function.comp_apply]
      exact decode_encode (IsPath.ne_nil h)
  · intro x hx
    obtain ⟨y, hy, rfl⟩ := List.mem_map.1 hx
    obtain ⟨q, hqne, ⟨m, hm, hq⟩, rfl⟩ := hform y hy
    simp only [decode_encode hqne]
    have hpos : 0 < numWhere ms (fun m => HasPath n t src dst m q) :=
      List.countP_pos_iff.2 ⟨m, hm, by simpa using hq⟩
    have hposq : (0 : ℚ) < numWhere ms (fun m => HasPath n t src dst m q) := by exact_mod_cast hpos
    have hle : (numWhere ms (fun m => HasPath n t src dst m q) : ℚ) ≤ ms.length := by
      exact_mod_cast List.countP_le_length
    refine ⟨by field_simp, by positivity, ?_⟩
    rw [div_le_one hl]; exact hle
  · rw [List.pairwise_map]
    refine ht.sorted.imp ?_
    intro a b h
    have : (b.2 : ℚ) ≤ a.2 := by exact_mod_cast h
    exact div_le_div_of_nonneg_right this hl.le
  · intro x hx
    obtain ⟨y, hy, rfl⟩ := List.mem_map.1 hx
    obtain ⟨q, hqne, ⟨m, hm, hq⟩, rfl⟩ := hform y hy
    simp only [decode_encode hqne]
    have e : (all.filter (fun r => decide (r.1 = encode q))).map (fun r => Paths.nan0 r.2) =
        (listWhere ms (fun m => HasPath n t src dst m q)).map (fun m => pathWeight (clean m) q) := by
      have := congrArg (List.map Paths.nan0) (heff q hqne)
      rw [List.map_map, List.map_map] at this
      simpa [Function.comp_def, Paths.nan0] using this
    rw [e]
    apply median_spec
    intro hnil
    have : m ∈ listWhere ms (fun m => HasPath n t src dst m q) := List.mem_filter.2 ⟨hm, by simpa using hq⟩
    rw [List.map_eq_nil_iff.1 hnil] at this
    simp at this

/-- C21: an error of the path search in any sample (cyclic sample) makes `get_paths` fail, whatever the others are. -/
theorem C21_error_propagates (as : Argsort) (n : Nat) {pre post : List Mat} {m : Mat} {src dst : Nat} {e : Paths.Err}
    (hpre : ∀ m' ∈ pre, ∃ r, Paths.findAllPaths n m' src dst 0 = some (.ok r))
    (hm : Paths.findAllPaths n m src dst 0 = some (.error e)) :
    getPaths as n (pre ++ m :: post) src dst none = some (.error (.paths e)) := by
  have : collectPaths n src dst 0 (pre ++ m :: post) = some (.error (.paths e)) := by
    induction pre with
    | nil => simp only [List.nil_append, collectPaths, hm]
    | cons a l ih =>
      obtain ⟨⟨ps, es⟩, h⟩ := hpre a (by simp)
      simp only [List.cons_append, collectPaths, h, ih (fun m' hm' => hpre m' (by simp [hm']))]
  simp only [getPaths, checkParams, this]

/-! ### What `bootstrap` stores -/

/-- The outcome of a fit: the order lists every variable once and every edge follows it (guaranteed for DirectLiNGAM by
C01 and C02). -/
def GoodFit (n : Nat) (order : List Nat) (B : Mat) : Prop :=
  IsOrder n order ∧ ∀ a b, Edge n (clean B) 0 a b → Before order a b

theorem fillEffects_ok {n : Nat} {B : Mat} {eff : Nat → Nat → ℚ} :
    ∀ {ps : List (Nat × Nat)} (T : Mat), (∀ p ∈ ps, Paths.calcTotalEffect n B p.1 p.2 = some (.ok (some (eff p.2 p.1)))) →
      ∃ T', fillEffects n B ps T = some (.ok T') ∧
        ∀ i j, T' i j = if (j, i) ∈ ps then some (eff i j) else T i j
  | [], T, _ => ⟨T, rfl, by simp⟩
  | (a, b) :: ps, T, h => by
    obtain ⟨T', h1, h2⟩ := fillEffects_ok (ps := ps) (fun i j => if i = b ∧ j = a then some (eff b a) else T i j)
      (fun p hp => h p (by simp [hp]))
    refine ⟨T', ?_, ?_⟩
    · simp only [fillEffects, h (a, b) (by simp), h1]
    · intro i j
      rw [h2]
      by_cases hin : (j, i) ∈ ps
      · simp [hin]
      · by_cases he : i = b ∧ j = a
        · obtain ⟨rfl, rfl⟩ := he; simp
        · rw [if_neg hin, if_neg he, if_neg]
          simp only [List.mem_cons, Prod.mk.injEq, hin, or_false]
          tauto

theorem mem_laterPairs {a b : Nat} : ∀ {l : List Nat}, (a, b) ∈ laterPairs l ↔ Before l a b
  | [] => by simp [laterPairs, Before]
  | c :: l => by
    rw [laterPairs, List.mem_append, List.mem_map, mem_laterPairs]
    constructor
    · rintro (⟨d, hd, h⟩ | ⟨x, y, z, rfl⟩)
      · obtain ⟨rfl, rfl⟩ := Prod.mk.inj h
        obtain ⟨y, z, rfl⟩ := List.append_of_mem hd
        exact ⟨[], y, z, rfl⟩
      · exact ⟨c :: x, y, z, rfl⟩
    · rintro ⟨x, y, z, h⟩
      cases x with
      | nil =>
        obtain ⟨rfl, rfl⟩ := List.cons.inj h
        exact Or.inl ⟨b, by simp, rfl⟩
      | cons d x =>
        obtain ⟨rfl, rfl⟩ := List.cons.inj h
        exact Or.inr ⟨x, y, z, rfl⟩

/-- The matrix `(I - B)⁻¹`. -/
noncomputable def totalMatrix (n : Nat) (B : Mat) : Matrix (Fin n) (Fin n) ℚ :=
  (1 - Matrix.of fun i j : Fin n => clean B i j)⁻¹

theorem totalMatrix_backwards {n : Nat} {order : List Nat} {B : Mat} (h : GoodFit n order B) {i j : Nat} (hi : i < n)
    (hj : j < n) (hb : Before order i j) : totalMatrix n B ⟨i, hi⟩ ⟨j, hj⟩ = 0 := by
  obtain ⟨⟨hnd, hmem⟩, hfwd⟩ := h
  have hne : i ≠ j := fun e => Before.irrefl hnd _ (e ▸ hb)
  have hinv := Paths.C13_total_effect_is_inverse_entry n B ⟨j, hj⟩ ⟨i, hi⟩ (acyclic_of_before hnd hfwd)
    (fun h => hne (by simpa using h.symm))
  rw [Paths.C14_no_effect_backwards n B order hnd hfwd j i hj hi hb] at hinv
  simpa [totalMatrix, eq_comm] using hinv

theorem sample_ok {n : Nat} {order : List Nat} {B : Mat} (h : GoodFit n order B) :
    ∃ T, fillEffects n B (laterPairs order) (fun _ _ => some 0) = some (.ok T) ∧
      ∀ i j : Fin n, T i j = some (if i = j then 0 else totalMatrix n B i j) := by
  classical
  obtain ⟨⟨hnd, hmem⟩, hfwd⟩ := h
  have hac : Acyclic (Edge n (clean B) 0) := acyclic_of_before hnd hfwd
  have hpair : ∀ p ∈ laterPairs order, Paths.calcTotalEffect n B p.1 p.2 =
      some (.ok (some (((Paths.enum (Paths.toIndices n B 0) p.2 n p.1).map (pathWeight (clean B))).sum))) := by
    rintro ⟨a, b⟩ hp
    have hb := mem_laterPairs.1 hp
    refine Paths.calcTotalEffect_acyclic hac ((hmem _).1 hb.mem_left) ((hmem _).1 hb.mem_right) ?_
    intro h
    simp only at h
    subst h
    exact Before.irrefl hnd _ hb
  obtain ⟨T, h1, h2⟩ := fillEffects_ok
    (eff := fun i j => ((Paths.enum (Paths.toIndices n B 0) i n j).map (pathWeight (clean B))).sum)
    (fun _ _ => some 0) hpair
  refine ⟨T, h1, ?_⟩
  intro i j
  rw [h2]
  by_cases hij : i = j
  · subst hij
    rw [if_neg, if_pos rfl]
    rw [mem_laterPairs]; exact Before.irrefl hnd _
  · have hne : (j : Nat) ≠ i := fun h => hij (Fin.ext h.symm)
    have hinv := Paths.C13_total_effect_is_inverse_entry n B j i hac (fun h => hij h.symm)
    rw [if_neg hij]
    by_cases hb : Before order j i
    · rw [if_pos (mem_laterPairs.2 hb)]
      rw [Paths.calcTotalEffect_acyclic hac j.2 i.2 hne] at hinv
      simpa [totalMatrix] using hinv
    · rw [if_neg (fun h => hb (mem_laterPairs.1 h))]
      have hb' : Before order i j := by
        rcases Before.total ((hmem _).2 j.2) ((hmem _).2 i.2) hne with h | h
        · exact absurd h hb
        · exact h
      rw [Paths.C14_no_effect_backwards n B order hnd hfwd j i j.2 i.2 hb'] at hinv
      simpa [totalMatrix] using hinv

/-- C22: `bootstrap` stores, in order, exactly `n_sampling` pairs: the matrix of the `s`-th fit and the total effects of
**that** matrix (off the diagonal the entries of `(I - B)⁻¹`, zero on the diagonal). -/
theorem C22_bootstrap_stores {n : Nat} {order : Nat → List Nat} {B : Nat → Mat} {N : Nat} (hN : 0 < N)
    (hgood : ∀ s < N, GoodFit n (order s) (B s)) {fit : Nat → Except Err (List Nat × Mat)}
    (hfit : ∀ s < N, fit s = .ok (order s, B s)) :
    ∃ res, bootstrap n fit N = some (.ok res) ∧ res.length = N ∧
      ∀ s < N, ∃ T, res[s]? = some (B s, T) ∧
        ∀ i j : Fin n, T i j = some (if i = j then 0 else totalMatrix n (B s) i j) := by
  have hloop : ∀ k s, s + k = N → ∃ res, bootstrapLoop n fit s k = some (.ok res) ∧ res.length = k ∧
      ∀ t < k, ∃ T, res[t]? = some (B (s + t), T) ∧
        ∀ i j : Fin n, T i j = some (if i = j then 0 else totalMatrix n (B (s + t)) i j) := by
    intro k
    induction k with
    | zero => intro s _; exact ⟨[], rfl, rfl, by simp⟩
    | succ k ih =>
      intro s hs
      obtain ⟨res, h1, h2, h3⟩ := ih (s + 1) (by omega)
      obtain ⟨T, h4, h5⟩ := sample_ok (hgood s (by omega))
      refine ⟨(B s, T) :: res, ?_, by simp [h2], ?_⟩
      · simp only [bootstrapLoop, hfit s (by omega), h4, h1]
      · intro t ht
        cases t with
        | zero => exact ⟨T, rfl, h5⟩
        | succ t =>
          obtain ⟨T', h6, h7⟩ := h3 t (by omega)
          refine ⟨T', ?_, ?_⟩
          · simpa [show s + 1 + t = s + (t + 1) by omega] using h6
          · simpa [show s + 1 + t = s + (t + 1) by omega] using h7
  obtain ⟨res, h1, h2, h3⟩ := hloop N 0 (by omega)
  refine ⟨res, ?_, h2, by simpa using h3⟩
  simp only [bootstrap, show (0 : Int) < N by exact_mod_cast hN, if_true, Int.toNat_natCast]
  exact h1

/-- C14: the stored total effects are zero from a later to an earlier variable (and on the diagonal) of the order of that fit. -/
theorem C14_bootstrap_zero {n : Nat} {order : Nat → List Nat} {B : Nat → Mat} {N : Nat} (hN : 0 < N)
    (hgood : ∀ s < N, GoodFit n (order s) (B s)) {fit : Nat → Except Err (List Nat × Mat)}
    (hfit : ∀ s < N, fit s = .ok (order s, B s)) :
    ∃ res, bootstrap n fit N = some (.ok res) ∧ res.length = N ∧
      ∀ s < N, ∃ M T, res[s]? = some (M, T) ∧
        ∀ i j, i < n → j < n → (i = j ∨ Before (order s) i j) → T i j = some 0 := by
  obtain ⟨res, h1, h2, h3⟩ := C22_bootstrap_stores hN hgood hfit
  refine ⟨res, h1, h2, fun s hs => ?_⟩
  obtain ⟨T, hT, hv⟩ := h3 s hs
  refine ⟨B s, T, hT, fun i j hi hj hb => ?_⟩
  rw [hv ⟨i, hi⟩ ⟨j, hj⟩]
  rcases hb with rfl | hb
  · simp
  · by_cases hij : i = j
    · simp [hij]
    · rw [if_neg (by simpa using hij), totalMatrix_backwards (hgood s hs) hi hj hb]

/-- C22: a nonpositive number of samples is rejected. -/
theorem C22_rejects_nonpositive (n : Nat) (fit : Nat → Except Err (List Nat × Mat)) {N : Int} (hN : N ≤ 0) :
    bootstrap n fit N = some (.error .valueError) := by
  simp [bootstrap, not_lt.2 hN]

/-- C22: the hypotheses hold for DirectLiNGAM without prior knowledge, so its `bootstrap` always succeeds, whatever the
resamples, measures and regressions are. -/
theorem C22_direct_lingam (n : Nat) (soft : Bool) (measure : Direct.Measure) (score : Nat → Direct.Score)
    (lasso : Nat → Direct.Lasso ℚ) {N : Nat} (hN : 0 < N) :
    ∃ (order : Nat → List Nat) (B : Nat → Nat → Nat → ℚ), (∀ s, Direct.fit ⟨none, soft, measure⟩ (score s) (lasso s) n = .ok (order s, B s)) ∧
      ∃ res, bootstrap n (fun s => .ok (order s, fun i j => some (B s i j))) N = some (.ok res) ∧ res.length = N ∧
        ∀ s < N, ∃ T, res[s]? = some (fun i j => some (B s i j), T) ∧ ∀ i j : Fin n, T i j =
          some (if i = j then 0 else ((1 - Matrix.of fun i j : Fin n => B s i j)⁻¹ : Matrix (Fin n) (Fin n) ℚ) i j) := by
  choose order B h1 h2 using fun s => Direct.C01_order_is_permutation soft measure (score s) (lasso s) n
  refine ⟨order, B, h1, ?_⟩
  refine C22_bootstrap_stores (order := order) (B := fun s i j => some (B s i j)) hN ?_ (fun _ _ => rfl)
  intro s _
  refine ⟨h2 s, ?_⟩
  rintro a b ⟨_, _, hw⟩
  refine Direct.C02_edges_follow_order (h1 s) b a ?_
  intro he
  simp [Paths.clean, Paths.nan0, he] at hw

/-! ### Concrete cases meeting the hypotheses -/

/-- Two samples over three variables: `0 → 1 → 2` with weights 2, 3 and `0 → 1` with weight -1. -/
def exSamples : List Mat :=
  [fun i j => if i = 1 ∧ j = 0 then some 2 else if i = 2 ∧ j = 1 then some 3 else some 0,
   fun i j => if i = 1 ∧ j = 0 then some (-1) else some 0]

/-- C16/C17: the parameters are valid and the two directions occur in 2 and 1 samples; one of the two has sign -. -/
example : exSamples ≠ [] ∧ ValidParams (some 1) (some (1 / 2)) ∧ occ exSamples (1 / 2) 1 0 = 2 ∧
    occ exSamples (1 / 2) 2 1 = 1 ∧ occPos exSamples (1 / 2) 1 0 = 1 ∧ occNeg exSamples (1 / 2) 1 0 = 1 := by
  refine ⟨by simp [exSamples], ⟨?_, ?_⟩, ?_⟩
  · rintro q h; cases h; norm_num
  · rintro q h; cases h; norm_num
  · unfold occ occPos occNeg; decide +kernel

/-- C18: the two samples have different edge sets. -/
example : ¬ SameDag false 3 3 0 exSamples[0] exSamples[1] := by
  intro h
  have := h 2 (by norm_num) 1 (by norm_num)
  revert this
  decide +kernel

/-- C19: the probability of `1 → 2` is one half. -/
example : ∃ bp, probabilities exSamples none = .ok bp ∧ bp 2 1 = 1 / 2 := by
  obtain ⟨bp, h1, h2⟩ := C19_probabilities (ms := exSamples) (thr := none) (by simp [exSamples]) (by simp)
  refine ⟨bp, h1, ?_⟩
  have h3 := (h2 2 1).1
  have h4 : occ exSamples 0 2 1 = 1 := by unfold occ; decide +kernel
  rw [Option.getD_none, h4] at h3
  simp [exSamples] at h3
  linarith

/-- C21: both samples are acyclic and the path `0 → 1 → 2` exists in the first one only. -/
example : (∀ m ∈ exSamples, Acyclic (Edge 3 (clean m) 0)) ∧ HasPath 3 0 0 2 exSamples[0] [0, 1, 2] := by
  constructor
  · intro m hm
    refine acyclic_of_before (l := [0, 1, 2]) (by decide) ?_
    have key : ∀ a b, Edge 3 (clean m) 0 a b → (a = 0 ∧ b = 1) ∨ (a = 1 ∧ b = 2) := by
      rintro a b ⟨ha, hb, hw⟩
      simp only [exSamples, List.mem_cons, List.not_mem_nil, or_false] at hm
      rcases hm with rfl | rfl <;> interval_cases a <;> interval_cases b <;>
        simp [clean, Paths.nan0] at hw ⊢
    intro a b h
    rcases key a b h with ⟨rfl, rfl⟩ | ⟨rfl, rfl⟩
    · exact ⟨[], [], [2], rfl⟩
    · exact ⟨[0], [], [], rfl⟩
  · refine ⟨rfl, rfl, ?_⟩
    simp [Edge, clean, Paths.nan0, exSamples]

/-- C22: a good fit with an edge. -/
example : GoodFit 3 [0, 1, 2] (fun i j => if i = 1 ∧ j = 0 then some (-1) else some 0) := by
  refine ⟨⟨by decide, by intro i; simp; omega⟩, ?_⟩
  rintro a b ⟨ha, hb, hw⟩
  interval_cases a <;> interval_cases b <;> simp [clean, Paths.nan0] at hw
  exact ⟨[], [], [2], rfl⟩

end Verif.Boot
