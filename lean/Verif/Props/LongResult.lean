import Verif.Model.LongResult
import Verif.Spec.LongCounting
import Verif.Props.Bootstrap
import Verif.Props.Longitudinal

/-!
Properties of `LongitudinalBootstrapResult` (C159 – C161).
-/
set_option autoImplicit false
set_option linter.unusedSectionVars false
namespace Verif.LongResult
open Verif.Boot (Mat Argsort Err Counts Dag Effects PathTable checkParams ValidParams params_ok SameDag)
open Verif.Paths (clean)

theorem eachTime_ok {α : Type} {f : Nat → Except Err α} :
    ∀ (ts : List Nat), (∀ t ∈ ts, ∃ a, f t = .ok a) →
      ∃ l, eachTime f ts = .ok l ∧ List.Forall₂ (fun t a => f t = .ok a) ts l
  | [], _ => ⟨[], rfl, .nil⟩
  | t :: ts, h => by
    obtain ⟨a, ha⟩ := h t (by simp)
    obtain ⟨l, hl, hF⟩ := eachTime_ok ts (fun t' ht' => h t' (by simp [ht']))
    exact ⟨a :: l, by simp [eachTime, ha, hl], .cons ha hF⟩

theorem eachTime_range {α : Type} {f : Nat → Except Err α} (T : Nat) (h : ∀ t, t < T → ∃ a, f t = .ok a) :
    ∃ l, eachTime f (List.range T) = .ok l ∧ l.length = T ∧ ∀ t, t < T → ∀ a, f t = .ok a → l[t]? = some a := by
  obtain ⟨l, hl, hF⟩ := eachTime_ok (List.range T) (fun t ht => h t (List.mem_range.1 ht))
  have hlen : l.length = T := by rw [← hF.length_eq, List.length_range]
  refine ⟨l, hl, hlen, fun t ht a ha => ?_⟩
  have := hF.get (i := t) (by simpa using ht) (by omega)
  simp only [List.get_eq_getElem, List.getElem_range] at this
  rw [ha] at this
  rw [List.getElem?_eq_getElem (by omega), Except.ok.inj this]

/-! ### Columns of the concatenated matrix -/

theorem concat_col {p t : Nat} (m : Stack) (i lag j : Nat) (hj : j < p) : concatAt p t m i (lag * p + j) = m t lag i j := by
  have hp : 0 < p := by omega
  have h1 : (lag * p + j) / p = lag := by
    rw [Nat.mul_comm, Nat.mul_add_div hp, Nat.div_eq_of_lt hj, Nat.add_zero]
  have h2 : (lag * p + j) % p = j := by rw [Nat.mul_comm, Nat.mul_add_mod, Nat.mod_eq_of_lt hj]
  unfold concatAt
  rw [h1, h2]

theorem col_lt {p L lag j : Nat} (hl : lag ≤ L) (hj : j < p) : lag * p + j < p * (L + 1) := by
  have : lag * p ≤ L * p := Nat.mul_le_mul_right p hl
  rw [Nat.mul_add, Nat.mul_comm p L]
  omega

theorem col_split {p L c : Nat} (hc : c < p * (L + 1)) : c / p ≤ L ∧ c % p < p ∧ c / p * p + c % p = c := by
  have hp : 0 < p := by
    rcases Nat.eq_zero_or_pos p with h | h
    · subst h; simp at hc
    · exact h
  refine ⟨?_, Nat.mod_lt _ hp, Nat.div_add_mod' c p⟩
  have := Nat.div_lt_of_lt_mul hc
  omega

theorem col_inj {p a b j j' : Nat} (hj : j < p) (hj' : j' < p) (h : a * p + j = b * p + j') : a = b ∧ j = j' := by
  have e := congrArg (· / p) h
  have e2 := congrArg (· % p) h
  have hp : 0 < p := by omega
  simp only [Nat.mul_comm _ p, Nat.mul_add_div hp, Nat.div_eq_of_lt hj, Nat.div_eq_of_lt hj', Nat.add_zero,
    Nat.mul_add_mod, Nat.mod_eq_of_lt hj, Nat.mod_eq_of_lt hj'] at e e2
  exact ⟨e, e2⟩

theorem occ_concat {p t : Nat} (ms : List Stack) (thr : ℚ) (i lag j : Nat) (hj : j < p) :
    occ (ms.map (concatAt p t)) thr i (lag * p + j) = occ (slice ms t lag) thr i j := by
  simp only [occ, slice, List.countP_map, Function.comp_def, concat_col _ _ _ _ hj]

theorem occPos_concat {p t : Nat} (ms : List Stack) (thr : ℚ) (i lag j : Nat) (hj : j < p) :
    occPos (ms.map (concatAt p t)) thr i (lag * p + j) = occPos (slice ms t lag) thr i j := by
  simp only [occPos, slice, List.countP_map, Function.comp_def, concat_col _ _ _ _ hj]

theorem occNeg_concat {p t : Nat} (ms : List Stack) (thr : ℚ) (i lag j : Nat) (hj : j < p) :
    occNeg (ms.map (concatAt p t)) thr i (lag * p + j) = occNeg (slice ms t lag) thr i j := by
  simp only [occNeg, slice, List.countP_map, Function.comp_def, concat_col _ _ _ _ hj]

/-! ### C159 -/

/-- **C159, directions.** One dictionary per time point. The listed source is `lag * p + from`; `rows` are
`(lag, from, to, count)`: every listed direction occurs once, with the number of samples that contain it, by decreasing
count; nothing that occurs is missing without a limit, and with a limit only directions that are not more frequent. -/
theorem C159_direction_counts (as : Argsort) (T p L : Nat) {ms : List Stack} (hms : ms ≠ []) {k : Option Int}
    {thr : Option ℚ} (hv : ValidParams k thr) :
    ∃ out, directionCounts as T p L ms k thr false = .ok out ∧ out.length = T ∧ ∀ t, t < T →
      ∃ rows : List (Nat × Nat × Nat × Nat),
        out[t]? = some ⟨rows.map (fun x => ((x.1 * p + x.2.1 : Nat) : Int)), rows.map (fun x => (x.2.2.1 : Int)),
          rows.map (fun x => x.2.2.2), none⟩ ∧
        (rows.map (fun x => (x.1, x.2.1, x.2.2.1))).Nodup ∧
        (∀ x ∈ rows, x.1 ≤ L ∧ x.2.1 < p ∧ x.2.2.1 < p ∧
          x.2.2.2 = occ (slice ms t x.1) (thr.getD 0) x.2.2.1 x.2.1 ∧ 0 < x.2.2.2) ∧
        rows.Pairwise (fun a b => b.2.2.2 ≤ a.2.2.2) ∧
        (k = none → ∀ lag i j, lag ≤ L → i < p → j < p → 0 < occ (slice ms t lag) (thr.getD 0) i j →
          (lag, j, i, occ (slice ms t lag) (thr.getD 0) i j) ∈ rows) ∧
        (∀ lag i j, lag ≤ L → i < p → j < p → (lag, j, i) ∉ rows.map (fun x => (x.1, x.2.1, x.2.2.1)) →
          ∀ x ∈ rows, occ (slice ms t lag) (thr.getD 0) i j ≤ x.2.2.2) ∧
        (∀ q, k = some q → (rows.length : Int) ≤ q) := by
  obtain ⟨hp, h0⟩ := params_ok hv
  unfold directionCounts
  rw [hp]
  obtain ⟨out, ho, hlen, hget⟩ := eachTime_range (f := fun t => Boot.directionCounts as p (p * (L + 1)) (ms.map (concatAt p t)) k thr false) T (fun t _ => by
    obtain ⟨_, h, _⟩ := Boot.C16_direction_counts as p (p * (L + 1)) (ms := ms.map (concatAt p t))
      (by simpa using hms) hv
    exact ⟨_, h⟩)
  refine ⟨out, ho, hlen, fun t ht => ?_⟩
  obtain ⟨rows, h1, h2, h3, h4, h5, h6, h7⟩ := Boot.C16_direction_counts as p (p * (L + 1))
    (ms := ms.map (concatAt p t)) (by simpa using hms) hv
  refine ⟨rows.map (fun x => (x.1 / p, x.1 % p, x.2.1, x.2.2)), (hget t ht _ h1).trans ?_, ?_, ?_, ?_, ?_, ?_, ?_⟩
  · simp only [List.map_map, Function.comp_def, Nat.div_add_mod']
  · rw [List.map_map]
    refine List.Nodup.of_map (fun y : Nat × Nat × Nat => (y.1 * p + y.2.1, y.2.2)) ?_
    simpa only [List.map_map, Function.comp_def, Nat.div_add_mod'] using h2
  · intro x hx
    obtain ⟨y, hy, rfl⟩ := List.mem_map.1 hx
    obtain ⟨g1, g2, g3, g4⟩ := h3 y hy
    obtain ⟨c1, c2, c3⟩ := col_split g1
    refine ⟨c1, c2, g2, ?_, g4⟩
    show y.2.2 = _
    rw [g3, ← occ_concat ms _ _ _ _ c2, c3]
  · rw [List.pairwise_map]
    exact h4
  · intro hk lag i j hl hi hj hpos
    have := h5 hk i (lag * p + j) hi (col_lt hl hj) (by rwa [occ_concat ms _ _ _ _ hj])
    rw [occ_concat ms _ _ _ _ hj] at this
    refine List.mem_map.2 ⟨_, this, ?_⟩
    have hp : 0 < p := by omega
    simp only [Prod.mk.injEq, and_true]
    constructor
    · rw [Nat.mul_comm, Nat.mul_add_div hp, Nat.div_eq_of_lt hj, Nat.add_zero]
    · rw [Nat.mul_comm, Nat.mul_add_mod, Nat.mod_eq_of_lt hj]
  · intro lag i j hl hi hj hnot x hx
    obtain ⟨y, hy, rfl⟩ := List.mem_map.1 hx
    rw [← occ_concat ms _ _ _ _ hj]
    refine h6 i (lag * p + j) hi (col_lt hl hj) (fun hmem => hnot ?_) y hy
    obtain ⟨z, hz, e⟩ := List.mem_map.1 hmem
    simp only [Prod.mk.injEq] at e
    obtain ⟨c1, c2, c3⟩ := col_split (h3 z hz).1
    obtain ⟨e1, e2⟩ := col_inj c2 hj (c3.trans e.1)
    refine List.mem_map.2 ⟨_, List.mem_map.2 ⟨z, hz, rfl⟩, ?_⟩
    simp only [e1, e2, e.2]
  · intro q hq
    rw [List.length_map]
    exact (h7 q hq).1

/-- **C159, signed directions.** With `split_by_causal_effect_sign` the counts are per sign. -/
theorem C159_signed_direction_counts (as : Argsort) (T p L : Nat) {ms : List Stack} (hms : ms ≠ []) {k : Option Int}
    {thr : Option ℚ} (hv : ValidParams k thr) :
    ∃ out, directionCounts as T p L ms k thr true = .ok out ∧ out.length = T ∧ ∀ t, t < T →
      ∃ rows : List (Nat × Nat × Nat × Int × Nat),
        out[t]? = some ⟨rows.map (fun x => ((x.1 * p + x.2.1 : Nat) : Int)), rows.map (fun x => (x.2.2.1 : Int)),
          rows.map (fun x => x.2.2.2.2), some (rows.map (fun x => x.2.2.2.1))⟩ ∧
        (rows.map (fun x => (x.1, x.2.1, x.2.2.1, x.2.2.2.1))).Nodup ∧
        (∀ x ∈ rows, x.1 ≤ L ∧ x.2.1 < p ∧ x.2.2.1 < p ∧ 0 < x.2.2.2.2 ∧
          ((x.2.2.2.1 = 1 ∧ x.2.2.2.2 = occPos (slice ms t x.1) (thr.getD 0) x.2.2.1 x.2.1) ∨
           (x.2.2.2.1 = -1 ∧ x.2.2.2.2 = occNeg (slice ms t x.1) (thr.getD 0) x.2.2.1 x.2.1))) ∧
        rows.Pairwise (fun a b => b.2.2.2.2 ≤ a.2.2.2.2) ∧
        (k = none → ∀ lag i j, lag ≤ L → i < p → j < p →
          (0 < occPos (slice ms t lag) (thr.getD 0) i j →
            (lag, j, i, 1, occPos (slice ms t lag) (thr.getD 0) i j) ∈ rows) ∧
          (0 < occNeg (slice ms t lag) (thr.getD 0) i j →
            (lag, j, i, -1, occNeg (slice ms t lag) (thr.getD 0) i j) ∈ rows)) ∧
        (∀ q, k = some q → (rows.length : Int) ≤ q) := by
  obtain ⟨hp, h0⟩ := params_ok hv
  unfold directionCounts
  rw [hp]
  obtain ⟨out, ho, hlen, hget⟩ := eachTime_range (f := fun t => Boot.directionCounts as p (p * (L + 1)) (ms.map (concatAt p t)) k thr true) T (fun t _ => by
    obtain ⟨_, h, _⟩ := Boot.C17_signed_direction_counts as p (p * (L + 1)) (ms := ms.map (concatAt p t))
      (by simpa using hms) hv
    exact ⟨_, h⟩)
  refine ⟨out, ho, hlen, fun t ht => ?_⟩
  obtain ⟨rows, h1, h2, h3, h4, h5, _, h7⟩ := Boot.C17_signed_direction_counts as p (p * (L + 1))
    (ms := ms.map (concatAt p t)) (by simpa using hms) hv
  refine ⟨rows.map (fun x => (x.1 / p, x.1 % p, x.2.1, x.2.2.1, x.2.2.2)), (hget t ht _ h1).trans ?_, ?_, ?_, ?_, ?_, ?_⟩
  · simp only [List.map_map, Function.comp_def, Nat.div_add_mod']
  · rw [List.map_map]
    refine List.Nodup.of_map (fun y : Nat × Nat × Nat × Int => (y.1 * p + y.2.1, y.2.2.1, y.2.2.2)) ?_
    simpa only [List.map_map, Function.comp_def, Nat.div_add_mod'] using h2
  · intro x hx
    obtain ⟨y, hy, rfl⟩ := List.mem_map.1 hx
    obtain ⟨g1, g2, g3, g4⟩ := h3 y hy
    obtain ⟨c1, c2, c3⟩ := col_split g1
    refine ⟨c1, c2, g2, g3, ?_⟩
    rcases g4 with ⟨s, g4⟩ | ⟨s, g4⟩
    · refine Or.inl ⟨s, ?_⟩
      show y.2.2.2 = _
      rw [g4, ← occPos_concat ms _ _ _ _ c2, c3]
    · refine Or.inr ⟨s, ?_⟩
      show y.2.2.2 = _
      rw [g4, ← occNeg_concat ms _ _ _ _ c2, c3]
  · rw [List.pairwise_map]
    exact h4
  · intro hk lag i j hl hi hj
    have hp : 0 < p := by omega
    have e1 : (lag * p + j) / p = lag := by
      rw [Nat.mul_comm, Nat.mul_add_div hp, Nat.div_eq_of_lt hj, Nat.add_zero]
    have e2 : (lag * p + j) % p = j := by rw [Nat.mul_comm, Nat.mul_add_mod, Nat.mod_eq_of_lt hj]
    have := h5 hk i (lag * p + j) hi (col_lt hl hj)
    rw [occPos_concat ms _ _ _ _ hj, occNeg_concat ms _ _ _ _ hj] at this
    constructor
    · intro hpos
      refine List.mem_map.2 ⟨_, this.1 hpos, ?_⟩
      simp only [e1, e2]
    · intro hpos
      refine List.mem_map.2 ⟨_, this.2 hpos, ?_⟩
      simp only [e1, e2]
  · intro q hq
    rw [List.length_map]
    exact h7 q hq

theorem foldl_prob (thr : ℚ) (t l i j : Nat) : ∀ (ms : List Stack) (f : Nat → Nat → Nat → Nat → ℚ),
    (ms.foldl (fun (prob : Nat → Nat → Nat → Nat → ℚ) A => fun t l i j =>
        prob t l i j + (if Boot.exceeds thr (A t l i j) then 1 else 0)) f) t l i j =
      f t l i j + ((ms.map (fun A => A t l)).countP (fun T => Boot.exceeds thr (T i j)) : ℚ)
  | [], f => by simp
  | A :: ms, f => by
    rw [List.foldl_cons, foldl_prob thr t l i j ms]
    simp only [List.map_cons, List.countP_cons]
    push_cast
    split <;> ring

/-- **C159, probabilities.** `get_probabilities()[t, lag, to, from]` is the fraction of samples with that edge. -/
theorem C159_probabilities {ms : List Stack} (hms : ms ≠ []) {thr : Option ℚ} (hv : ∀ q, thr = some q → 0 < q) :
    ∃ prob, probabilities ms thr = .ok prob ∧ ∀ t lag i j,
      prob t lag i j * ms.length = occ (slice ms t lag) (thr.getD 0) i j ∧ 0 ≤ prob t lag i j ∧ prob t lag i j ≤ 1 := by
  obtain ⟨hp, h0⟩ := params_ok (k := none) ⟨by simp, hv⟩
  simp only [Option.map_none] at hp
  have hl : (0 : ℚ) < ms.length := by exact_mod_cast List.length_pos_iff.2 hms
  refine ⟨fun t lag i j => (occ (slice ms t lag) (thr.getD 0) i j : ℚ) / ms.length, ?_, ?_⟩
  · unfold probabilities
    rw [hp]
    simp only [hms, if_false]
    congr 1
    funext t l i j
    rw [foldl_prob]
    rw [← Boot.occTotal_eq (slice ms t l) h0 i j]
    simp [Boot.occTotal, slice]
  · intro t lag i j
    have hle : (occ (slice ms t lag) (thr.getD 0) i j : ℚ) ≤ ms.length := by
      have : occ (slice ms t lag) (thr.getD 0) i j ≤ (slice ms t lag).length := List.countP_le_length
      rw [show (slice ms t lag).length = ms.length by simp [slice]] at this
      exact_mod_cast this
    refine ⟨by field_simp, by positivity, ?_⟩
    rw [div_le_one hl]; exact hle

/-- **C159, the two summaries agree.** A listed direction's count divided by the number of samples is the entry
`[t, lag, to, from]` of `get_probabilities` at the same threshold. -/
theorem C159_counts_match_probabilities (as : Argsort) (T p L : Nat) {ms : List Stack} (hms : ms ≠ []) {k : Option Int}
    {thr : Option ℚ} (hv : ValidParams k thr) {out : List Counts} (ho : directionCounts as T p L ms k thr false = .ok out)
    {prob : Nat → Nat → Nat → Nat → ℚ} (hpr : probabilities ms thr = .ok prob) {t : Nat} (ht : t < T) :
    ∃ cd, out[t]? = some cd ∧ cd.src.length = cd.count.length ∧ cd.dst.length = cd.count.length ∧
      ∀ r, r < cd.count.length → ∃ (c i n : Nat), cd.src[r]? = some (c : Int) ∧ cd.dst[r]? = some (i : Int) ∧
        cd.count[r]? = some n ∧ (n : ℚ) / ms.length = prob t (c / p) i (c % p) := by
  obtain ⟨out', h1, _, h3⟩ := C159_direction_counts as T p L hms hv
  rw [ho] at h1
  obtain rfl := Except.ok.inj h1
  obtain ⟨rows, e, _, hr, _⟩ := h3 t ht
  obtain ⟨prob', e1, e2⟩ := C159_probabilities hms hv.2
  rw [hpr] at e1
  obtain rfl := Except.ok.inj e1
  refine ⟨_, e, by simp, by simp, fun r hrl => ?_⟩
  simp only [List.length_map] at hrl
  obtain ⟨_, g2, _, g4, _⟩ := hr rows[r] (List.getElem_mem hrl)
  refine ⟨rows[r].1 * p + rows[r].2.1, rows[r].2.2.1, rows[r].2.2.2, by simp [hrl], by simp [hrl], by simp [hrl], ?_⟩
  have hp : 0 < p := by omega
  have hl : (ms.length : ℚ) ≠ 0 := by exact_mod_cast (List.length_pos_iff.2 hms).ne'
  have c1 : (rows[r].1 * p + rows[r].2.1) / p = rows[r].1 := by
    rw [Nat.mul_comm, Nat.mul_add_div hp, Nat.div_eq_of_lt g2, Nat.add_zero]
  have c2 : (rows[r].1 * p + rows[r].2.1) % p = rows[r].2.1 := by
    rw [Nat.mul_comm, Nat.mul_add_mod, Nat.mod_eq_of_lt g2]
  rw [c1, c2, g4, ← (e2 t rows[r].1 rows[r].2.2.1 rows[r].2.1).1]
  field_simp

theorem sameDag_concat {split : Bool} {p L t : Nat} {thr : ℚ} {A A' : Stack} :
    SameDag split p (p * (L + 1)) thr (concatAt p t A) (concatAt p t A') ↔ SameEdgesAt split p L thr t A A' := by
  unfold SameDag SameEdgesAt
  cases split
  · simp only [Bool.false_eq_true, if_false, forall_true_left, false_implies, and_true]
    constructor
    · intro h lag hl i hi j hj
      have := h i hi (lag * p + j) (col_lt hl hj)
      rwa [concat_col _ _ _ _ hj, concat_col _ _ _ _ hj] at this
    · intro h i hi c hc
      obtain ⟨c1, c2, c3⟩ := col_split hc
      exact h (c / p) c1 i hi (c % p) c2
  · simp only [if_true, forall_true_left, Bool.true_eq_false, false_implies, true_and]
    constructor
    · intro h lag hl i hi j hj
      have := h i hi (lag * p + j) (col_lt hl hj)
      rwa [concat_col _ _ _ _ hj, concat_col _ _ _ _ hj] at this
    · intro h i hi c hc
      obtain ⟨c1, c2, c3⟩ := col_split hc
      exact h (c / p) c1 i hi (c % p) c2

/-- A listed DAG of time point `t` describes the thresholded matrices of `A`: its lists enumerate every edge once, the
source as `lag * p + from`. `E` are the edges `(lag, from, to)`. -/
def DescribesAt (split : Bool) (p L : Nat) (thr : ℚ) (t : Nat) (A : Stack) (d : Dag) : Prop :=
  ∃ E : List (Nat × Nat × Nat), E.Nodup ∧
    (∀ lag j i, (lag, j, i) ∈ E ↔ lag ≤ L ∧ j < p ∧ i < p ∧ thr < |(A t lag i j).getD 0|) ∧
    d.src = E.map (fun e => e.1 * p + e.2.1) ∧ d.dst = E.map (fun e => e.2.2) ∧
    d.sign = if split then some (E.map (fun e => if 0 < (A t e.1 e.2.2 e.2.1).getD 0 then 1 else -1)) else none

theorem describes_concat {split : Bool} {p L t : Nat} {thr : ℚ} {A : Stack} {d : Dag}
    (h : Boot.Describes split p (p * (L + 1)) thr (concatAt p t A) d) : DescribesAt split p L thr t A d := by
  obtain ⟨E, h1, h2, h3, h4, h5⟩ := h
  refine ⟨E.map (fun e => (e.2 / p, e.2 % p, e.1)), ?_, ?_, ?_, ?_, ?_⟩
  · refine List.Nodup.of_map (fun y : Nat × Nat × Nat => (y.2.2, y.1 * p + y.2.1)) ?_
    simpa only [List.map_map, Function.comp_def, Nat.div_add_mod', Prod.mk.eta, List.map_id'] using h1
  · intro lag j i
    rw [List.mem_map]
    constructor
    · rintro ⟨⟨i', c⟩, he, e⟩
      simp only [Prod.mk.injEq] at e
      obtain ⟨rfl, rfl, rfl⟩ := e
      obtain ⟨g1, g2, g3⟩ := (h2 _ _).1 he
      obtain ⟨c1, c2, _⟩ := col_split g2
      exact ⟨c1, c2, g1, g3⟩
    · rintro ⟨g1, g2, g3, g4⟩
      have hp : 0 < p := by omega
      refine ⟨(i, lag * p + j), (h2 _ _).2 ⟨g3, col_lt g1 g2, by rwa [concat_col _ _ _ _ g2]⟩, ?_⟩
      simp only [Prod.mk.injEq, and_true]
      constructor
      · rw [Nat.mul_comm, Nat.mul_add_div hp, Nat.div_eq_of_lt g2, Nat.add_zero]
      · rw [Nat.mul_comm, Nat.mul_add_mod, Nat.mod_eq_of_lt g2]
  · rw [h3, List.map_map]
    simp only [Function.comp_def, Nat.div_add_mod']
  · rw [h4, List.map_map]
    rfl
  · rw [h5, List.map_map]
    rfl

/-- **C159, DAGs.** Per time point the samples are grouped by their thresholded (signed) edges into that time point over all
lags; each listed graph is that of one of the samples, no two listed graphs coincide, the counts are the group sizes and
without a limit they add up to the number of samples. -/
theorem C159_dag_counts (as : Argsort) (T p L : Nat) (ms : List Stack) {k : Option Int} {thr : Option ℚ}
    (hv : ValidParams k thr) (split : Bool) :
    ∃ out, dagCounts as T p L ms k thr split = .ok out ∧ out.length = T ∧ ∀ t, t < T →
      ∃ reps : List (Stack × Dag × Nat),
        out[t]? = some (reps.map (fun x => x.2.1), reps.map (fun x => x.2.2)) ∧
        (∀ x ∈ reps, x.1 ∈ ms ∧ DescribesAt split p L (thr.getD 0) t x.1 x.2.1 ∧
          x.2.2 = numWhere ms (fun m => SameEdgesAt split p L (thr.getD 0) t m x.1) ∧ 0 < x.2.2) ∧
        reps.Pairwise (fun x y => ¬ SameEdgesAt split p L (thr.getD 0) t x.1 y.1) ∧
        reps.Pairwise (fun x y => y.2.2 ≤ x.2.2) ∧
        (k = none → (∀ m ∈ ms, ∃ x ∈ reps, SameEdgesAt split p L (thr.getD 0) t m x.1) ∧
          (reps.map (fun x => x.2.2)).sum = ms.length) ∧
        (∀ q, k = some q → (reps.length : Int) ≤ q) := by
  classical
  obtain ⟨hp, h0⟩ := params_ok hv
  unfold dagCounts
  rw [hp]
  obtain ⟨out, ho, hlen, hget⟩ := eachTime_range (f := fun t => Boot.dagCounts as p (p * (L + 1)) (ms.map (concatAt p t)) k thr split) T (fun t _ => by
    obtain ⟨_, h, _⟩ := Boot.C18_dag_counts as p (p * (L + 1)) (ms.map (concatAt p t)) hv split
    exact ⟨_, h⟩)
  refine ⟨out, ho, hlen, fun t ht => ?_⟩
  obtain ⟨reps, h1, h2, h3, h4, h5, _, h7⟩ := Boot.C18_dag_counts as p (p * (L + 1)) (ms.map (concatAt p t)) hv split
  have hex : ∀ M : Mat, ∃ A : Stack, M ∈ ms.map (concatAt p t) → A ∈ ms ∧ concatAt p t A = M := by
    intro M
    by_cases h : M ∈ ms.map (concatAt p t)
    · obtain ⟨A, hA, e⟩ := List.mem_map.1 h
      exact ⟨A, fun _ => ⟨hA, e⟩⟩
    · exact ⟨fun _ _ _ _ => none, fun h' => absurd h' h⟩
  choose g hg using hex
  have hg1 : ∀ x ∈ reps, g x.1 ∈ ms ∧ concatAt p t (g x.1) = x.1 := fun x hx => hg _ (h2 x hx).1
  refine ⟨reps.map (fun x => (g x.1, x.2)), (hget t ht _ h1).trans ?_, ?_, ?_, ?_, ?_, ?_⟩
  · simp only [List.map_map, Function.comp_def]
  · intro y hy
    obtain ⟨x, hx, rfl⟩ := List.mem_map.1 hy
    obtain ⟨a1, a2, a3, a4⟩ := h2 x hx
    obtain ⟨b1, b2⟩ := hg1 x hx
    refine ⟨b1, describes_concat (by rw [b2]; exact a2), ?_, a4⟩
    show x.2.2 = _
    rw [a3]
    simp only [numWhere, List.countP_map]
    apply List.countP_congr
    intro m _
    simp only [Function.comp_def, decide_eq_true_eq]
    rw [← b2, sameDag_concat, b2]
  · rw [List.pairwise_map]
    refine List.Pairwise.imp_of_mem ?_ h3
    intro x y hx hy h
    rw [← (hg1 x hx).2, ← (hg1 y hy).2, sameDag_concat] at h
    exact h
  · rw [List.pairwise_map]
    exact h4
  · intro hk
    obtain ⟨c1, c2⟩ := h5 hk
    constructor
    · intro m hm
      obtain ⟨x, hx, e⟩ := c1 _ (List.mem_map_of_mem hm)
      rw [← (hg1 x hx).2, sameDag_concat] at e
      exact ⟨_, List.mem_map_of_mem hx, e⟩
    · simpa only [List.map_map, Function.comp_def, List.length_map] using c2
  · intro q hq
    rw [List.length_map]
    exact h7 q hq

/-- **C159, the time points before `n_lags`.** Where every sample is NaN, no direction is listed and every probability is
zero. -/
theorem C159_missing_times (as : Argsort) (T p L : Nat) {ms : List Stack} (hms : ms ≠ []) {k : Option Int}
    {thr : Option ℚ} (hv : ValidParams k thr) {t : Nat} (ht : t < T)
    (hnan : ∀ A ∈ ms, ∀ lag i j, A t lag i j = none) :
    (∃ out, directionCounts as T p L ms k thr false = .ok out ∧ out[t]? = some ⟨[], [], [], none⟩) ∧
      ∃ prob, probabilities ms thr = .ok prob ∧ ∀ lag i j, prob t lag i j = 0 := by
  have hz : ∀ lag i j, occ (slice ms t lag) (thr.getD 0) i j = 0 := by
    intro lag i j
    rw [occ, slice, List.countP_map, List.countP_eq_zero]
    intro A hA
    simp [hnan A hA, not_lt.2 (params_ok hv).2]
  constructor
  · obtain ⟨out, h1, _, h3⟩ := C159_direction_counts as T p L hms hv
    obtain ⟨rows, e, _, hr, _⟩ := h3 t ht
    refine ⟨out, h1, ?_⟩
    have : rows = [] := by
      by_contra hne
      obtain ⟨x, hx⟩ := List.exists_mem_of_ne_nil _ hne
      obtain ⟨_, _, _, g4, g5⟩ := hr x hx
      rw [hz] at g4
      omega
    rw [e, this]
    rfl
  · obtain ⟨prob, h1, h2⟩ := C159_probabilities hms hv.2
    refine ⟨prob, h1, fun lag i j => ?_⟩
    have := (h2 t lag i j).1
    rw [hz] at this
    have hl : (ms.length : ℚ) ≠ 0 := by exact_mod_cast (List.length_pos_iff.2 hms).ne'
    simpa [hl] using this

/-- **C159, parameters.** A limit or threshold that is not positive is refused. -/
theorem C159_invalid_params (as : Argsort) (T p L : Nat) (ms : List Stack) (k : Option Int) (thr : Option ℚ) (split : Bool)
    (h : ¬ ValidParams k thr) :
    (∃ e, directionCounts as T p L ms k thr split = .error e) ∧ ∃ e, dagCounts as T p L ms k thr split = .error e := by
  obtain ⟨e, he⟩ : ∃ e, checkParams k thr = .error e := by
    cases hc : checkParams k thr with
    | error e => exact ⟨e, rfl⟩
    | ok v => exact absurd (Boot.checkParams_iff.1 ⟨v, hc⟩) h
  exact ⟨⟨e, by simp [directionCounts, he]⟩, ⟨e, by simp [dagCounts, he]⟩⟩

/-! ### C160 -/

/-- **C160.** Without a threshold, `get_total_causal_effects` lists each pair of variables at time points that has a nonzero
total effect in some sample, as `t * p + i`, with the fraction of the samples that have one and the median over them. `rows`
are `(from time, from, to time, to, effect, probability)`. -/
theorem C160_total_effects_partial (as : Argsort) (T p : Nat) {ts : List Mat} (hts : ts ≠ []) :
    ∃ rows : List (Nat × Nat × Nat × Nat × ℚ × ℚ),
      totalCausalEffects as T p ts none = .ok ⟨rows.map (fun x => x.1 * p + x.2.1), rows.map (fun x => x.2.2.1 * p + x.2.2.2.1),
        rows.map (fun x => x.2.2.2.2.1), rows.map (fun x => x.2.2.2.2.2)⟩ ∧
      (rows.map (fun x => (x.1, x.2.1, x.2.2.1, x.2.2.2.1))).Nodup ∧
      (∀ s j t i, (s, j, t, i) ∈ rows.map (fun x => (x.1, x.2.1, x.2.2.1, x.2.2.2.1)) ↔
        s < T ∧ j < p ∧ t < T ∧ i < p ∧ ∃ E ∈ ts, (E (t * p + i) (s * p + j)).getD 0 ≠ 0) ∧
      (∀ x ∈ rows,
        x.2.2.2.2.2 * ts.length = (Boot.countedEffects ts 0 (x.2.2.1 * p + x.2.2.2.1) (x.1 * p + x.2.1)).length ∧
        IsMedian (Boot.countedEffects ts 0 (x.2.2.1 * p + x.2.2.2.1) (x.1 * p + x.2.1)) x.2.2.2.2.1) ∧
      rows.Pairwise (fun a b => b.2.2.2.2.2 ≤ a.2.2.2.2.2) := by
  obtain ⟨rows, h1, h2, h3, h4, h5, h6⟩ := Boot.C20_total_effects_listing as (T * p) hts (thr := none) (by simp)
  have hlt : ∀ {c}, c < T * p → c / p < T ∧ c % p < p := by
    intro c hc
    have hp : 0 < p := by
      rcases Nat.eq_zero_or_pos p with h | h
      · subst h; simp at hc
      · exact h
    exact ⟨Nat.div_lt_of_lt_mul (by rwa [Nat.mul_comm] at hc), Nat.mod_lt _ hp⟩
  have hlt' : ∀ {t i}, t < T → i < p → t * p + i < T * p := by
    intro t i h1 h2
    have : (t + 1) * p ≤ T * p := Nat.mul_le_mul_right p h1
    rw [Nat.add_mul] at this
    omega
  have hocc : ∀ i j, 0 < occ ts ((none : Option ℚ).getD 0) i j ↔ ∃ E ∈ ts, (E i j).getD 0 ≠ 0 := by
    intro i j
    rw [occ, List.countP_pos_iff]
    simp
  refine ⟨rows.map (fun x => (x.1 / p, x.1 % p, x.2.1 / p, x.2.1 % p, x.2.2.1, x.2.2.2)), ?_, ?_, ?_, ?_, ?_⟩
  · unfold totalCausalEffects
    rw [h1]
    simp only [List.map_map, Function.comp_def, Nat.div_add_mod']
  · rw [List.map_map]
    refine List.Nodup.of_map (fun y : Nat × Nat × Nat × Nat => (y.1 * p + y.2.1, y.2.2.1 * p + y.2.2.2)) ?_
    simpa only [List.map_map, Function.comp_def, Nat.div_add_mod'] using h2
  · intro s j t i
    rw [List.map_map, List.mem_map]
    constructor
    · rintro ⟨x, hx, e⟩
      simp only [Function.comp_def, Prod.mk.injEq] at e
      obtain ⟨rfl, rfl, rfl, rfl⟩ := e
      obtain ⟨g1, g2, g3⟩ := (h3 x.2.1 x.1).1 (List.mem_map.2 ⟨x, hx, rfl⟩)
      refine ⟨(hlt g2).1, (hlt g2).2, (hlt g1).1, (hlt g1).2, ?_⟩
      rw [Nat.div_add_mod', Nat.div_add_mod']
      exact (hocc _ _).1 g3
    · rintro ⟨g1, g2, g3, g4, g5⟩
      obtain ⟨x, hx, e⟩ := List.mem_map.1 ((h3 (t * p + i) (s * p + j)).2 ⟨hlt' g3 g4, hlt' g1 g2, (hocc _ _).2 g5⟩)
      simp only [Prod.mk.injEq] at e
      refine ⟨x, hx, ?_⟩
      have hp : 0 < p := by omega
      simp only [Function.comp_def, e.1, e.2, Nat.mul_comm _ p, Nat.mul_add_div hp, Nat.mul_add_mod, Nat.div_eq_of_lt g2,
        Nat.div_eq_of_lt g4, Nat.mod_eq_of_lt g2, Nat.mod_eq_of_lt g4, Nat.add_zero]
  · intro y hy
    obtain ⟨x, hx, rfl⟩ := List.mem_map.1 hy
    simp only [Nat.div_add_mod']
    refine ⟨?_, Boot.nonzero_eq_counted ts x.2.1 x.1 ▸ h6 x hx⟩
    rw [(h4 x hx).1]
    congr 1
    simp only [Option.getD_none, occ, Boot.countedEffects, List.length_filterMap_eq_countP]
    apply List.countP_congr
    intro E _
    cases E x.2.1 x.1 with
    | none => simp [Option.filter]
    | some v => by_cases hv : v = 0 <;> simp [Option.filter, hv]
  · rw [List.pairwise_map]
    exact h5

/-- **C160 (violated).** With a threshold the effect is not the median of the counted samples: one variable at two time
points, effects 1 and 3 in two samples, threshold 2: one sample is counted, but the reported effect is 2. -/
theorem C160_median_ignores_threshold (as : Argsort) :
    ∃ r, totalCausalEffects as 2 1 Boot.exTotals (some 2) = .ok r ∧ r.src = [0] ∧ r.dst = [1] ∧ r.probability = [1 / 2] ∧
      r.effect = [2] ∧ ¬ IsMedian (Boot.countedEffects Boot.exTotals 2 1 0) 2 := by
  obtain ⟨r, h1, h2, h3, h4, h5, _, h6⟩ := Boot.C20_median_ignores_threshold as
  exact ⟨r, h1, h2, h3, h4, h5, h6⟩

/-! ### C161 -/

/-- **C161.** `get_paths` lists the directed paths over time from variable `src` at `srcT` to variable `dst` at `dstT` that
occur in some sample, each once, numbering the nodes from the start time (`p * srcT` less), with the fraction of the samples
that contain the path and the median of its effect over those. `rows` are `(path, effect, probability)`. -/
theorem C161_paths (as : Argsort) (p L T : Nat) {ms : List Stack} (hms : ms ≠ [])
    {srcT src dstT dst : Nat} (hs : src < p) (hd : dst < p) (hle : srcT ≤ dstT) (hT : dstT < T)
    (hne : ¬ (srcT = dstT ∧ src = dst)) {thr : Option ℚ} (hv : ∀ q, thr = some q → 0 < q)
    (hac : ∀ A ∈ ms, ∀ t, Acyclic (Edge p (fun i j => (A t 0 i j).getD 0) 0)) :
    ∃ rows : List (List Nat × ℚ × ℚ),
      getPaths as p L ms src dst srcT dstT thr = some (.ok ⟨rows.map (fun x => x.1.map (· - p * srcT)),
        rows.map (fun x => some x.2.1), rows.map (fun x => x.2.2)⟩) ∧
      (rows.map (fun x => x.1)).Nodup ∧
      (∀ q, q ∈ rows.map (fun x => x.1) ↔ ∃ A ∈ ms, HasPathOverTime p L T (thr.getD 0) srcT src dstT dst A q) ∧
      (∀ x ∈ rows, x.2.2 * ms.length =
        numWhere ms (fun A => HasPathOverTime p L T (thr.getD 0) srcT src dstT dst A x.1) ∧ 0 < x.2.2 ∧ x.2.2 ≤ 1) ∧
      rows.Pairwise (fun a b => b.2.2 ≤ a.2.2) ∧
      (∀ x ∈ rows, IsMedian ((listWhere ms (fun A => HasPathOverTime p L T (thr.getD 0) srcT src dstT dst A x.1)).map
        (fun A => pathWeight (unrollT p L (fun t lag i j => (A t lag i j).getD 0)) x.1)) x.2.1) := by
  classical
  have hp : 0 < p := by omega
  obtain ⟨hpar, h0⟩ := params_ok (k := none) ⟨by simp, hv⟩
  set k := dstT - srcT + 1 with hk
  have hk1 : k - 1 = dstT - srcT := by omega
  have hsrc : src < p * k := by
    have : p * 1 ≤ p * k := Nat.mul_le_mul_left p (by omega)
    omega
  have hne' : src ≠ p * (dstT - srcT) + dst := by
    intro h
    rcases Nat.eq_zero_or_pos (dstT - srcT) with h0 | h0
    · rw [h0] at h; exact hne ⟨by omega, by omega⟩
    · have : p * 1 ≤ p * (dstT - srcT) := Nat.mul_le_mul_left p h0
      omega
  have hend : p * srcT + (p * (k - 1) + dst) = p * dstT + dst := by
    rw [hk1, ← Nat.add_assoc, ← Nat.mul_add]
    congr 2; omega
  let X : Stack → Mat := Longitudinal.expansion p L srcT k
  have hacX : ∀ M ∈ ms.map X, Acyclic (Edge (p * k) (clean M) (thr.getD 0)) := by
    intro M hM
    obtain ⟨A, hA, rfl⟩ := List.mem_map.1 hM
    exact Longitudinal.expansion_acyclic hp h0 (hac A hA)
  obtain ⟨rows, h1, h2, h3, h4, h5, h6⟩ := Boot.C21_get_paths as (p * k) (ms := ms.map X) (by simpa using hms) hsrc hne'
    hv hacX
  -- a path of the window is a path over time, shifted
  have hwin : ∀ A q', Boot.HasPath (p * k) (thr.getD 0) src (p * (dstT - srcT) + dst) (X A) q' ↔
      HasPathOverTime p L T (thr.getD 0) srcT src dstT dst A (q'.map (p * srcT + ·)) := by
    intro A q'
    unfold HasPathOverTime
    rw [← hend, Longitudinal.isPath_window hp (by omega : srcT + k ≤ T) h0 hs hd (by omega), hk1]
    constructor
    · intro h
      exact ⟨q', rfl, Paths.isPath_lt hsrc h, h⟩
    · rintro ⟨q'', e, _, h⟩
      have : q' = q'' := (List.map_injective_iff.2 (fun a b h => by simpa using h)) e
      rw [this]
      exact h
  have hsur : ∀ A q, HasPathOverTime p L T (thr.getD 0) srcT src dstT dst A q →
      ∃ q', q = q'.map (p * srcT + ·) ∧ Boot.HasPath (p * k) (thr.getD 0) src (p * (dstT - srcT) + dst) (X A) q' := by
    intro A q h
    unfold HasPathOverTime at h
    rw [← hend, Longitudinal.isPath_window hp (by omega : srcT + k ≤ T) h0 hs hd (by omega), hk1] at h
    obtain ⟨q', e, _, h⟩ := h
    exact ⟨q', e, h⟩
  have hwt : ∀ A q', Boot.HasPath (p * k) (thr.getD 0) src (p * (dstT - srcT) + dst) (X A) q' →
      pathWeight (clean (X A)) q' =
        pathWeight (unrollT p L (fun t lag i j => (A t lag i j).getD 0)) (q'.map (p * srcT + ·)) := by
    intro A q' h
    exact Longitudinal.pathWeight_shift (fun v w hv hw => Longitudinal.expansion_unroll p L srcT k hp A hw hv)
      (Paths.isPath_lt hsrc h)
  refine ⟨rows.map (fun x => (x.1.map (p * srcT + ·), x.2)), ?_, ?_, ?_, ?_, ?_, ?_⟩
  · unfold getPaths
    simp only [Option.map_none] at hpar
    rw [hpar]
    simp only
    rw [if_neg (by omega), if_neg (fun h => hne ⟨h.1.symm, h.2.symm⟩), ← hk, h1]
    simp only [List.map_map, Function.comp_def, Nat.add_sub_cancel_left, List.map_id']
  · rw [List.map_map]
    have e : (fun x : List Nat × ℚ × ℚ => x.1) ∘ (fun x => (x.1.map (p * srcT + ·), x.2)) =
        (fun q' => q'.map (p * srcT + ·)) ∘ (fun x : List Nat × ℚ × ℚ => x.1) := rfl
    rw [e, ← List.map_map]
    exact h2.map (List.map_injective_iff.2 (fun a b h => by simpa using h))
  · intro q
    rw [List.map_map, List.mem_map]
    constructor
    · rintro ⟨x, hx, rfl⟩
      obtain ⟨M, hM, h⟩ := (h3 x.1).1 (List.mem_map_of_mem hx)
      obtain ⟨A, hA, rfl⟩ := List.mem_map.1 hM
      exact ⟨A, hA, (hwin A x.1).1 h⟩
    · rintro ⟨A, hA, h⟩
      obtain ⟨q', rfl, h'⟩ := hsur A q h
      obtain ⟨x, hx, e⟩ := List.mem_map.1 ((h3 q').2 ⟨X A, List.mem_map_of_mem hA, h'⟩)
      exact ⟨x, hx, by simp only [Function.comp_def, e]⟩
  · intro y hy
    obtain ⟨x, hx, rfl⟩ := List.mem_map.1 hy
    obtain ⟨g1, g2, g3⟩ := h4 x hx
    refine ⟨?_, g2, g3⟩
    rw [List.length_map] at g1
    show x.2.2 * _ = _
    rw [g1]
    simp only [numWhere, List.countP_map]
    congr 1
    apply List.countP_congr
    intro A _
    simp only [Function.comp_def, decide_eq_true_eq]
    exact hwin A x.1
  · rw [List.pairwise_map]
    exact h5
  · intro y hy
    obtain ⟨x, hx, rfl⟩ := List.mem_map.1 hy
    have := h6 x hx
    simp only [listWhere] at this ⊢
    rw [List.filter_map, List.map_map] at this
    convert this using 1
    have e : ms.filter ((fun m => decide (Boot.HasPath (p * k) (thr.getD 0) src (p * (dstT - srcT) + dst) m x.1)) ∘ X) =
        ms.filter (fun A => decide (HasPathOverTime p L T (thr.getD 0) srcT src dstT dst A (x.1.map (p * srcT + ·)))) := by
      apply List.filter_congr
      intro A _
      simp only [Function.comp_def, decide_eq_decide]
      exact hwin A x.1
    rw [e]
    apply List.map_congr_left
    intro A hA
    simp only [List.mem_filter, decide_eq_true_eq] at hA
    exact (hwt A x.1 ((hwin A x.1).2 hA.2)).symm

/-- **C161.** Requests against time, or from a variable to itself at the same time, are refused. -/
theorem C161_refused (as : Argsort) (p L : Nat) (ms : List Stack) (src dst srcT dstT : Nat) (thr : Option ℚ)
    (h : dstT < srcT ∨ (srcT = dstT ∧ src = dst)) :
    ∃ e, getPaths as p L ms src dst srcT dstT thr = some (.error e) := by
  unfold getPaths
  split
  · exact ⟨_, rfl⟩
  · rcases h with h | h
    · rw [if_pos h]; exact ⟨_, rfl⟩
    · rw [if_neg (by omega), if_pos ⟨h.1.symm, h.2.symm⟩]; exact ⟨_, rfl⟩

/-! ### Examples -/

/-- Two variables, two time points, one lag, two samples. At time 1 both have `x0 → x1` at the same time; the first also
has `x0` at time 0 → `x0`, with coefficient 2. Time 0 is NaN, as `fit` leaves it. -/
def exStacks : List Stack :=
  [fun t lag i j => if t = 0 then none else
      if lag = 0 ∧ i = 1 ∧ j = 0 then some 3 else if lag = 1 ∧ i = 0 ∧ j = 0 then some 2 else some 0,
   fun t lag i j => if t = 0 then none else if lag = 0 ∧ i = 1 ∧ j = 0 then some (-1) else some 0]

/-- The direction `x0 → x1` of time 1 is listed as from 0 to 1, twice; the lagged one as from 2 to 0, once. -/
example (as : Argsort) : ∃ out rows, directionCounts as 2 2 1 exStacks none none false = .ok out ∧
    out[1]? = some ⟨List.map (fun x : Nat × Nat × Nat × Nat => ((x.1 * 2 + x.2.1 : Nat) : Int)) rows,
      rows.map (fun x => (x.2.2.1 : Int)), rows.map (fun x => x.2.2.2), none⟩ ∧
    (0, 0, 1, 2) ∈ rows ∧ (1, 0, 0, 1) ∈ rows ∧ out[0]? = some ⟨[], [], [], none⟩ := by
  obtain ⟨out, h1, _, h3⟩ := C159_direction_counts as 2 2 1 (ms := exStacks) (k := none) (thr := none) (by simp [exStacks])
    ⟨by simp, by simp⟩
  obtain ⟨rows, e, _, _, _, hc, _⟩ := h3 1 (by omega)
  obtain ⟨⟨out', g1, g2⟩, _⟩ := C159_missing_times as 2 2 1 (ms := exStacks) (k := none) (thr := none) (by simp [exStacks])
    ⟨by simp, by simp⟩ (t := 0) (by omega) (by simp [exStacks])
  rw [h1] at g1
  obtain rfl := Except.ok.inj g1
  refine ⟨out, rows, h1, e, ?_, ?_, g2⟩
  · have := hc rfl 0 1 0 (by omega) (by omega) (by omega) (by decide +kernel)
    rwa [show occ (slice exStacks 1 0) ((none : Option ℚ).getD 0) 1 0 = 2 by decide +kernel] at this
  · have := hc rfl 1 0 0 (by omega) (by omega) (by omega) (by decide +kernel)
    rwa [show occ (slice exStacks 1 1) ((none : Option ℚ).getD 0) 0 0 = 1 by decide +kernel] at this

/-- By sign, `x0 → x1` is listed once with `1` and once with `-1`. -/
example (as : Argsort) : ∃ out rows, directionCounts as 2 2 1 exStacks none none true = .ok out ∧
    out[1]? = some ⟨List.map (fun x : Nat × Nat × Nat × Int × Nat => ((x.1 * 2 + x.2.1 : Nat) : Int)) rows,
      rows.map (fun x => (x.2.2.1 : Int)), rows.map (fun x => x.2.2.2.2), some (rows.map (fun x => x.2.2.2.1))⟩ ∧
    (0, 0, 1, 1, 1) ∈ rows ∧ (0, 0, 1, -1, 1) ∈ rows := by
  obtain ⟨out, h1, _, h3⟩ := C159_signed_direction_counts as 2 2 1 (ms := exStacks) (k := none) (thr := none)
    (by simp [exStacks]) ⟨by simp, by simp⟩
  obtain ⟨rows, e, _, _, _, hc, _⟩ := h3 1 (by omega)
  obtain ⟨c1, c2⟩ := hc rfl 0 1 0 (by omega) (by omega) (by omega)
  refine ⟨out, rows, h1, e, ?_, ?_⟩
  · have := c1 (by decide +kernel)
    rwa [show occPos (slice exStacks 1 0) ((none : Option ℚ).getD 0) 1 0 = 1 by decide +kernel] at this
  · have := c2 (by decide +kernel)
    rwa [show occNeg (slice exStacks 1 0) ((none : Option ℚ).getD 0) 1 0 = 1 by decide +kernel] at this

/-- The lagged edge has probability one half. -/
example : ∃ prob, probabilities exStacks none = .ok prob ∧ prob 1 1 0 0 = 1 / 2 := by
  obtain ⟨prob, h1, h2⟩ := C159_probabilities (ms := exStacks) (thr := none) (by simp [exStacks]) (by simp)
  refine ⟨prob, h1, ?_⟩
  have := (h2 1 1 0 0).1
  rw [show occ (slice exStacks 1 1) ((none : Option ℚ).getD 0) 0 0 = 1 by decide +kernel] at this
  have e : (exStacks.length : ℚ) = 2 := by simp [exStacks]
  rw [e] at this
  push_cast at this
  linarith

/-- Two different graphs at time 1, each once; at time 0 one graph, counted twice. -/
example (as : Argsort) : ∃ out, dagCounts as 2 2 1 exStacks none none false = .ok out ∧
    ∃ r, out[1]? = some r ∧ r.2.sum = 2 ∧ ¬ SameEdgesAt false 2 1 0 1 (exStacks.getD 0 default) (exStacks.getD 1 default) := by
  obtain ⟨out, h1, _, h3⟩ := C159_dag_counts as 2 2 1 exStacks (k := none) (thr := none) ⟨by simp, by simp⟩ false
  obtain ⟨reps, e, _, _, _, hs, _⟩ := h3 1 (by omega)
  refine ⟨out, h1, _, e, (hs rfl).2, fun h => ?_⟩
  have := ((h 1 (by omega)).1 rfl 0 (by omega) 0 (by omega))
  revert this
  decide +kernel

theorem exStacks_acyclic : ∀ A ∈ exStacks, ∀ t, Acyclic (Edge 2 (fun i j => (A t 0 i j).getD 0) 0) := by
  intro A hA t
  refine acyclic_of_before (l := [0, 1]) (by decide) ?_
  intro a b h
  obtain ⟨h1, h2, h3⟩ := h
  simp only [exStacks, List.mem_cons, List.not_mem_nil, or_false] at hA
  have : b = 1 ∧ a = 0 := by
    rcases hA with rfl | rfl
    · by_contra hc
      by_cases ht : t = 0 <;> simp [ht, hc] at h3
    · by_contra hc
      by_cases ht : t = 0 <;> simp [ht, hc] at h3
  obtain ⟨rfl, rfl⟩ := this
  exact ⟨[], [], [], by simp⟩

/-- From `x0` at time 0 to `x1` at time 1: the path `0 → 2 → 3` is in one of the two samples. -/
example (as : Argsort) : ∃ r, getPaths as 2 1 exStacks 0 1 0 1 none = some (.ok r) ∧ [0, 2, 3] ∈ r.path := by
  obtain ⟨rows, h1, _, h3, _⟩ := C161_paths as 2 1 2 (ms := exStacks) (by simp [exStacks]) (srcT := 0) (src := 0) (dstT := 1)
    (dst := 1) (by omega) (by omega) (by omega) (by omega) (by omega) (thr := none) (by simp) exStacks_acyclic
  refine ⟨_, h1, ?_⟩
  have : [0, 2, 3] ∈ rows.map (fun x => x.1) := by
    refine (h3 _).2 ⟨_, List.mem_cons_self .., ?_⟩
    refine ⟨by simp, by simp, ?_⟩
    simp only [List.isChain_cons_cons, List.IsChain.singleton, and_true]
    exact ⟨⟨by decide, by decide, by decide +kernel⟩, ⟨by decide, by decide, by decide +kernel⟩⟩
  obtain ⟨x, hx, e⟩ := List.mem_map.1 this
  exact List.mem_map.2 ⟨x, hx, by simp [e]⟩

end Verif.LongResult
