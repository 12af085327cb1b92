import Verif.Model.VarResult
import Verif.Props.Bootstrap
import Verif.Props.Var

/-! C241: the bootstrap results of the time series models, read by lag. -/
set_option autoImplicit false
set_option linter.unusedSectionVars false
namespace Verif.VarResult
open Boot (Argsort Err PathTable checkParams ValidParams params_ok)
open Verif.Paths (clean)
open Var (lagFn)

/-- In how many samples the coefficient of variable `j`, `k` steps earlier, for variable `i` exceeds `t`. -/
noncomputable def lagCount (samples : List (List (Nat → Nat → ℚ))) (t : ℚ) (k i j : Nat) : Nat :=
  numWhere samples (fun Bs => t < |lagFn Bs k i j|)

/-- A directed path in the graph unrolled over the lags `0 … p`; node `n * k + j` is variable `j`, `k` steps back. -/
def HasPathBack (n p : Nat) (t : ℚ) (srcLag src dstLag dst : Nat) (Bs : List (Nat → Nat → ℚ)) (q : List Nat) : Prop :=
  IsPath (Edge (n * (p + 1)) (unroll n (lagFn Bs)) t) (n * srcLag + src) (n * dstLag + dst) q

theorem occ_stored {n : Nat} (hn : 0 < n) (samples : List (List (Nat → Nat → ℚ))) (t : ℚ) (k i : Nat) {j : Nat} (hj : j < n) :
    occ (samples.map (stored n)) t i (n * k + j) = lagCount samples t k i j := by
  unfold occ lagCount numWhere
  rw [List.countP_map]
  apply List.countP_congr
  intro Bs _
  simp only [Function.comp_def, stored, Option.getD_some, Var.concat_block hn _ _ _ _ hj, decide_eq_true_eq]

/-- **C241, directions.** Each coefficient that exceeds the threshold in some sample is listed once, with the number of such samples; `rows` are
`(lag, from, to, count)`, and the reported number of the cause is `n * lag + from`. -/
theorem C241_directions (as : Argsort) {n L : Nat} {samples : List (List (Nat → Nat → ℚ))} (hms : samples ≠ []) {k : Option Int}
    {thr : Option ℚ} (hv : ValidParams k thr) :
    ∃ rows : List (Nat × Nat × Nat × Nat),
      Boot.directionCounts as n (n * L) (samples.map (stored n)) k thr false = .ok ⟨rows.map (fun x => ((n * x.1 + x.2.1 : Nat) : Int)),
        rows.map (fun x => (x.2.2.1 : Int)), rows.map (fun x => x.2.2.2), none⟩ ∧
      (rows.map (fun x => (x.1, x.2.1, x.2.2.1))).Nodup ∧
      (∀ x ∈ rows, x.1 < L ∧ x.2.1 < n ∧ x.2.2.1 < n ∧ x.2.2.2 = lagCount samples (thr.getD 0) x.1 x.2.2.1 x.2.1 ∧ 0 < x.2.2.2) ∧
      rows.Pairwise (fun a b => b.2.2.2 ≤ a.2.2.2) ∧
      (k = none → ∀ l i j, l < L → i < n → j < n → 0 < lagCount samples (thr.getD 0) l i j →
        (l, j, i, lagCount samples (thr.getD 0) l i j) ∈ rows) := by
  obtain ⟨rows, h1, h2, h3, h4, h5, _, _⟩ := Boot.C16_direction_counts as n (n * L) (ms := samples.map (stored n)) (by simpa using hms) hv
  have hnpos : ∀ x ∈ rows, 0 < n := fun x hx => lt_of_le_of_lt (Nat.zero_le _) (h3 x hx).2.1
  have hsplit : ∀ c : Nat, n * (c / n) + c % n = c := fun c => Nat.div_add_mod c n
  refine ⟨rows.map (fun x => (x.1 / n, x.1 % n, x.2.1, x.2.2)), ?_, ?_, ?_, ?_, ?_⟩
  · rw [h1]
    simp only [List.map_map, Function.comp_def, hsplit]
  · rw [List.map_map]
    refine List.Nodup.of_map (fun y : Nat × Nat × Nat => (n * y.1 + y.2.1, y.2.2)) ?_
    simpa only [List.map_map, Function.comp_def, hsplit] using h2
  · intro y hy
    obtain ⟨x, hx, rfl⟩ := List.mem_map.1 hy
    obtain ⟨g1, g2, g3, g4⟩ := h3 x hx
    have hn := hnpos x hx
    refine ⟨Nat.div_lt_of_lt_mul g1, Nat.mod_lt _ hn, g2, ?_, g4⟩
    show x.2.2 = _
    rw [g3, ← occ_stored hn samples _ _ _ (Nat.mod_lt _ hn), hsplit]
  · rw [List.pairwise_map]
    exact h4
  · intro hk l i j hl hi hj hpos
    have hn : 0 < n := by omega
    have hc : n * l + j < n * L := by
      have : n * (l + 1) ≤ n * L := Nat.mul_le_mul_left n hl
      rw [Nat.mul_succ] at this
      omega
    have := h5 hk i (n * l + j) hi hc (by rw [occ_stored hn samples _ _ _ hj]; exact hpos)
    rw [occ_stored hn samples _ _ _ hj] at this
    refine List.mem_map.2 ⟨_, this, ?_⟩
    simp only [Nat.mul_add_div hn, Nat.div_eq_of_lt hj, Nat.mul_add_mod, Nat.mod_eq_of_lt hj, Nat.add_zero]

/-- **C241, probabilities.** One matrix per lag, each entry the fraction of samples whose coefficient exceeds the threshold. -/
theorem C241_probabilities {n L : Nat} (hn : 0 < n) {samples : List (List (Nat → Nat → ℚ))} (hms : samples ≠ []) {thr : Option ℚ}
    (hv : ∀ q, thr = some q → 0 < q) :
    ∃ bp, Boot.probabilities (samples.map (stored n)) thr = .ok bp ∧ (Boot.hsplit n (n * L) bp).length = L ∧
      ∀ l, l < L → ∃ M, (Boot.hsplit n (n * L) bp)[l]? = some M ∧ ∀ i j, j < n → M i j * samples.length = lagCount samples (thr.getD 0) l i j := by
  obtain ⟨bp, h1, h2⟩ := Boot.C19_probabilities (ms := samples.map (stored n)) (by simpa using hms) hv
  have hL : n * L / n = L := Nat.mul_div_cancel_left L hn
  refine ⟨bp, h1, by simp [Boot.hsplit, hL], fun l hl => ⟨fun i j => bp i (l * n + j), by simp [Boot.hsplit, hL, hl], fun i j hj => ?_⟩⟩
  rw [← occ_stored hn samples _ _ _ hj, ← (h2 i (n * l + j)).1, List.length_map, Nat.mul_comm l n]

/-- **C241, paths.** `get_paths` lists every directed path of the unrolled graph between the two variables at the two lags that occurs in some
sample, once, with the fraction of the samples that contain it and the median of its effect over those.  `rows` are
`(path, effect, probability)`. -/
theorem C241_paths (as : Argsort) (n p : Nat) {samples : List (List (Nat → Nat → ℚ))} (hms : samples ≠ []) {srcLag src dstLag dst : Nat}
    (hs : src < n) (hd : dst < n) (hp : srcLag ≤ p) (hle : dstLag ≤ srcLag) (hne : ¬ (srcLag = dstLag ∧ src = dst)) {thr : Option ℚ}
    (hv : ∀ q, thr = some q → 0 < q) (hac : ∀ Bs ∈ samples, Acyclic (Edge n (lagFn Bs 0) 0)) :
    ∃ rows : List (List Nat × ℚ × ℚ),
      getPaths as n p samples src dst srcLag dstLag thr = some (.ok ⟨rows.map (fun x => x.1), rows.map (fun x => some x.2.1), rows.map (fun x => x.2.2)⟩) ∧
      (rows.map (fun x => x.1)).Nodup ∧
      (∀ q, q ∈ rows.map (fun x => x.1) ↔ ∃ Bs ∈ samples, HasPathBack n p (thr.getD 0) srcLag src dstLag dst Bs q) ∧
      (∀ x ∈ rows, x.2.2 * samples.length = numWhere samples (fun Bs => HasPathBack n p (thr.getD 0) srcLag src dstLag dst Bs x.1) ∧
        0 < x.2.2 ∧ x.2.2 ≤ 1) ∧
      rows.Pairwise (fun a b => b.2.2 ≤ a.2.2) ∧
      (∀ x ∈ rows, IsMedian ((listWhere samples (fun Bs => HasPathBack n p (thr.getD 0) srcLag src dstLag dst Bs x.1)).map
        (fun Bs => pathWeight (unroll n (lagFn Bs)) x.1)) x.2.1) := by
  classical
  have hn : 0 < n := by omega
  obtain ⟨hpar, h0⟩ := params_ok (k := none) ⟨by simp, hv⟩
  let X : List (Nat → Nat → ℚ) → Boot.Mat := fun Bs => fun i j => some (Var.expansion n p (Var.concat n Bs) i j)
  have hlt : n * srcLag + src < n * (p + 1) := by
    have : n * (srcLag + 1) ≤ n * (p + 1) := Nat.mul_le_mul_left n (by omega)
    rw [Nat.mul_succ] at this
    omega
  have hne' : n * srcLag + src ≠ n * dstLag + dst := by
    intro h
    have e1 : (n * srcLag + src) / n = srcLag := by rw [Nat.mul_add_div hn, Nat.div_eq_of_lt hs, Nat.add_zero]
    have e2 : (n * dstLag + dst) / n = dstLag := by rw [Nat.mul_add_div hn, Nat.div_eq_of_lt hd, Nat.add_zero]
    have e3 : srcLag = dstLag := by rw [← e1, ← e2, h]
    subst e3
    exact hne ⟨rfl, by omega⟩
  have heq : ∀ Bs, ∀ v w, True → v < n * (p + 1) → w < n * (p + 1) → clean (X Bs) w v = unroll n (lagFn Bs) w v :=
    fun Bs v w _ hv _ => Var.expansion_unroll hn Bs hv
  have hpath : ∀ Bs q, Boot.HasPath (n * (p + 1)) (thr.getD 0) (n * srcLag + src) (n * dstLag + dst) (X Bs) q ↔
      HasPathBack n p (thr.getD 0) srcLag src dstLag dst Bs q := fun Bs q =>
    Var.isPath_congr (S := fun _ => True) (heq Bs) (fun _ _ _ _ => trivial) trivial
  have hacX : ∀ M ∈ samples.map X, Acyclic (Edge (n * (p + 1)) (clean M) (thr.getD 0)) := by
    intro M hM
    obtain ⟨Bs, hBs, rfl⟩ := List.mem_map.1 hM
    intro i hi
    refine Var.unroll_acyclic (N := n * (p + 1)) h0 hn (hac Bs hBs) i (Relation.TransGen.mono (fun a b h => ?_) _ _ hi)
    exact ⟨h.1, h.2.1, by rw [← heq Bs a b trivial h.1 h.2.1]; exact h.2.2⟩
  obtain ⟨rows, h1, h2, h3, h4, h5, h6⟩ := Boot.C21_get_paths as (n * (p + 1)) (ms := samples.map X) (by simpa using hms) hlt hne' hv hacX
  refine ⟨rows, ?_, h2, ?_, ?_, h5, ?_⟩
  · unfold getPaths
    simp only [Option.map_none] at hpar
    rw [hpar]
    simp only
    rw [if_neg (by omega), if_neg (fun h => hne ⟨h.1.symm, h.2.symm⟩)]
    exact h1
  · intro q
    rw [h3 q]
    constructor
    · rintro ⟨M, hM, h⟩
      obtain ⟨Bs, hBs, rfl⟩ := List.mem_map.1 hM
      exact ⟨Bs, hBs, (hpath Bs q).1 h⟩
    · rintro ⟨Bs, hBs, h⟩
      exact ⟨X Bs, List.mem_map_of_mem hBs, (hpath Bs q).2 h⟩
  · intro x hx
    obtain ⟨g1, g2, g3⟩ := h4 x hx
    refine ⟨?_, g2, g3⟩
    rw [List.length_map] at g1
    rw [g1]
    simp only [numWhere, List.countP_map]
    congr 1
    apply List.countP_congr
    intro Bs _
    simp only [Function.comp_def, decide_eq_true_eq]
    exact hpath Bs x.1
  · intro x hx
    have := h6 x hx
    simp only [listWhere] at this ⊢
    rw [List.filter_map, List.map_map] at this
    convert this using 1
    have e : samples.filter ((fun m => decide (Boot.HasPath (n * (p + 1)) (thr.getD 0) (n * srcLag + src) (n * dstLag + dst) m x.1)) ∘ X) =
        samples.filter (fun Bs => decide (HasPathBack n p (thr.getD 0) srcLag src dstLag dst Bs x.1)) := by
      apply List.filter_congr
      intro Bs _
      simp only [Function.comp_def, decide_eq_decide]
      exact hpath Bs x.1
    rw [e]
    apply List.map_congr_left
    intro Bs hBs
    simp only [List.mem_filter, decide_eq_true_eq] at hBs
    exact (Var.pathWeight_congr (heq Bs) fun y hy => ⟨trivial, Paths.isPath_lt hlt ((hpath Bs x.1).2 hBs.2) y hy⟩).symm

/-- **C241.** Requests against time, or from a variable to itself at the same lag, are refused. -/
theorem C241_refused (as : Argsort) (n p : Nat) (samples : List (List (Nat → Nat → ℚ))) (src dst srcLag dstLag : Nat) (thr : Option ℚ)
    (h : srcLag < dstLag ∨ (srcLag = dstLag ∧ src = dst)) : ∃ e, getPaths as n p samples src dst srcLag dstLag thr = some (.error e) := by
  unfold getPaths
  split
  · exact ⟨_, rfl⟩
  · rcases h with h | h
    · rw [if_pos h]; exact ⟨_, rfl⟩
    · rw [if_neg (by omega), if_pos ⟨h.1.symm, h.2.symm⟩]; exact ⟨_, rfl⟩

theorem expansion_congr {n p : Nat} {am am' : Nat → Nat → ℚ} (h : ∀ i j, j < n * (p + 1) → am i j = am' i j) (r c : Nat) :
    Var.expansion n p am r c = Var.expansion n p am' r c := by
  have key : ∀ (l : List (Nat × Nat)) (m : Nat → Nat → ℚ), (∀ ij ∈ l, ij.2 ≤ p ∧ ij.1 ≤ ij.2) →
      l.foldl (Var.expandStep n am) m = l.foldl (Var.expandStep n am') m := by
    intro l
    induction l with
    | nil => intro m _; rfl
    | cons ij l ih =>
      intro m hl
      rw [List.foldl_cons, List.foldl_cons]
      have e : Var.expandStep n am m ij = Var.expandStep n am' m ij := by
        funext r c
        unfold Var.expandStep
        split_ifs with hc
        · apply h
          obtain ⟨h2, h1⟩ := hl ij (by simp)
          have e1 : n * ij.2 - n * ij.1 ≤ n * p := by
            have := Nat.mul_le_mul_left n h2
            omega
          rw [Nat.mul_succ]
          omega
        · rfl
      rw [e]
      exact ih _ fun x hx => hl x (by simp [hx])
  unfold Var.expansion
  rw [key]
  intro ij hij
  rw [Var.mem_blockPairs] at hij
  omega

/-- **C241.** The coefficients of the past errors of VARMALiNGAM have no influence on the paths: `psis` are the `p + 1` matrices of the present and
past values, `omegas` those of the past errors. -/
theorem C241_errors_ignored (as : Argsort) {n p : Nat} (hn : 0 < n) {samples : List (List (Nat → Nat → ℚ) × List (Nat → Nat → ℚ))}
    (hl : ∀ s ∈ samples, s.1.length = p + 1) (src dst srcLag dstLag : Nat) (thr : Option ℚ) :
    getPaths as n p (samples.map (fun s => s.1 ++ s.2)) src dst srcLag dstLag thr = getPaths as n p (samples.map (fun s => s.1)) src dst srcLag dstLag thr := by
  have e : (samples.map (fun s => s.1 ++ s.2)).map (fun Bs => fun i j => some (Var.expansion n p (Var.concat n Bs) i j)) =
      (samples.map (fun s => s.1)).map (fun Bs => (fun i j => some (Var.expansion n p (Var.concat n Bs) i j) : Boot.Mat)) := by
    rw [List.map_map, List.map_map]
    refine List.map_congr_left fun s hs => ?_
    have hc : ∀ i j, j < n * (p + 1) → Var.concat n (s.1 ++ s.2) i j = Var.concat n s.1 i j := by
      intro i j hj
      unfold Var.concat
      have : j / n < s.1.length := by rw [hl s hs]; exact Nat.div_lt_of_lt_mul hj
      rw [List.getD_eq_getElem?_getD, List.getD_eq_getElem?_getD, List.getElem?_append_left this]
    funext i j
    simp only [Function.comp_def, Option.some.injEq]
    exact expansion_congr hc i j
  unfold getPaths
  rw [e]

/-- Two variables, one lag, two samples: `x0 → x1` at the same time in both, and `x0` one step earlier → `x0` in the first; one matrix for past errors. -/
def exSamples : List (List (Nat → Nat → ℚ)) :=
  [[fun i j => if i = 1 ∧ j = 0 then 3 else 0, fun i j => if i = 0 ∧ j = 0 then 2 else 0, fun _ _ => 1],
   [fun i j => if i = 1 ∧ j = 0 then -1 else 0, fun _ _ => 0, fun _ _ => 1]]

/-- The path of `x0`, one step earlier, over `x0` to `x1` (nodes 2, 0, 1) is listed with probability 1/2. -/
example (as : Argsort) : ∃ rows : List (List Nat × ℚ × ℚ),
    getPaths as 2 1 exSamples 0 1 1 0 none = some (.ok ⟨rows.map (fun x => x.1), rows.map (fun x => some x.2.1), rows.map (fun x => x.2.2)⟩) ∧
      [2, 0, 1] ∈ rows.map (fun x => x.1) := by
  have hac : ∀ Bs ∈ exSamples, Acyclic (Edge 2 (lagFn Bs 0) 0) := by
    intro Bs hBs
    have he : ∀ a b, Edge 2 (lagFn Bs 0) 0 a b → a < b := by
      rintro a b ⟨ha, hb, hw⟩
      simp only [exSamples, List.mem_cons, List.not_mem_nil, or_false] at hBs
      rcases hBs with rfl | rfl <;>
      · simp only [lagFn, List.getD_cons_zero] at hw
        by_contra hc
        rw [if_neg (by omega)] at hw
        simp at hw
    intro i hi
    have : ∀ a b, Relation.TransGen (Edge 2 (lagFn Bs 0) 0) a b → a < b := by
      intro a b h
      induction h with
      | single h => exact he _ _ h
      | tail _ h ih => exact ih.trans (he _ _ h)
    exact absurd (this i i hi) (lt_irrefl i)
  obtain ⟨rows, h1, _, h3, _⟩ := C241_paths as 2 1 (samples := exSamples) (by simp [exSamples]) (srcLag := 1) (src := 0) (dstLag := 0) (dst := 1)
    (by norm_num) (by norm_num) (by norm_num) (by norm_num) (by norm_num) (thr := none) (by simp) hac
  refine ⟨rows, h1, (h3 _).2 ⟨_, List.mem_cons_self, ?_⟩⟩
  simp [HasPathBack, IsPath, Edge, unroll, lagFn]

end Verif.VarResult
