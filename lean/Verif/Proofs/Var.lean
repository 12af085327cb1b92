import Verif.Model.Var
import Verif.Spec.TimeSeries
import Verif.Spec.Graph
import Verif.Proofs.TotalEffect
import Verif.Proofs.Order
import Mathlib.Tactic.Ring
import Mathlib.Tactic.Linarith

/-! Lemmas about the model of `VARLiNGAM`. -/
set_option autoImplicit false
set_option linter.unusedSectionVars false
namespace Verif.Var

open Verif.Paths (Err clean)

variable {K : Type} [Field K] [LinearOrder K] [IsStrictOrderedRing K]

/-- The matrices of a list as a function of the lag. -/
def lagFn (Bs : List (Nat → Nat → K)) (k : Nat) : Nat → Nat → K := Bs.getD k (fun _ _ => 0)

/-- `M_1, M_2, …` of a list that starts with `M_1`. -/
def lagFn1 (Ms : List (Nat → Nat → K)) (k : Nat) : Nat → Nat → K := Ms.getD (k - 1) (fun _ _ => 0)

theorem mm_mv (n : Nat) (A B : Nat → Nat → K) (x : Nat → K) (i : Nat) :
    mv n (mm n A B) x i = mv n A (mv n B x) i := by
  unfold mv mm
  simp only [Finset.sum_mul, Finset.mul_sum]
  rw [Finset.sum_comm]
  exact Finset.sum_congr rfl fun k _ => Finset.sum_congr rfl fun l _ => by ring

theorem mv_oneSub (n : Nat) (B : Nat → Nat → K) (x : Nat → K) {i : Nat} (hi : i < n) :
    mv n (oneSub B) x i = x i - mv n B x i := by
  unfold mv oneSub
  simp only [sub_mul, Finset.sum_sub_distrib]
  congr 1
  simp [Finset.sum_ite_eq, hi]

theorem mv_sub (n : Nat) (A : Nat → Nat → K) (x y : Nat → K) (i : Nat) :
    mv n A (fun k => x k - y k) i = mv n A x i - mv n A y i := by
  unfold mv
  simp only [mul_sub, Finset.sum_sub_distrib]

theorem mv_sum (n p : Nat) (A : Nat → Nat → K) (x : Nat → Nat → K) (i : Nat) :
    mv n A (fun k => ∑ t ∈ Finset.range p, x t k) i = ∑ t ∈ Finset.range p, mv n A (x t) i := by
  unfold mv
  simp only [Finset.mul_sum]
  rw [Finset.sum_comm]

theorem calcB_length (n : Nat) (B0 : Nat → Nat → K) (Ms : List (Nat → Nat → K)) :
    (calcB n B0 Ms).length = Ms.length + 1 := by simp [calcB]

theorem lagFn_calcB_zero (n : Nat) (B0 : Nat → Nat → K) (Ms : List (Nat → Nat → K)) :
    lagFn (calcB n B0 Ms) 0 = B0 := rfl

theorem lagFn_calcB_succ (n : Nat) (B0 : Nat → Nat → K) (Ms : List (Nat → Nat → K)) {k : Nat} (hk : k < Ms.length) :
    lagFn (calcB n B0 Ms) (k + 1) = mm n (oneSub B0) (lagFn1 Ms (k + 1)) := by
  simp [lagFn, lagFn1, calcB, List.getD_eq_getElem?_getD, hk]

/-- The residual rows of the code are the innovations. -/
theorem calcResiduals_val (n : Nat) (X : Data K) (Ms : List (Nat → Nat → K)) (r i : Nat) :
    (calcResiduals n X Ms Ms.length).val r i = innovation n Ms.length (lagFn1 Ms) X.val (r + Ms.length) i := by
  unfold calcResiduals residFull innovation estimated mv lagFn1
  simp

/-- Algebraic core of C36. -/
theorem structEq_iff (n p : Nat) (B M : Nat → Nat → Nat → K)
    (hB : ∀ k, k < p → B (k + 1) = mm n (oneSub (B 0)) (M (k + 1))) (x : Nat → Nat → K) (t : Nat) (e : Nat → K) :
    StructEq n p B x t e ↔ ∀ i, i < n → e i = mv n (oneSub (B 0)) (innovation n p M x t) i := by
  refine forall_congr' fun i => ⟨fun h hi => ?_, fun h hi => ?_⟩
  all_goals
    have h1 : mv n (oneSub (B 0)) (innovation n p M x t) i =
        x t i - mv n (B 0) (x t) i - ∑ k ∈ Finset.range p, mv n (B (k + 1)) (x (t - (k + 1))) i := by
      have : innovation n p M x t = fun j => x t j - ∑ k ∈ Finset.range p, mv n (M (k + 1)) (x (t - (k + 1))) j := rfl
      rw [this, mv_sub, mv_sum, mv_oneSub n _ _ hi]
      congr 1
      apply Finset.sum_congr rfl
      intro k hk
      rw [hB k (Finset.mem_range.1 hk), mm_mv]
    have h2 : ∑ k ∈ Finset.range (p + 1), ∑ j ∈ Finset.range n, B k i j * x (t - k) j =
        mv n (B 0) (x t) i + ∑ k ∈ Finset.range p, mv n (B (k + 1)) (x (t - (k + 1))) i := by
      rw [Finset.sum_range_succ', add_comm]
      rfl
  · have := h hi
    rw [h2] at this
    rw [h1]; linarith
  · have := h hi
    rw [h1] at this
    rw [h2]; linarith

/-! ### Generation of the bootstrap series -/

theorem generate_succ (n lags : Nat) (Ms : List (Nat → Nat → K)) (e : Nat → Nat → K) (N : Nat) :
    generate n lags Ms e (N + 1) = genStep n lags Ms e (generate n lags Ms e N) N := by
  unfold generate
  rw [List.range_succ, List.foldl_append]
  rfl

theorem generate_stable (n lags : Nat) (Ms : List (Nat → Nat → K)) (e : Nat → Nat → K) {r N : Nat} (h : r < N) (i : Nat) :
    generate n lags Ms e N r i = generate n lags Ms e (r + 1) r i := by
  induction N with
  | zero => omega
  | succ N ih =>
    by_cases hr : r = N
    · rw [hr]
    · rw [generate_succ, ← ih (by omega)]
      unfold genStep
      rw [if_neg hr]

theorem generate_row (n lags : Nat) (Ms : List (Nat → Nat → K)) (e : Nat → Nat → K) (hM : Ms.length ≤ lags)
    {r N : Nat} (h : r < N) (i : Nat) :
    generate n lags Ms e N r i =
      if r < lags then e r i
      else (∑ t ∈ Finset.range Ms.length, mv n (lagFn1 Ms (t + 1)) (generate n lags Ms e N (r - (t + 1))) i) + e r i := by
  rw [generate_stable n lags Ms e h, generate_succ]
  unfold genStep
  rw [if_pos rfl]
  by_cases hl : r < lags
  · rw [if_pos hl, if_pos hl]
  · rw [if_neg hl, if_neg hl]
    congr 1
    apply Finset.sum_congr rfl
    intro t ht
    unfold mv
    apply Finset.sum_congr rfl
    intro k _
    have e1 : r - t - 1 = r - (t + 1) := by omega
    rw [e1]
    show Ms.getD t _ i k * _ = Ms.getD (t + 1 - 1) _ i k * _
    rw [Nat.add_sub_cancel]
    congr 1
    have := Finset.mem_range.1 ht
    rw [generate_stable n lags Ms e (show r - (t + 1) < r by omega),
      generate_stable n lags Ms e (show r - (t + 1) < N by omega)]

/-- The residuals of a generated series are the residuals it was generated from. -/
theorem calcResiduals_generate (n : Nat) (Ms : List (Nat → Nat → K)) (e : Nat → Nat → K) {r N : Nat}
    (h : r + Ms.length < N) (i : Nat) :
    (calcResiduals n ⟨N, generate n Ms.length Ms e N⟩ Ms Ms.length).val r i = e (r + Ms.length) i := by
  rw [calcResiduals_val]
  unfold innovation
  show generate n Ms.length Ms e N (r + Ms.length) i - _ = _
  rw [generate_row n Ms.length Ms e le_rfl h, if_neg (by omega)]
  simp only [mv]
  ring

/-! ### Acyclic systems -/

/-- A homogeneous acyclic system has only the zero solution. -/
theorem fix_zero {n : Nat} {B : Nat → Nat → K} (hE : Acyclic (Edge n B 0)) {u : Nat → K}
    (h : ∀ i, i < n → u i = ∑ j ∈ Finset.range n, B i j * u j) : ∀ i, i < n → u i = 0 := by
  by_contra hne
  push Not at hne
  obtain ⟨i0, hi0, hne0⟩ := hne
  have hS : (List.range n).filter (fun i => decide (u i ≠ 0)) ≠ [] := by
    refine List.ne_nil_of_mem (a := i0) ?_
    simp [hi0, hne0]
  obtain ⟨m, hm, hmin⟩ := exists_minimal hE _ hS
  rw [List.mem_filter, List.mem_range, decide_eq_true_eq] at hm
  obtain ⟨hmn, hme⟩ := hm
  apply hme
  rw [h m hmn]
  refine Finset.sum_eq_zero fun j hj => ?_
  have hjn := Finset.mem_range.1 hj
  by_cases hj' : u j = 0
  · rw [hj', mul_zero]
  · have := hmin j (by simp [hjn, hj'])
    have hb : B m j = 0 := by
      by_contra hc
      exact this ⟨hjn, hmn, abs_pos.2 hc⟩
    rw [hb, zero_mul]

/-- An acyclic linear system has at most one solution. -/
theorem fix_unique {n : Nat} {B : Nat → Nat → K} (hE : Acyclic (Edge n B 0)) {b u v : Nat → K}
    (hu : ∀ i, i < n → u i = (∑ j ∈ Finset.range n, B i j * u j) + b i)
    (hv : ∀ i, i < n → v i = (∑ j ∈ Finset.range n, B i j * v j) + b i) : ∀ i, i < n → u i = v i := by
  intro i hi
  have := fix_zero hE (u := fun i => u i - v i) (fun i hi => by
    simp only [mul_sub, Finset.sum_sub_distrib]
    have h1 := hu i hi
    have h2 := hv i hi
    linarith) i hi
  exact sub_eq_zero.1 this

/-! ### Total effects depend only on the part of the graph reachable from the source -/

theorem chain_in {n : Nat} {W : Nat → Nat → K} {thr : K} {S : Nat → Prop}
    (hcl : ∀ v w, S v → Edge n W thr v w → S w) : ∀ {p : List Nat} {a : Nat}, S a →
    (a :: p).IsChain (Edge n W thr) → ∀ x ∈ a :: p, S x := by
  intro p
  induction p with
  | nil => intro a ha _ x hx; simp at hx; subst hx; exact ha
  | cons b p ih =>
    intro a ha h x hx
    rw [List.isChain_cons_cons] at h
    rcases List.mem_cons.1 hx with rfl | hx
    · exact ha
    · exact ih (hcl a b ha h.1) h.2 x hx

theorem chain_congr {n : Nat} {W W' : Nat → Nat → K} {thr : K} {S : Nat → Prop}
    (heq : ∀ v w, S v → v < n → w < n → W w v = W' w v) : ∀ {p : List Nat}, (∀ x ∈ p, S x) →
    p.IsChain (Edge n W thr) → p.IsChain (Edge n W' thr) := by
  intro p
  induction p with
  | nil => intro _ _; simp
  | cons a p ih =>
    intro hS h
    cases p with
    | nil => simp
    | cons b p =>
      rw [List.isChain_cons_cons] at h ⊢
      refine ⟨⟨h.1.1, h.1.2.1, ?_⟩, ih (fun x hx => hS x (by simp [hx])) h.2⟩
      rw [← heq a b (hS a (by simp)) h.1.1 h.1.2.1]
      exact h.1.2.2

theorem pathWeight_congr {n : Nat} {W W' : Nat → Nat → K} {S : Nat → Prop}
    (heq : ∀ v w, S v → v < n → w < n → W w v = W' w v) : ∀ {p : List Nat}, (∀ x ∈ p, S x ∧ x < n) →
    pathWeight W p = pathWeight W' p := by
  intro p
  induction p with
  | nil => intro _; rfl
  | cons a p ih =>
    intro hS
    cases p with
    | nil => rfl
    | cons b p =>
      have h1 := ih (fun x hx => hS x (by simp [hx]))
      simp only [pathWeight, List.tail_cons, List.zipWith_cons_cons, List.prod_cons] at h1 ⊢
      rw [h1, heq a b (hS a (by simp)).1 (hS a (by simp)).2 (hS b (by simp)).2]

theorem isPath_congr {n : Nat} {W W' : Nat → Nat → K} {thr : K} {S : Nat → Prop}
    (heq : ∀ v w, S v → v < n → w < n → W w v = W' w v)
    (hcl : ∀ v w, S v → Edge n W thr v w → S w) {src dst : Nat} (hs : S src) {p : List Nat} :
    IsPath (Edge n W thr) src dst p ↔ IsPath (Edge n W' thr) src dst p := by
  have hcl' : ∀ v w, S v → Edge n W' thr v w → S w := by
    intro v w hv h
    refine hcl v w hv ⟨h.1, h.2.1, ?_⟩
    rw [heq v w hv h.1 h.2.1]
    exact h.2.2
  cases p with
  | nil => simp [IsPath]
  | cons a p =>
    constructor
    · rintro ⟨h1, h2, h3⟩
      refine ⟨h1, h2, ?_⟩
      simp at h1
      subst h1
      exact chain_congr heq (chain_in hcl hs h3) h3
    · rintro ⟨h1, h2, h3⟩
      refine ⟨h1, h2, ?_⟩
      simp at h1
      subst h1
      exact chain_congr (fun v w hv h4 h5 => (heq v w hv h4 h5).symm) (chain_in hcl' hs h3) h3

/-- Two acyclic matrices that agree on the part reachable from `src` give the same path sum. -/
theorem pathSum_congr {n : Nat} {d d' : Nat → Nat → Option K} {S : Nat → Prop}
    (heq : ∀ v w, S v → v < n → w < n → clean d w v = clean d' w v)
    (hcl : ∀ v w, S v → Edge n (clean d) 0 v w → S w)
    (hE : Acyclic (Edge n (clean d) 0)) (hE' : Acyclic (Edge n (clean d') 0))
    {src dst : Nat} (hs : S src) (hsrc : src < n) :
    ((Paths.enum (Paths.toIndices n d 0) dst n src).map (pathWeight (clean d))).sum =
    ((Paths.enum (Paths.toIndices n d' 0) dst n src).map (pathWeight (clean d'))).sum := by
  have hperm : (Paths.enum (Paths.toIndices n d 0) dst n src).Perm (Paths.enum (Paths.toIndices n d' 0) dst n src) := by
    rw [List.perm_ext_iff_of_nodup (Paths.enum_nodup (Paths.toIndices_nodup n d 0) n src)
      (Paths.enum_nodup (Paths.toIndices_nodup n d' 0) n src)]
    intro p
    rw [Paths.mem_enum_acyclic hE hsrc, Paths.mem_enum_acyclic hE' hsrc]
    exact isPath_congr heq hcl hs
  rw [← (hperm.map (pathWeight (clean d'))).sum_eq]
  congr 1
  apply List.map_congr_left
  intro p hp
  rw [Paths.mem_enum_acyclic hE hsrc] at hp
  refine pathWeight_congr heq fun x hx => ⟨?_, Paths.isPath_lt hsrc hp x hx⟩
  obtain ⟨h1, h2, h3⟩ := hp
  cases p with
  | nil => simp at hx
  | cons a p =>
    simp at h1
    subst h1
    exact chain_in hcl hs h3 x hx

theorem calcTotalEffect_congr {n : Nat} {d d' : Nat → Nat → Option K} {S : Nat → Prop}
    (heq : ∀ v w, S v → v < n → w < n → clean d w v = clean d' w v)
    (hcl : ∀ v w, S v → Edge n (clean d) 0 v w → S w)
    (hE : Acyclic (Edge n (clean d) 0)) (hE' : Acyclic (Edge n (clean d') 0))
    {src dst : Nat} (hs : S src) (hsrc : src < n) (hdst : dst < n) (hne : src ≠ dst) :
    Paths.calcTotalEffect n d src dst = Paths.calcTotalEffect n d' src dst := by
  rw [Paths.calcTotalEffect_acyclic hE hsrc hdst hne, Paths.calcTotalEffect_acyclic hE' hsrc hdst hne,
    pathSum_congr heq hcl hE hE' hs hsrc]

/-! ### The padded and the unrolled matrices -/

theorem padded_edge {n N : Nat} {Bs : List (Nat → Nat → K)} {a b : Nat}
    (h : Edge N (clean (padded n Bs)) 0 a b) : b < n := by
  by_contra hb
  have := h.2.2
  simp [clean, Paths.nan0, padded, hb] at this

theorem padded_block0 {n : Nat} {Bs : List (Nat → Nat → K)} {a b : Nat} (ha : a < n) (hb : b < n) :
    clean (padded n Bs) b a = lagFn Bs 0 b a := by
  simp [clean, Paths.nan0, padded, hb, lagFn, Nat.div_eq_of_lt ha, Nat.mod_eq_of_lt ha]

theorem padded_acyclic {n N : Nat} {Bs : List (Nat → Nat → K)} (hE : Acyclic (Edge n (lagFn Bs 0) 0)) :
    Acyclic (Edge N (clean (padded n Bs)) 0) := by
  have key : ∀ a b, a < n → Relation.TransGen (Edge N (clean (padded n Bs)) 0) a b →
      Relation.TransGen (Edge n (lagFn Bs 0) 0) a b ∧ b < n := by
    intro a b ha h
    induction h with
    | single h =>
      have hb := padded_edge h
      refine ⟨.single ⟨ha, hb, ?_⟩, hb⟩
      rw [← padded_block0 ha hb]; exact h.2.2
    | tail _ h ih =>
      have hb := padded_edge h
      refine ⟨.tail ih.1 ⟨ih.2, hb, ?_⟩, hb⟩
      rw [← padded_block0 ih.2 hb]; exact h.2.2
  intro i hi
  have hin : i < n := by
    rcases Relation.TransGen.tail'_iff.1 hi with ⟨c, _, hc⟩
    exact padded_edge hc
  exact hE i (key i i hin hi).1

theorem unroll_edge {n N : Nat} {B : Nat → Nat → Nat → K} {thr : K} (hthr : 0 ≤ thr) {a b : Nat} (h : Edge N (unroll n B) thr a b) :
    b / n ≤ a / n ∧ thr < |B (a / n - b / n) (b % n) (a % n)| := by
  have := h.2.2
  unfold unroll at this
  split at this
  · exact ⟨by assumption, this⟩
  · rw [abs_zero] at this
    exact absurd this (not_lt.2 hthr)

theorem unroll_trans {n N : Nat} {B : Nat → Nat → Nat → K} {thr : K} (hthr : 0 ≤ thr) {a b : Nat}
    (h : Relation.TransGen (Edge N (unroll n B) thr) a b) : b / n ≤ a / n := by
  induction h with
  | single h => exact (unroll_edge hthr h).1
  | tail _ h ih => exact (unroll_edge hthr h).1.trans ih

theorem unroll_acyclic {n N : Nat} {B : Nat → Nat → Nat → K} {thr : K} (hthr : 0 ≤ thr) (hn : 0 < n)
    (hE : Acyclic (Edge n (B 0) 0)) : Acyclic (Edge N (unroll n B) thr) := by
  have key : ∀ a b, Relation.TransGen (Edge N (unroll n B) thr) a b → a / n = b / n →
      Relation.TransGen (Edge n (B 0) 0) (a % n) (b % n) := by
    intro a b h
    induction h with
    | single h =>
      intro he
      have h1 := (unroll_edge hthr h).2
      rw [he, Nat.sub_self] at h1
      exact .single ⟨Nat.mod_lt _ hn, Nat.mod_lt _ hn, lt_of_le_of_lt hthr h1⟩
    | tail h1 h2 ih =>
      intro he
      have e1 := unroll_trans hthr h1
      have e2 := unroll_edge hthr h2
      have e3 := e2.2
      have e4 := e2.1
      rename_i b' c'
      have e5 : b' / n = c' / n := by omega
      rw [e5, Nat.sub_self] at e3
      exact .tail (ih (by omega)) ⟨Nat.mod_lt _ hn, Nat.mod_lt _ hn, lt_of_le_of_lt hthr e3⟩
  intro i hi
  exact hE _ (key i i hi rfl)

/-! ### The expansion matrix of `get_paths` -/

theorem foldl_expand {n : Nat} {am : Nat → Nat → K} {r c : Nat} {v : K} : ∀ (l : List (Nat × Nat)) (m : Nat → Nat → K),
    (∀ ij ∈ l, (n * ij.1 ≤ r ∧ r < n * ij.1 + n ∧ n * ij.2 ≤ c ∧ c < n * ij.2 + n) →
      am (r - n * ij.1) ((n * ij.2 - n * ij.1) + (c - n * ij.2)) = v) →
    (l.foldl (expandStep n am) m) r c =
      if (∃ ij ∈ l, n * ij.1 ≤ r ∧ r < n * ij.1 + n ∧ n * ij.2 ≤ c ∧ c < n * ij.2 + n) then v else m r c := by
  intro l
  induction l with
  | nil => intro m _; simp
  | cons x l ih =>
    intro m h
    rw [List.foldl_cons, ih _ (fun ij hij => h ij (by simp [hij]))]
    by_cases hx : n * x.1 ≤ r ∧ r < n * x.1 + n ∧ n * x.2 ≤ c ∧ c < n * x.2 + n
    · have hex : ∃ ij ∈ x :: l, n * ij.1 ≤ r ∧ r < n * ij.1 + n ∧ n * ij.2 ≤ c ∧ c < n * ij.2 + n :=
        ⟨x, by simp, hx⟩
      rw [if_pos hex]
      split
      · rfl
      · unfold expandStep
        rw [if_pos hx]
        exact h x (by simp) hx
    · have : (∃ ij ∈ x :: l, n * ij.1 ≤ r ∧ r < n * ij.1 + n ∧ n * ij.2 ≤ c ∧ c < n * ij.2 + n) ↔
          (∃ ij ∈ l, n * ij.1 ≤ r ∧ r < n * ij.1 + n ∧ n * ij.2 ≤ c ∧ c < n * ij.2 + n) := by
        constructor
        · rintro ⟨y, hy, hy'⟩
          rcases List.mem_cons.1 hy with rfl | hy
          · exact absurd hy' hx
          · exact ⟨y, hy, hy'⟩
        · rintro ⟨y, hy, hy'⟩
          exact ⟨y, by simp [hy], hy'⟩
      simp only [this]
      split
      · rfl
      · unfold expandStep
        rw [if_neg hx]

theorem mem_blockPairs {p : Nat} {ij : Nat × Nat} : ij ∈ blockPairs p ↔ ij.1 ≤ ij.2 ∧ ij.2 ≤ p := by
  obtain ⟨i, j⟩ := ij
  simp only [blockPairs, List.mem_flatMap, List.mem_range, List.mem_map, List.mem_range'_1, Prod.mk.injEq]
  constructor
  · rintro ⟨a, ha, b, hb, rfl, rfl⟩
    omega
  · rintro ⟨h1, h2⟩
    exact ⟨i, by omega, j, by omega, rfl, rfl⟩

theorem block_iff {n k r : Nat} (hn : 0 < n) : n * k ≤ r ∧ r < n * k + n ↔ r / n = k := by
  constructor
  · rintro ⟨h1, h2⟩
    apply Nat.div_eq_of_lt_le
    · rw [Nat.mul_comm]; exact h1
    · rw [Nat.succ_mul, Nat.mul_comm k n]; exact h2
  · rintro rfl
    have := Nat.div_add_mod r n
    have := Nat.mod_lt r hn
    omega

theorem expansion_eq {n p : Nat} {am : Nat → Nat → K} (hn : 0 < n) {r c : Nat} (hc : c < n * (p + 1)) :
    expansion n p am r c = if r / n ≤ c / n then am (r % n) (n * (c / n - r / n) + c % n) else 0 := by
  unfold expansion
  rw [foldl_expand (v := am (r % n) (n * (c / n - r / n) + c % n))]
  · have hcp : c / n ≤ p := by
      have := (Nat.div_lt_iff_lt_mul hn).2 (by rw [Nat.mul_comm]; exact hc : c < (p + 1) * n)
      omega
    have : (∃ ij ∈ blockPairs p, n * ij.1 ≤ r ∧ r < n * ij.1 + n ∧ n * ij.2 ≤ c ∧ c < n * ij.2 + n) ↔ r / n ≤ c / n := by
      constructor
      · rintro ⟨ij, h1, h2, h3, h4, h5⟩
        rw [mem_blockPairs] at h1
        have e1 := (block_iff hn).1 ⟨h2, h3⟩
        have e2 := (block_iff hn).1 ⟨h4, h5⟩
        omega
      · intro h
        have e1 := (block_iff (n := n) (k := r / n) (r := r) hn).2 rfl
        have e2 := (block_iff (n := n) (k := c / n) (r := c) hn).2 rfl
        exact ⟨(r / n, c / n), mem_blockPairs.2 ⟨h, hcp⟩, e1.1, e1.2, e2.1, e2.2⟩
    simp only [this]
  · rintro ⟨i, j⟩ hij ⟨h1, h2, h3, h4⟩
    have e1 := (block_iff hn).1 ⟨h1, h2⟩
    have e2 := (block_iff hn).1 ⟨h3, h4⟩
    simp only at e1 e2 ⊢
    subst e1 e2
    have e3 : r - n * (r / n) = r % n := by have := Nat.div_add_mod r n; omega
    have e4 : c - n * (c / n) = c % n := by have := Nat.div_add_mod c n; omega
    rw [e3, e4, Nat.mul_sub]

theorem concat_block {n : Nat} (hn : 0 < n) (Bs : List (Nat → Nat → K)) (i k j : Nat) (hj : j < n) :
    concat n Bs i (n * k + j) = lagFn Bs k i j := by
  unfold concat lagFn
  rw [Nat.mul_add_div hn, Nat.div_eq_of_lt hj, Nat.mul_add_mod, Nat.mod_eq_of_lt hj, Nat.add_zero]

/-- `expansion_m` is the adjacency matrix of the unrolled graph. -/
theorem expansion_unroll {n p : Nat} (hn : 0 < n) (Bs : List (Nat → Nat → K)) {r c : Nat} (hc : c < n * (p + 1)) :
    expansion n p (concat n Bs) r c = unroll n (lagFn Bs) r c := by
  rw [expansion_eq hn hc]
  unfold unroll
  split
  · rw [concat_block hn _ _ _ _ (Nat.mod_lt _ hn)]
  · rfl

/-! ### Pruning -/

theorem stacked_eq {X : Data K} {k r : Nat} (h : r + k < X.rows) (c : Nat) :
    stacked X k r c = X.val (X.rows - 1 - r - k) c := by
  unfold stacked
  rw [Nat.mod_eq_of_lt h, Nat.sub_sub (X.rows - 1)]

theorem expLoop_eq (n : Nat) (X : Data K) (lags : Nat) (anc : List Nat) {r : Nat} (h : r < nBlocks X lags) :
    expLoop n X lags anc r = expRow n X lags anc r := by
  unfold expLoop
  have key : ∀ N (f : Nat → List K), r < N → ((List.range N).foldl
      (fun acc j => fun r => if j ≤ r then expRow n X lags anc j else acc r) f) r = expRow n X lags anc r := by
    intro N f
    induction N with
    | zero => intro h; omega
    | succ N ih =>
      intro h
      rw [List.range_succ, List.foldl_append]
      simp only [List.foldl_cons, List.foldl_nil]
      by_cases hN : N ≤ r
      · rw [if_pos hN, show N = r by omega]
      · rw [if_neg hN]
        exact ih (by omega)
  exact key _ _ h

/-- One variable's pruned rows. -/
def prunedRow (n : Nat) (lasso : Lasso K) (X : Data K) (lags : Nat) (order : List Nat) (i : Nat) : Nat → K :=
  lasso (nBlocks X lags) (expLoop n X lags (order.take (order.idxOf i))) (objVec X i)

theorem pruneStep_length (n : Nat) (lasso : Lasso K) (X : Data K) (lags : Nat) (order : List Nat)
    (Bs : List (Nat → Nat → K)) (i : Nat) : (pruneStep n lasso X lags order Bs i).length = Bs.length := by
  simp [pruneStep]

theorem pruneStep_other {n : Nat} {lasso : Lasso K} {X : Data K} {lags : Nat} {order : List Nat}
    {Bs : List (Nat → Nat → K)} {i r : Nat} (h : r ≠ i) (k c : Nat) :
    lagFn (pruneStep n lasso X lags order Bs i) k r c = lagFn Bs k r c := by
  unfold lagFn pruneStep
  simp only [List.getD_eq_getElem?_getD, List.getElem?_mapIdx]
  cases Bs[k]? <;> simp [h]

theorem pruneStep_zero {n : Nat} {lasso : Lasso K} {X : Data K} {lags : Nat} {order : List Nat}
    {Bs : List (Nat → Nat → K)} {i : Nat} (hl : 0 < Bs.length) (c : Nat) :
    lagFn (pruneStep n lasso X lags order Bs i) 0 i c =
      setAnc (order.take (order.idxOf i)) (prunedRow n lasso X lags order i) (lagFn Bs 0 i) c := by
  unfold lagFn pruneStep prunedRow
  simp only [List.getD_eq_getElem?_getD, List.getElem?_mapIdx]
  rw [List.getElem?_eq_getElem hl]
  simp

theorem pruneStep_succ {n : Nat} {lasso : Lasso K} {X : Data K} {lags : Nat} {order : List Nat}
    {Bs : List (Nat → Nat → K)} {i k : Nat} (hl : k + 1 < Bs.length) (c : Nat) :
    lagFn (pruneStep n lasso X lags order Bs i) (k + 1) i c =
      prunedRow n lasso X lags order i (order.idxOf i + n * k + c) := by
  unfold lagFn pruneStep prunedRow
  simp only [List.getD_eq_getElem?_getD, List.getElem?_mapIdx]
  rw [List.getElem?_eq_getElem hl]
  simp

theorem pruneFold {n : Nat} {lasso : Lasso K} {X : Data K} {lags : Nat} {order : List Nat} (N : Nat)
    (Bs : List (Nat → Nat → K)) (hl : 0 < Bs.length) :
    ((List.range N).foldl (pruneStep n lasso X lags order) Bs).length = Bs.length ∧
    (∀ i, N ≤ i → ∀ k c, lagFn ((List.range N).foldl (pruneStep n lasso X lags order) Bs) k i c = lagFn Bs k i c) ∧
    (∀ i, i < N → ∀ c, lagFn ((List.range N).foldl (pruneStep n lasso X lags order) Bs) 0 i c =
      setAnc (order.take (order.idxOf i)) (prunedRow n lasso X lags order i) (lagFn Bs 0 i) c) ∧
    (∀ i, i < N → ∀ k, k + 1 < Bs.length → ∀ c,
      lagFn ((List.range N).foldl (pruneStep n lasso X lags order) Bs) (k + 1) i c =
      prunedRow n lasso X lags order i (order.idxOf i + n * k + c)) := by
  induction N with
  | zero => simp
  | succ N ih =>
    obtain ⟨h1, h2, h3, h4⟩ := ih
    rw [List.range_succ, List.foldl_append]
    simp only [List.foldl_cons, List.foldl_nil]
    refine ⟨by rw [pruneStep_length, h1], ?_, ?_, ?_⟩
    · intro i hi k c
      rw [pruneStep_other (by omega), h2 i (by omega)]
    · intro i hi c
      by_cases hN : i = N
      · subst hN
        rw [pruneStep_zero (by omega)]
        have : lagFn ((List.range i).foldl (pruneStep n lasso X lags order) Bs) 0 i = lagFn Bs 0 i :=
          funext fun c => h2 i le_rfl 0 c
        rw [this]
      · rw [pruneStep_other hN, h3 i (by omega)]
    · intro i hi k hk c
      by_cases hN : i = N
      · subst hN
        rw [pruneStep_succ (by omega)]
      · rw [pruneStep_other hN, h4 i (by omega) k hk]

/-! ### `fit` -/

theorem fit_ok {E : Env K} {o o' : Obj K} {X : Data K} (h : fit E o X = .ok o') :
    ∃ Ms lags resid Bs, arPart E o X = .ok (Ms, lags, resid) ∧
      lagMatrices E o X Ms (E.lingam resid).1 (E.lingam resid).2 = .ok Bs ∧
      o' = { o with arCoefs := some Ms, lags := lags, residuals := some resid,
                    causalOrder := some (E.lingam resid).1, adjacency := some Bs } := by
  unfold fit at h
  split at h
  · cases h
  · rename_i Ms lags resid hm
    split at h
    · cases h
    · rename_i Bs hb
      injection h with h
      exact ⟨Ms, lags, resid, Bs, hm, hb, h.symm⟩

theorem arPart_some {E : Env K} {o : Obj K} {X : Data K} {Ms Ms' : List (Nat → Nat → K)} {lags : Nat} {resid : Data K}
    (ha : o.arCoefs = some Ms) (h : arPart E o X = .ok (Ms', lags, resid)) :
    Ms' = Ms ∧ lags = Ms.length ∧ resid = calcResiduals E.n X Ms Ms.length := by
  unfold arPart at h
  rw [ha] at h
  simp only [Except.ok.injEq, Prod.mk.injEq] at h
  exact ⟨h.1.symm, h.2.1.symm, h.2.2.symm⟩

theorem lagMatrices_ok {E : Env K} {o : Obj K} {X : Data K} {Ms Bs : List (Nat → Nat → K)} {order : List Nat}
    {B0 : Nat → Nat → K} (h : lagMatrices E o X Ms order B0 = .ok Bs) :
    Bs.length = Ms.length + 1 ∧
    (∀ i, i < E.n → ∀ c, lagFn Bs 0 i c = if o.prune = true ∧ c ∈ order.take (order.idxOf i) then
      prunedRow E.n E.lasso X o.lags order i ((order.take (order.idxOf i)).idxOf c) else B0 i c) ∧
    (∀ i, i < E.n → ∀ k, k < Ms.length → ∀ c, lagFn Bs (k + 1) i c = if o.prune = true then
      prunedRow E.n E.lasso X o.lags order i (order.idxOf i + E.n * k + c)
      else mm E.n (oneSub B0) (lagFn1 Ms (k + 1)) i c) := by
  unfold lagMatrices at h
  split at h
  · rename_i hp
    unfold pruning at h
    split at h
    · cases h
    · injection h with h
      have := pruneFold (n := E.n) (lasso := E.lasso) (X := X) (lags := o.lags) (order := order) E.n (calcB E.n B0 Ms)
        (by rw [calcB_length]; omega)
      rw [h] at this
      obtain ⟨h1, _, h3, h4⟩ := this
      rw [calcB_length] at h1
      refine ⟨h1, ?_, ?_⟩
      · intro i hi c
        rw [h3 i hi c]
        simp only [hp, true_and]
        rfl
      · intro i hi k hk c
        rw [h4 i hi k (by rw [calcB_length]; omega), if_pos hp]
  · rename_i hp
    injection h with h
    subst h
    refine ⟨calcB_length _ _ _, ?_, ?_⟩
    · intro i hi c
      rw [lagFn_calcB_zero, if_neg (fun hc => hp hc.1)]
    · intro i hi k hk c
      rw [lagFn_calcB_succ _ _ _ hk, if_neg hp]

end Verif.Var
