import Verif.Model.Varma
import Verif.Proofs.Var

/-! Lemmas about the model of `VARMALiNGAM`. -/
set_option autoImplicit false
set_option linter.unusedSectionVars false
namespace Verif.Varma

open Verif.Paths (Err clean)
open Verif.Var (Data mm mv oneSub concat lagFn lagFn1)

variable {K : Type} [Field K] [LinearOrder K] [IsStrictOrderedRing K]

/-! ### The residual recursion -/

theorem epsilon_succ (n N : Nat) (noise x : Nat → Nat → K) (phis thetas : List (Nat → Nat → K)) :
    epsilon n (N + 1) noise x phis thetas =
      epsStep n noise x phis thetas (max phis.length thetas.length) (epsilon n N noise x phis thetas) N := by
  unfold epsilon
  rw [List.range_succ, List.foldl_append]
  rfl

theorem epsilon_stable (n : Nat) (noise x : Nat → Nat → K) (phis thetas : List (Nat → Nat → K)) {r N : Nat} (h : r < N) (i : Nat) :
    epsilon n N noise x phis thetas r i = epsilon n (r + 1) noise x phis thetas r i := by
  induction N with
  | zero => omega
  | succ N ih =>
    by_cases hr : r = N
    · rw [hr]
    · rw [epsilon_succ, ← ih (by omega)]
      unfold epsStep
      rw [if_neg hr]

theorem epsilon_row (n : Nat) (noise x : Nat → Nat → K) (phis thetas : List (Nat → Nat → K)) {r N : Nat} (h : r < N) (i : Nat) :
    epsilon n N noise x phis thetas r i =
      if r < max phis.length thetas.length then noise r i
      else x r i - ((∑ k ∈ Finset.range phis.length, mv n (lagFn1 phis (k + 1)) (x (r - (k + 1))) i) +
        (∑ k ∈ Finset.range thetas.length,
          mv n (lagFn1 thetas (k + 1)) (epsilon n N noise x phis thetas (r - (k + 1))) i)) := by
  rw [epsilon_stable n noise x phis thetas h, epsilon_succ]
  unfold epsStep
  rw [if_pos rfl]
  by_cases hl : r < max phis.length thetas.length
  · rw [if_pos hl, if_pos hl]
  · rw [if_neg hl, if_neg hl]
    have h2 : ∀ k ∈ Finset.range thetas.length,
        mv n (thetas.getD k (fun _ _ => 0)) (epsilon n r noise x phis thetas (r - k - 1)) i =
        mv n (lagFn1 thetas (k + 1)) (epsilon n N noise x phis thetas (r - (k + 1))) i := by
      intro k hk
      have hk' := Finset.mem_range.1 hk
      unfold mv
      refine Finset.sum_congr rfl fun j _ => ?_
      have e1 : r - k - 1 = r - (k + 1) := by omega
      rw [e1, epsilon_stable n noise x phis thetas (show r - (k + 1) < r by omega),
        epsilon_stable n noise x phis thetas (show r - (k + 1) < N by omega)]
      rfl
    rw [Finset.sum_congr rfl h2]
    rfl

/-! ### Generation -/

theorem generate_succ (n start : Nat) (phis thetas : List (Nat → Nat → K)) (e : Nat → Nat → K) (N : Nat) :
    generate n start phis thetas e (N + 1) = genStep n start phis thetas e (generate n start phis thetas e N) N := by
  unfold generate
  rw [List.range_succ, List.foldl_append]
  rfl

theorem generate_stable (n start : Nat) (phis thetas : List (Nat → Nat → K)) (e : Nat → Nat → K) {r N : Nat} (h : r < N) (i : Nat) :
    generate n start phis thetas e N r i = generate n start phis thetas e (r + 1) r i := by
  induction N with
  | zero => omega
  | succ N ih =>
    by_cases hr : r = N
    · rw [hr]
    · rw [generate_succ, ← ih (by omega)]
      unfold genStep
      rw [if_neg hr]

theorem generate_row (n start : Nat) (phis thetas : List (Nat → Nat → K)) (e : Nat → Nat → K)
    (hM : phis.length ≤ start) {r N : Nat} (h : r < N) (i : Nat) :
    generate n start phis thetas e N r i =
      if r < start then e r i
      else (∑ t ∈ Finset.range phis.length, mv n (lagFn1 phis (t + 1)) (generate n start phis thetas e N (r - (t + 1))) i)
        + e r i + (∑ t ∈ Finset.range thetas.length, mv n (lagFn1 thetas (t + 1)) (e (r - (t + 1))) i) := by
  rw [generate_stable n start phis thetas e h, generate_succ]
  unfold genStep
  rw [if_pos rfl]
  by_cases hl : r < start
  · rw [if_pos hl, if_pos hl]
  · rw [if_neg hl, if_neg hl]
    have h2 : ∀ k ∈ Finset.range phis.length,
        mv n (phis.getD k (fun _ _ => 0)) (generate n start phis thetas e r (r - k - 1)) i =
        mv n (lagFn1 phis (k + 1)) (generate n start phis thetas e N (r - (k + 1))) i := by
      intro k hk
      have hk' := Finset.mem_range.1 hk
      unfold mv
      refine Finset.sum_congr rfl fun j _ => ?_
      have e1 : r - k - 1 = r - (k + 1) := by omega
      rw [e1, generate_stable n start phis thetas e (show r - (k + 1) < r by omega),
        generate_stable n start phis thetas e (show r - (k + 1) < N by omega)]
      rfl
    rw [Finset.sum_congr rfl h2]
    rfl

/-! ### Pruning -/

theorem pruneFold {n p q : Nat} {lasso : Lasso K} {X ee : Data K} {order : List Nat} :
    ∀ (l : List (Nat × Nat)) (m : Nat → Nat → K), (l.map Prod.snd).Nodup →
    (∀ r c, r ∉ l.map Prod.snd → (l.foldl (pruneStep n p q lasso X ee order) m) r c = m r c) ∧
    (∀ i r c, (i, r) ∈ l → (l.foldl (pruneStep n p q lasso X ee order) m) r c =
      if c ∈ predictors n p q order i then
        lasso X.rows (joined n p X ee) (predictors n p q order i) r ((predictors n p q order i).idxOf c) else m r c) := by
  intro l
  induction l with
  | nil => intro m _; simp
  | cons x l ih =>
    intro m hnd
    rw [List.map_cons, List.nodup_cons] at hnd
    obtain ⟨h1, h2⟩ := ih (pruneStep n p q lasso X ee order m x) hnd.2
    constructor
    · intro r c hr
      rw [List.map_cons, List.mem_cons] at hr
      push Not at hr
      rw [List.foldl_cons, h1 r c hr.2]
      unfold pruneStep
      simp [hr.1]
    · intro i r c hir
      rw [List.foldl_cons]
      rcases List.mem_cons.1 hir with h | h
      · subst h
        rw [h1 r c hnd.1]
        unfold pruneStep
        simp
      · rw [h2 i r c h]
        have hne : r ≠ x.2 := by
          rintro rfl
          exact hnd.1 (List.mem_map.2 ⟨(i, x.2), h, rfl⟩)
        unfold pruneStep
        simp [hne]

theorem mem_zip {order : List Nat} {r : Nat} (hr : r ∈ order) :
    (order.idxOf r, r) ∈ order.zipIdx.map (fun x => (x.2, x.1)) := by
  rw [List.mem_map]
  refine ⟨(r, order.idxOf r), ?_, rfl⟩
  rw [List.mem_zipIdx_iff_getElem?]
  simp only
  rw [List.getElem?_eq_getElem (List.idxOf_lt_length_of_mem hr), List.getElem_idxOf]

theorem psiOmega_row {n p q : Nat} {lasso : Lasso K} {X ee : Data K} {order : List Nat} (ho : order.Nodup) {r : Nat}
    (hr : r ∈ order) (c : Nat) :
    psiOmega n p q lasso X ee order r c =
      if c ∈ predictors n p q order (order.idxOf r) then
        lasso X.rows (joined n p X ee) (predictors n p q order (order.idxOf r)) r
          ((predictors n p q order (order.idxOf r)).idxOf c) else 0 := by
  unfold psiOmega
  refine (pruneFold _ _ ?_).2 (order.idxOf r) r c (mem_zip hr)
  rw [List.map_map]
  have : (Prod.snd ∘ fun x : Nat × Nat => (x.2, x.1)) = Prod.fst := by funext x; rfl
  rw [this, List.zipIdx_map_fst]
  exact ho

/-! ### `fit` -/

theorem fit_ok {E : Env K} {o o' : Obj K} {X : Data K} (h : fit E o X = .ok o') :
    ∃ phis thetas pq resid ms, armaPart E o X = .ok (phis, thetas, pq, resid) ∧
      matrices E o X (phis.getD []) (thetas.getD []) pq resid (E.lingam resid).1 (E.lingam resid).2 = .ok ms ∧
      o' = { o with ar := phis, ma := thetas, order := pq, residuals := some resid,
                    causalOrder := some (E.lingam resid).1, adjacency := some ms } := by
  unfold fit at h
  split at h
  · cases h
  · rename_i phis thetas pq resid hm
    split at h
    · cases h
    · rename_i ms hb
      injection h with h
      exact ⟨phis, thetas, pq, resid, ms, hm, hb, h.symm⟩

theorem armaPart_some {E : Env K} {o : Obj K} {X : Data K} {phis thetas : List (Nat → Nat → K)}
    (ha : o.ar = some phis) (hm : o.ma = some thetas) :
    armaPart E o X = .ok (some phis, some thetas, o.order, calcResiduals E.n (E.noise X) X phis thetas) := by
  unfold armaPart
  rw [ha, hm]

end Verif.Varma
