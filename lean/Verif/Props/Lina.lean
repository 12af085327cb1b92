import Verif.Model.Lina
import Verif.Spec.Lina
import Mathlib.LinearAlgebra.Matrix.NonsingularInverse
import Mathlib.Tactic.Ring
import Mathlib.Tactic.Linarith
import Mathlib.Tactic.NormNum
import Mathlib.Tactic.Positivity
import Mathlib.Tactic.FinCases
import Mathlib.Tactic.FieldSimp

/-!
# LiNA and MDLiNA around the optimisers (C167, C168, C169)
-/
set_option linter.unusedSectionVars false
set_option autoImplicit false
namespace Verif.Lina
open Verif.Spec

/-! ### C168: relabelling -/
section relabelling
variable {K : Type} [Field K] [LinearOrder K] [IsStrictOrderedRing K]

theorem firstMax_spec {B : Nat → Nat → K} : ∀ {l : List (Nat × Nat)},
    (firstMax B l = none ↔ l = []) ∧ ∀ x, firstMax B l = some x → x ∈ l ∧ ∀ y ∈ l, B y.1 y.2 ≤ B x.1 x.2
  | [] => by simp [firstMax]
  | a :: l => by
    obtain ⟨h1, h2⟩ := firstMax_spec (B := B) (l := l)
    cases h : firstMax B l with
    | none =>
      have := h1.1 h
      subst this
      constructor
      · simp [firstMax]
      · intro x hx
        simp only [firstMax, Option.some.injEq] at hx
        subst hx
        simp
    | some y =>
      obtain ⟨h3, h4⟩ := h2 y h
      simp only [firstMax, h]
      by_cases hc : B y.1 y.2 ≤ B a.1 a.2
      · rw [if_pos hc]
        refine ⟨by simp, ?_⟩
        intro x hx
        simp only [Option.some.injEq] at hx
        subst hx
        refine ⟨by simp, ?_⟩
        intro z hz
        rcases List.mem_cons.1 hz with rfl | hz
        · exact le_refl _
        · exact (h4 z hz).trans hc
      · rw [if_neg hc]
        refine ⟨by simp, ?_⟩
        intro x hx
        simp only [Option.some.injEq] at hx
        subst hx
        refine ⟨by simp [h3], ?_⟩
        intro z hz
        rcases List.mem_cons.1 hz with rfl | hz
        · exact (not_le.1 hc).le
        · exact h4 z hz

theorem mem_cells {q : Nat} {x : Nat × Nat} : x ∈ cells q ↔ x.1 < q ∧ x.2 < q := by
  obtain ⟨r, c⟩ := x
  simp [cells]

theorem exists_free {q : Nat} {R : List Nat} (h : R.length < q) : ∃ i, i < q ∧ i ∉ R := by
  by_contra hcon
  push Not at hcon
  have : (List.range q).length ≤ R.length :=
    (List.nodup_range.subperm (fun i hi => hcon i (List.mem_range.1 hi))).length_le
  rw [List.length_range] at this
  omega

/-- The steps of the assignment are greedy. -/
theorem assign_greedy {q : Nat} {B : Nat → Nat → K} (hB : ∀ i j, i < q → j < q → 0 < B i j) :
    ∀ (k : Nat) (R C : List Nat) (order : Nat → Nat), R.length + k = q → C.length + k = q →
      ∃ steps, steps.length = k ∧ Greedy q B R C steps ∧
        (∀ x ∈ steps, assign q k (fun i j => if i ∈ R ∨ j ∈ C then 0 else B i j) order x.2 = x.1) ∧
        (∀ c, c ∉ steps.map Prod.snd → assign q k (fun i j => if i ∈ R ∨ j ∈ C then 0 else B i j) order c = order c)
  | 0, R, C, order, _, _ => ⟨[], rfl, trivial, by simp, fun _ _ => rfl⟩
  | k + 1, R, C, order, hR, hC => by
    obtain ⟨i0, hi0, hi0R⟩ := exists_free (q := q) (R := R) (by omega)
    obtain ⟨j0, hj0, hj0C⟩ := exists_free (q := q) (R := C) (by omega)
    set B' : Nat → Nat → K := fun i j => if i ∈ R ∨ j ∈ C then 0 else B i j with hB'
    obtain ⟨f1, f2⟩ := firstMax_spec (B := B') (l := cells q)
    cases hf : firstMax B' (cells q) with
    | none =>
      have := f1.1 hf
      have h0 : (i0, j0) ∈ cells q := mem_cells.2 ⟨hi0, hj0⟩
      rw [this] at h0
      simp at h0
    | some x =>
      obtain ⟨r, c⟩ := x
      obtain ⟨g1, g2⟩ := f2 _ hf
      obtain ⟨hr, hc⟩ := mem_cells.1 g1
      simp only at hr hc g2
      have hpos : 0 < B' r c := by
        have := g2 (i0, j0) (mem_cells.2 ⟨hi0, hj0⟩)
        have h1 : B' i0 j0 = B i0 j0 := by simp [hB', hi0R, hj0C]
        simp only at this
        rw [h1] at this
        exact lt_of_lt_of_le (hB i0 j0 hi0 hj0) this
      have hfree : ¬ (r ∈ R ∨ c ∈ C) := by
        intro h
        simp only [hB', if_pos h] at hpos
        exact lt_irrefl _ hpos
      obtain ⟨steps, s1, s2, s3, s4⟩ := assign_greedy hB k (r :: R) (c :: C) (fun j => if j = c then r else order j)
        (by simp only [List.length_cons]; omega) (by simp only [List.length_cons]; omega)
      have hstep : assign q (k + 1) B' order = assign q k (fun i j => if i ∈ r :: R ∨ j ∈ c :: C then 0 else B i j)
          (fun j => if j = c then r else order j) := by
        simp only [assign, hf]
        congr 1
        funext i j
        by_cases h1 : i = r ∨ j = c
        · rw [if_pos h1, if_pos (by rcases h1 with rfl | rfl <;> simp)]
        · rw [if_neg h1]
          simp only [hB', List.mem_cons]
          refine if_congr ?_ rfl rfl
          tauto
      have hnot : c ∉ steps.map Prod.snd := by
        have : ∀ (R C : List Nat) (s : List (Nat × Nat)), Greedy q B R C s → ∀ d ∈ C, d ∉ s.map Prod.snd := by
          intro R C s
          induction s generalizing R C with
          | nil => simp
          | cons a s ih =>
            obtain ⟨a1, a2⟩ := a
            intro hg d hd
            obtain ⟨_, _, _, h4, _, h6⟩ := hg
            simp only [List.map_cons, List.mem_cons, not_or]
            exact ⟨fun h => h4 (h ▸ hd), ih _ _ h6 d (by simp [hd])⟩
        exact this _ _ _ s2 c (by simp)
      refine ⟨(r, c) :: steps, by simp [s1], ⟨hr, hc, fun h => hfree (.inl h), fun h => hfree (.inr h), ?_, s2⟩, ?_, ?_⟩
      · intro i j hi hj hiR hjC
        have h1 := g2 (i, j) (mem_cells.2 ⟨hi, hj⟩)
        have h2 : B' i j = B i j := by simp [hB', hiR, hjC]
        have h3 : B' r c = B r c := by simp only [hB', if_neg hfree]
        simp only at h1
        rwa [h2, h3] at h1
      · intro x hx
        rw [hstep]
        rcases List.mem_cons.1 hx with rfl | hx
        · simp only
          rw [s4 c hnot, if_pos rfl]
        · exact s3 x hx
      · intro d hd
        simp only [List.map_cons, List.mem_cons, not_or] at hd
        rw [hstep, s4 d hd.2, if_neg hd.1]

/-- A complete greedy matching is one-to-one. -/
theorem greedy_nodup {q : Nat} {B : Nat → Nat → K} : ∀ {R C : List Nat} {s : List (Nat × Nat)}, Greedy q B R C s →
    (s.map Prod.fst).Nodup ∧ (s.map Prod.snd).Nodup ∧ (∀ x ∈ s, x.1 < q ∧ x.2 < q ∧ x.1 ∉ R ∧ x.2 ∉ C)
  | _, _, [], _ => by simp
  | R, C, (r, c) :: s, h => by
    obtain ⟨h1, h2, h3, h4, _, h6⟩ := h
    obtain ⟨i1, i2, i3⟩ := greedy_nodup h6
    refine ⟨?_, ?_, ?_⟩
    · rw [List.map_cons, List.nodup_cons]
      refine ⟨?_, i1⟩
      rw [List.mem_map]
      rintro ⟨x, hx, hxr⟩
      exact (i3 x hx).2.2.1 (by simp [hxr])
    · rw [List.map_cons, List.nodup_cons]
      refine ⟨?_, i2⟩
      rw [List.mem_map]
      rintro ⟨x, hx, hxr⟩
      exact (i3 x hx).2.2.2 (by simp [hxr])
    · intro x hx
      rcases List.mem_cons.1 hx with rfl | hx
      · exact ⟨h1, h2, h3, h4⟩
      · obtain ⟨a, b, c', d⟩ := i3 x hx
        exact ⟨a, b, fun h => c' (by simp [h]), fun h => d (by simp [h])⟩

theorem full_of_nodup {q : Nat} {l : List Nat} (hn : l.Nodup) (hl : l.length = q) (hlt : ∀ x ∈ l, x < q) (i : Nat) (hi : i < q) :
    i ∈ l := by
  have hs : l ⊆ List.range q := fun x hx => List.mem_range.2 (hlt x hx)
  have hp : l.Perm (List.range q) :=
    (hn.subperm hs).perm_of_length_le (by rw [List.length_range, hl])
  exact hp.mem_iff.2 (List.mem_range.2 hi)

/-- Every row and every column occurs in exactly one step. -/
theorem matching_total {q : Nat} {B : Nat → Nat → K} {steps : List (Nat × Nat)} (h : GreedyMatching q B steps) :
    (∀ r, r < q → ∃ c, c < q ∧ (r, c) ∈ steps) ∧ (∀ c, c < q → ∃ r, r < q ∧ (r, c) ∈ steps) ∧
      (∀ x ∈ steps, ∀ y ∈ steps, x.1 = y.1 ↔ x.2 = y.2) := by
  obtain ⟨h1, h2⟩ := h
  obtain ⟨n1, n2, n3⟩ := greedy_nodup h2
  refine ⟨?_, ?_, ?_⟩
  · intro r hr
    have := full_of_nodup n1 (by simp [h1]) (by
      intro x hx
      obtain ⟨y, hy, rfl⟩ := List.mem_map.1 hx
      exact (n3 y hy).1) r hr
    obtain ⟨⟨a, b⟩, hy, rfl⟩ := List.mem_map.1 this
    exact ⟨b, (n3 _ hy).2.1, hy⟩
  · intro c hc
    have := full_of_nodup n2 (by simp [h1]) (by
      intro x hx
      obtain ⟨y, hy, rfl⟩ := List.mem_map.1 hx
      exact (n3 y hy).2.1) c hc
    obtain ⟨⟨a, b⟩, hy, rfl⟩ := List.mem_map.1 this
    exact ⟨a, (n3 _ hy).1, hy⟩
  · intro x hx y hy
    constructor
    · intro he
      rw [List.inj_on_of_nodup_map n1 hx hy he]
    · intro he
      rw [List.inj_on_of_nodup_map n2 hx hy he]

/-- How strongly shared factor `c` is linked to factor `r` in the two domains; columns with a zero get 0.01 on top. -/
def link (q : Nat) (H : Nat → Nat → K) (r c : Nat) : K :=
  |H r c| + |H (r + q) c| + (if ∃ k, k < q ∧ |H k c| + |H (k + q) c| = 0 then 1 / 100 else 0)

open Classical in
theorem lift_eq (q : Nat) (H : Nat → Nat → K) (r c : Nat) : liftColumns q (weights q H) r c = link q H r c := by
  unfold liftColumns link weights
  simp only [abs_abs, List.any_eq_true, List.mem_range, decide_eq_true_eq]
  by_cases h : ∃ k, k < q ∧ |H k c| + |H (k + q) c| = 0
  · rw [if_pos h, if_pos h]
  · rw [if_neg h, if_neg h, add_zero]

theorem link_pos (q : Nat) (H : Nat → Nat → K) (r c : Nat) (hr : r < q) : 0 < link q H r c := by
  unfold link
  have h1 := abs_nonneg (H r c)
  have h2 := abs_nonneg (H (r + q) c)
  split
  · have : (0 : K) < 1 / 100 := by positivity
    linarith
  · rename_i h
    push Not at h
    have := h r hr
    have h3 : 0 ≤ |H r c| + |H (r + q) c| := by positivity
    rw [add_zero]
    exact lt_of_le_of_ne h3 (Ne.symm this)

/-- **C168.** For every estimated `H` (with rows for two domains) and every graph `W` of the shared factors: MDLiNA matches shared
factors with the factors of the domains greedily by strength, one to one, and the reported graph is `W` with the shared factors
renumbered accordingly. -/
theorem C168_relabelled (q hRows : Nat) (hH : 2 * q ≤ hRows) (H W : Nat → Nat → K) :
    ∃ steps V, GreedyMatching q (link q H) steps ∧ reported q hRows H W = .ok V ∧
      ∀ x ∈ steps, ∀ y ∈ steps, V x.1 y.1 = W x.2 y.2 := by
  obtain ⟨steps, s1, s2, s3, _⟩ := assign_greedy (q := q) (B := link q H) (fun i j hi _ => link_pos q H i j hi) q [] []
    (fun _ => 0) (by simp) (by simp)
  have hm : GreedyMatching q (link q H) steps := ⟨s1, s2⟩
  have hB : (fun i j => if i ∈ ([] : List Nat) ∨ j ∈ ([] : List Nat) then 0 else link q H i j) =
      liftColumns q (weights q H) := by
    funext i j
    simp [lift_eq]
  rw [hB] at s3
  set order := assign q q (liftColumns q (weights q H)) (fun _ => 0) with ho
  obtain ⟨t1, t2, t3⟩ := matching_total hm
  have hlt := (greedy_nodup s2).2.2
  have hpre : ∀ x ∈ steps, preimages q order x.1 = [x.2] := by
    intro x hx
    have hmem : x.2 ∈ preimages q order x.1 := by
      simp only [preimages, List.mem_filter, List.mem_range, beq_iff_eq]
      exact ⟨(hlt x hx).2.1, s3 x hx⟩
    have hall : ∀ c ∈ preimages q order x.1, c = x.2 := by
      intro c hc
      simp only [preimages, List.mem_filter, List.mem_range, beq_iff_eq] at hc
      obtain ⟨r, _, hrc⟩ := t2 c hc.1
      have h1 := s3 (r, c) hrc
      simp only at h1
      exact (t3 (r, c) hrc x hx).1 (h1.symm.trans hc.2)
    have hnd : (preimages q order x.1).Nodup := List.nodup_range.filter _
    have hrep : preimages q order x.1 = List.replicate (preimages q order x.1).length x.2 := List.eq_replicate_of_mem hall
    have hle : (preimages q order x.1).length ≤ 1 := by
      rw [hrep] at hnd
      exact List.nodup_replicate.1 hnd
    have hpos : 0 < (preimages q order x.1).length := List.length_pos_of_mem hmem
    rw [hrep, show (preimages q order x.1).length = 1 by omega]
    rfl
  refine ⟨steps, fun i j => W ((preimages q order i).headD 0) ((preimages q order j).headD 0), hm, ?_, ?_⟩
  · unfold reported
    rw [if_neg (by omega), ← ho]
    unfold relabel
    rw [if_pos]
    rw [List.all_eq_true]
    intro i hi
    obtain ⟨c, _, hc⟩ := t1 i (List.mem_range.1 hi)
    rw [hpre (i, c) hc]
    rfl
  · intro x hx y hy
    simp only [hpre x hx, hpre y hy, List.headD_cons]

/-- **C168.** In particular the reported graph has a directed cycle only if the estimated one has. -/
theorem C168_acyclic (q hRows : Nat) (hH : 2 * q ≤ hRows) (H W V : Nat → Nat → K) (h : reported q hRows H W = .ok V)
    (hW : Acyclic (fun a b => a < q ∧ b < q ∧ W a b ≠ 0)) : Acyclic (fun a b => a < q ∧ b < q ∧ V a b ≠ 0) := by
  obtain ⟨steps, V', hm, h', hV⟩ := C168_relabelled q hRows hH H W
  rw [h] at h'
  injection h' with h'
  subst h'
  obtain ⟨t1, _, _⟩ := matching_total hm
  choose! f hf1 hf2 using t1
  intro i hi
  have : Relation.TransGen (fun a b => a < q ∧ b < q ∧ W a b ≠ 0) (f i) (f i) := by
    refine Relation.TransGen.lift (p := fun a b => a < q ∧ b < q ∧ W a b ≠ 0) f ?_ i i hi
    rintro a b ⟨ha, hb, hab⟩
    refine ⟨hf1 a ha, hf1 b hb, ?_⟩
    rw [← hV (a, f a) (hf2 a ha) (b, f b) (hf2 b hb)]
    exact hab
  exact hW _ this

theorem firstMax_congr {B B' : Nat → Nat → K} : ∀ {l : List (Nat × Nat)}, (∀ x ∈ l, B x.1 x.2 = B' x.1 x.2) →
    firstMax B l = firstMax B' l
  | [], _ => rfl
  | a :: l, h => by
    have ih := firstMax_congr (B := B) (B' := B') (l := l) (fun x hx => h x (by simp [hx]))
    unfold firstMax
    rw [ih]
    cases hf : firstMax B' l with
    | none => rfl
    | some y =>
      simp only
      rw [h a (by simp), h y (by simp [(firstMax_spec.2 y hf).1])]

theorem assign_congr {q : Nat} : ∀ (k : Nat) {B B' : Nat → Nat → K} (order : Nat → Nat),
    (∀ i j, i < q → j < q → B i j = B' i j) → assign q k B order = assign q k B' order
  | 0, _, _, _, _ => rfl
  | k + 1, B, B', order, h => by
    unfold assign
    rw [firstMax_congr (B := B) (B' := B') (fun x hx => h _ _ (mem_cells.1 hx).1 (mem_cells.1 hx).2)]
    cases firstMax B' (cells q) with
    | none => rfl
    | some x =>
      refine assign_congr k _ ?_
      intro i j hi hj
      rw [h i j hi hj]

/-- **C168, limits.** With one domain only (`H` has `q` rows) the call fails with IndexError; domains beyond the second (rows from
`2 q` on) have no influence on the numbering. -/
theorem C168_domains (q hRows : Nat) (H H' W : Nat → Nat → K) :
    (0 < q → hRows = q → reported q hRows H W = .error .index) ∧
      ((∀ i j, i < 2 * q → H i j = H' i j) → reported q hRows H W = reported q hRows H' W) := by
  refine ⟨fun h1 h2 => ?_, fun h1 => ?_⟩
  · unfold reported
    rw [if_pos (by omega)]
  · unfold reported
    have hw : ∀ i j, i < q → weights q H i j = weights q H' i j := by
      intro i j hi
      unfold weights
      rw [h1 i j (by omega), h1 (i + q) j (by omega)]
    rw [assign_congr (B' := liftColumns q (weights q H')) q]
    intro i j hi _
    unfold liftColumns
    rw [hw i j hi]
    congr 1
    simp only [List.any_eq_true, List.mem_range, decide_eq_true_eq, eq_iff_iff]
    exact ⟨fun ⟨k, h2, h3⟩ => ⟨k, h2, by rw [← hw k j h2]; exact h3⟩, fun ⟨k, h2, h3⟩ => ⟨k, h2, by rw [hw k j h2]; exact h3⟩⟩

/-- Two shared factors, the first linked most to factor 1, the second to factor 0: the graph `0 → 1` of the shared factors is
reported as `1 → 0`. -/
example : (reported 2 4 (fun i j => if (i % 2, j) = (1, 0) then 3 else if (i % 2, j) = (0, 1) then 2 else 1 : Nat → Nat → ℚ)
      (fun i j => if i = 0 ∧ j = 1 then 5 else 0)).toOption.map (fun V => (V 0 1, V 1 0)) = some (0, 5) := by decide +kernel

end relabelling

/-! ### C167: factor scores -/
section scores
variable {K : Type} [Field K] [DecidableEq K] {n p q : Nat}
open Matrix

theorem factorScores_ok {G : Matrix (Fin p) (Fin q) K} {X : Matrix (Fin n) (Fin p) K} {F : Matrix (Fin n) (Fin q) K}
    (h : factorScores G X = .ok F) : (Gᵀ * G).det ≠ 0 ∧ F = ((Gᵀ * G)⁻¹ * Gᵀ * Xᵀ)ᵀ := by
  unfold factorScores at h
  split at h
  · cases h
  · rename_i hd
    injection h with h
    exact ⟨hd, h.symm⟩

theorem factorScores_model {G : Matrix (Fin p) (Fin q) K} (hd : (Gᵀ * G).det ≠ 0) (f : Matrix (Fin n) (Fin q) K) :
    factorScores G (f * Gᵀ) = .ok f := by
  unfold factorScores
  rw [if_neg hd]
  congr 1
  rw [transpose_mul f, transpose_transpose, Matrix.mul_assoc, ← Matrix.mul_assoc Gᵀ, ← Matrix.mul_assoc,
    nonsing_inv_mul _ (isUnit_iff_ne_zero.2 hd), Matrix.one_mul, transpose_transpose]

/-- **C167.** The factor scores are the least squares scores: the residuals of the measurements are orthogonal to the loadings. -/
theorem C167_normal_equations (G : Matrix (Fin p) (Fin q) K) (X : Matrix (Fin n) (Fin p) K) (F : Matrix (Fin n) (Fin q) K)
    (h : factorScores G X = .ok F) (r : Fin n) (j : Fin q) : ∑ i, (X r i - ∑ k, G i k * F r k) * G i j = 0 := by
  obtain ⟨hd, rfl⟩ := factorScores_ok h
  have h1 : Gᵀ * (Xᵀ - G * ((Gᵀ * G)⁻¹ * Gᵀ * Xᵀ)) = 0 := by
    rw [Matrix.mul_sub, ← Matrix.mul_assoc Gᵀ G, Matrix.mul_assoc (Gᵀ * G)⁻¹, ← Matrix.mul_assoc (Gᵀ * G),
      mul_nonsing_inv _ (isUnit_iff_ne_zero.2 hd), Matrix.one_mul, sub_self]
  have h2 := congrFun (congrFun h1 j) r
  rw [Matrix.mul_apply] at h2
  rw [Matrix.zero_apply] at h2
  rw [← h2]
  refine Finset.sum_congr rfl fun i _ => ?_
  rw [Matrix.sub_apply, Matrix.mul_apply (M := G), transpose_apply, transpose_apply, mul_comm]
  rfl

/-- **C167.** Hence they minimise the sum of squared residuals of every row. -/
theorem C167_least_squares {K : Type} [Field K] [LinearOrder K] [IsStrictOrderedRing K] (G : Matrix (Fin p) (Fin q) K)
    (X : Matrix (Fin n) (Fin p) K) (F : Matrix (Fin n) (Fin q) K) (h : factorScores G X = .ok F) (r : Fin n) (g : Fin q → K) :
    ∑ i, (X r i - ∑ k, G i k * F r k) ^ 2 ≤ ∑ i, (X r i - ∑ k, G i k * g k) ^ 2 := by
  set e := fun i => X r i - ∑ k, G i k * F r k with he
  set d := fun i => ∑ k, G i k * (F r k - g k) with hdd
  have h0 : ∑ i, e i * d i = 0 := by
    have : ∀ i, e i * d i = ∑ k, (e i * G i k) * (F r k - g k) := by
      intro i
      rw [hdd, Finset.mul_sum]
      exact Finset.sum_congr rfl fun k _ => by ring
    simp only [this]
    rw [Finset.sum_comm]
    refine Finset.sum_eq_zero fun k _ => ?_
    rw [← Finset.sum_mul]
    have := C167_normal_equations G X F h r k
    rw [show (∑ i, e i * G i k) = 0 from this, zero_mul]
  have h1 : ∀ i, (X r i - ∑ k, G i k * g k) ^ 2 = e i ^ 2 + 2 * (e i * d i) + d i ^ 2 := by
    intro i
    have : X r i - ∑ k, G i k * g k = e i + d i := by
      simp only [he, hdd, mul_sub, Finset.sum_sub_distrib]
      ring
    rw [this]
    ring
  simp only [h1, Finset.sum_add_distrib, ← Finset.mul_sum, h0, mul_zero, add_zero]
  have : 0 ≤ ∑ i, d i ^ 2 := Finset.sum_nonneg fun i _ => sq_nonneg _
  linarith

theorem scaled_recovers {G lam : Matrix (Fin p) (Fin q) K} {s : Scale K} {row : Nat → Nat} (hdet : (lamᵀ * lam).det ≠ 0)
    (hs : ∀ j : Fin q, row j < s.rows ∧ (j : Nat) < s.cols) (h0 : ∀ j : Fin q, s.val (row j) j ≠ 0)
    (hlam : ∀ i j, lam i j = G i j * s.val (row j) j) (f : Matrix (Fin n) (Fin q) K) :
    ∃ F, factorScores lam (f * Gᵀ) = .ok F ∧ scaleColumns s row F = .ok f := by
  refine ⟨of fun r j => f r j / s.val (row j) j, ?_, ?_⟩
  · have : f * Gᵀ = (of fun r j => f r j / s.val (row j) j : Matrix (Fin n) (Fin q) K) * lamᵀ := by
      ext r i
      simp only [Matrix.mul_apply, transpose_apply, of_apply, hlam]
      exact Finset.sum_congr rfl fun j _ => by field_simp [h0 j]
    rw [this]
    exact factorScores_model hdet _
  · unfold scaleColumns
    rw [if_pos hs]
    congr 1
    ext r j
    simp only [of_apply]
    field_simp [h0 j]

/-- **C167 (LiNA).** If the measurements are exactly `f Gᵀ` and the factor analysis returned the loadings of the factors brought
to unit scale (`G` times the scales), the graph is estimated on exactly the factors `f`. -/
theorem C167_lina (G lam : Matrix (Fin p) (Fin q) K) (s : Scale K) (hdet : (lamᵀ * lam).det ≠ 0) (hr : 0 < s.rows)
    (hc : q ≤ s.cols) (h0 : ∀ j : Fin q, s.val 0 j ≠ 0) (hlam : ∀ i j, lam i j = G i j * s.val 0 j)
    (f : Matrix (Fin n) (Fin q) K) : linaFactors lam (f * Gᵀ) s = .ok f := by
  obtain ⟨F, h1, h2⟩ := scaled_recovers (s := s) (row := fun _ => 0) hdet (fun j => ⟨hr, lt_of_lt_of_le j.2 hc⟩) h0 hlam f
  unfold linaFactors
  rw [h1]
  exact h2

/-- **C167 (MDLiNA, partial).** The same holds if `scale` has one row for the first domain and a second row for the other one. -/
theorem C167_mdlina_partial (q1 : Nat) (G lam : Matrix (Fin p) (Fin q) K) (s : Scale K) (hdet : (lamᵀ * lam).det ≠ 0)
    (hr : 2 ≤ s.rows) (hc : q ≤ s.cols) (h0 : ∀ j : Fin q, s.val (if (j : Nat) < q1 then 0 else 1) j ≠ 0)
    (hlam : ∀ i j, lam i j = G i j * s.val (if (j : Nat) < q1 then 0 else 1) j) (f : Matrix (Fin n) (Fin q) K) :
    mdFactors q1 lam (f * Gᵀ) s = .ok f := by
  obtain ⟨F, h1, h2⟩ := scaled_recovers (s := s) (row := fun j => if j < q1 then 0 else 1) hdet
    (fun j => ⟨by split <;> omega, lt_of_lt_of_le j.2 hc⟩) h0 hlam f
  unfold mdFactors
  rw [h1]
  exact h2

/-- **C167 is violated for MDLiNA as documented**: with a `scale` of the documented shape (one row) and more than one domain,
`fit` raises (IndexError, if not LinAlgError before). -/
theorem C167_documented_scale (q1 : Nat) (hq : q1 < q) (lam : Matrix (Fin p) (Fin q) K) (X : Matrix (Fin n) (Fin p) K)
    (s : Scale K) (hr : s.rows = 1) :
    mdFactors q1 lam X s = .error (if (lamᵀ * lam).det = 0 then .linAlg else .index) := by
  unfold mdFactors factorScores
  by_cases hd : (lamᵀ * lam).det = 0
  · rw [if_pos hd, if_pos hd]
  · rw [if_neg hd, if_neg hd]
    simp only
    unfold scaleColumns
    rw [if_neg]
    intro h
    have := (h ⟨q1, hq⟩).1
    simp only [lt_self_iff_false, if_false] at this
    omega

/-- **C167 is violated for three domains**: with the block-diagonal `scale` of the tutorial (row `d` holds the scales of domain
`d`), all factors of the third domain are set to zero, whatever the data are. -/
theorem C167_third_domain (q1 : Nat) (lam : Matrix (Fin p) (Fin q) K) (X : Matrix (Fin n) (Fin p) K) (s : Scale K)
    (hblock : ∀ d j, d ≠ j / q1 → s.val d j = 0) (F : Matrix (Fin n) (Fin q) K) (h : mdFactors q1 lam X s = .ok F)
    (h1 : 0 < q1) (j : Fin q) (hj : 2 * q1 ≤ (j : Nat)) (r : Fin n) : F r j = 0 := by
  unfold mdFactors at h
  cases hs : factorScores lam X with
  | error e => rw [hs] at h; cases h
  | ok F0 =>
    rw [hs] at h
    simp only at h
    unfold scaleColumns at h
    split at h
    · injection h with h
      subst h
      simp only [of_apply]
      rw [if_neg (show ¬ (j : Nat) < q1 by omega), hblock 1 j, mul_zero]
      have : 2 ≤ (j : Nat) / q1 := (Nat.le_div_iff_mul_le h1).2 hj
      omega
    · cases h

end scores

section scoreExamples
open Matrix

/-- Two factors with two measurements each, scales 2 and 3. -/
def exG : Matrix (Fin 4) (Fin 2) ℚ := !![1, 0; 2, 0; 0, 1; 0, -1]

/-- The loadings of the factors at unit scale. -/
def exLam : Matrix (Fin 4) (Fin 2) ℚ := !![2, 0; 4, 0; 0, 3; 0, -3]

example (f : Matrix (Fin 5) (Fin 2) ℚ) : linaFactors exLam (f * exGᵀ) ⟨1, 2, fun _ j => if j = 0 then 2 else 3⟩ = .ok f :=
  C167_lina exG exLam _ (by decide +kernel) (by decide) (by decide) (by decide +kernel)
    (by intro i j; fin_cases i <;> fin_cases j <;> decide +kernel) f

example (f : Matrix (Fin 5) (Fin 2) ℚ) :
    mdFactors 1 exLam (f * exGᵀ) ⟨2, 2, fun d j => if d = j then (if j = 0 then 2 else 3) else 0⟩ = .ok f :=
  C167_mdlina_partial 1 exG exLam _ (by decide +kernel) (by decide) (by decide) (by decide +kernel)
    (by intro i j; fin_cases i <;> fin_cases j <;> decide +kernel) f

example (X : Matrix (Fin 5) (Fin 4) ℚ) : mdFactors 1 exLam X ⟨1, 2, fun _ j => if j = 0 then 2 else 3⟩ = .error .index := by
  rw [C167_documented_scale 1 (by decide) exLam X _ rfl, if_neg (by decide +kernel)]

/-- Three domains with one factor each, scales 2, 3, 5 on the diagonal: the third factor becomes zero. -/
example (X : Matrix (Fin 5) (Fin 3) ℚ) (F : Matrix (Fin 5) (Fin 3) ℚ)
    (h : mdFactors 1 1 X ⟨3, 3, fun d j => if d = j then [2, 3, 5].getD j 0 else 0⟩ = .ok F) (r : Fin 5) : F r 2 = 0 :=
  C167_third_domain 1 1 X _ (by intro d j hd; simp only [Nat.div_one] at hd; simp [hd]) F h one_pos 2 (by decide) r

example (X : Matrix (Fin 5) (Fin 3) ℚ) :
    ∃ F, mdFactors 1 (1 : Matrix (Fin 3) (Fin 3) ℚ) X ⟨3, 3, fun d j => if d = j then [2, 3, 5].getD j 0 else 0⟩ = .ok F := by
  unfold mdFactors factorScores
  rw [if_neg (by simp)]
  simp only
  unfold scaleColumns
  exact ⟨_, if_pos (by decide)⟩

end scoreExamples

/-! ### C169: the alternating loop -/
section loop
variable {K : Type} [Field K] [LinearOrder K] [IsStrictOrderedRing K]

theorem rounds_ok {L : Nat → Option K} : ∀ (f t T : Nat), rounds L t f = .ok T →
    t ≤ T ∧ T < 10000 ∧ stops L T = true ∧ ∀ u, t ≤ u → u < T → stops L u = false
  | 0, _, _, h => by simp [rounds] at h
  | f + 1, t, T, h => by
    unfold rounds at h
    split at h
    · cases h
    · rename_i ht
      split at h
      · rename_i hs
        injection h with h
        subst h
        exact ⟨le_refl _, by omega, hs, fun u h1 h2 => by omega⟩
      · rename_i hs
        obtain ⟨h1, h2, h3, h4⟩ := rounds_ok f (t + 1) T h
        refine ⟨by omega, h2, h3, ?_⟩
        intro u hu1 hu2
        rcases Nat.lt_or_ge t u with h5 | h5
        · exact h4 u h5 hu2
        · obtain rfl : u = t := by omega
          simpa using hs

theorem rounds_error {L : Nat → Option K} : ∀ (f t : Nat) (e : Err), 10000 ≤ t + f → rounds L t f = .error e →
    e = .index ∧ ∀ u, t ≤ u → u < 10000 → stops L u = false
  | 0, t, e, hf, h => by
    simp only [rounds, Except.error.injEq] at h
    exact ⟨h.symm, fun u h1 h2 => by omega⟩
  | f + 1, t, e, hf, h => by
    unfold rounds at h
    split at h
    · injection h with h
      exact ⟨h.symm, fun u h1 h2 => by omega⟩
    · split at h
      · cases h
      · rename_i hs
        obtain ⟨h1, h2⟩ := rounds_error f (t + 1) e (by omega) h
        refine ⟨h1, ?_⟩
        intro u hu1 hu2
        rcases Nat.lt_or_ge t u with h5 | h5
        · exact h2 u h5 hu2
        · obtain rfl : u = t := by omega
          simpa using hs

/-- **C169.** The loop either ends in the first round at which a stopping rule holds, or (no rule holds in 9999 rounds) with an
IndexError. -/
theorem C169_ends (L : Nat → Option K) :
    (∃ T, rounds L 1 10000 = .ok T ∧ 1 ≤ T ∧ T < 10000 ∧ stops L T = true ∧ ∀ u, 1 ≤ u → u < T → stops L u = false) ∨
      (rounds L 1 10000 = .error .index ∧ ∀ u, 1 ≤ u → u < 10000 → stops L u = false) := by
  cases h : rounds L 1 10000 with
  | ok T =>
    obtain ⟨h1, h2, h3, h4⟩ := rounds_ok _ _ _ h
    exact .inl ⟨T, rfl, h1, h2, h3, h4⟩
  | error e =>
    obtain ⟨rfl, h2⟩ := rounds_error _ _ _ (by omega) h
    exact .inr ⟨rfl, h2⟩

theorem minLike_decreasing {L : Nat → Option K} (h : Decreasing L) : ∀ t, 1 ≤ t → minLike L t = L t
  | 0, h0 => by omega
  | 1, _ => rfl
  | t + 2, _ => by
    have ih := minLike_decreasing h (t + 1) (by omega)
    obtain ⟨a, b, h1, h2, h3⟩ := h (t + 1) (by omega)
    unfold minLike
    rw [ih, h1, h2]
    simp [leNan, h3]

/-- **C169 (partial).** If the objective is finite and never goes up from round to round, `fit` stops after at most 30 rounds.
Missing: objectives that go up, where the loop may fail (`C169_rising`). -/
theorem C169_at_most_30_partial (L : Nat → Option K) (h : Decreasing L) : ∃ T, rounds L 1 10000 = .ok T ∧ 1 ≤ T ∧ T ≤ 30 := by
  have h30 : stops L 30 = true := by
    have h1 := minLike_decreasing h 30 (by omega)
    obtain ⟨a, _, h2, _⟩ := h 30 (by omega)
    unfold stops
    rw [h1, h2]
    simp [leNan]
  rcases C169_ends L with ⟨T, h1, h2, _, _, h5⟩ | ⟨_, h2⟩
  · refine ⟨T, h1, h2, ?_⟩
    by_contra hT
    rw [h5 30 (by omega) (by omega)] at h30
    cases h30
  · rw [h2 30 (by omega) (by omega)] at h30
    cases h30

theorem minOf_le {y : K} : ∀ {l : List (Option K)}, minOf l = some y → ∃ z ∈ l, z = some y
  | [], h => by simp [minOf] at h
  | [x], h => ⟨x, by simp, h⟩
  | x :: z :: l, h => by
    unfold minOf at h
    split at h
    · rename_i a b ha
      injection h with h
      rcases min_choice a b with hm | hm
      · rw [hm] at h; subst h; exact ⟨some a, by simp, rfl⟩
      · rw [hm] at h; subst h
        obtain ⟨w, h1, h2⟩ := minOf_le ha
        exact ⟨w, by simp [h1], h2⟩
    · cases h

theorem minLike_attained (L : Nat → Option K) : ∀ (t : Nat) (m : K), minLike L t = some m → ∃ s, 1 ≤ s ∧ s ≤ t ∧ L s = some m
  | 0, m, h => by simp [minLike] at h
  | t + 1, m, h => by
    unfold minLike at h
    split at h
    · exact ⟨t + 1, by omega, le_refl _, h⟩
    · rename_i m' hm
      split at h
      · exact ⟨t + 1, by omega, le_refl _, h⟩
      · rw [h] at hm
        obtain ⟨s, h1, h2, h3⟩ := minLike_attained L t m hm
        exact ⟨s, h1, by omega, h3⟩

theorem minLike_first {L : Nat → Option K} {ℓ : Nat → K} (hL : ∀ t, L t = some (ℓ t)) (hup : ∀ t, ℓ 1 ≤ ℓ (t + 1)) :
    ∀ t, 1 ≤ t → ∃ m, minLike L t = some m ∧ m ≤ ℓ 1
  | 0, h => by omega
  | 1, _ => ⟨ℓ 1, by simp [minLike, hL], le_refl _⟩
  | t + 2, _ => by
    obtain ⟨m, h1, h2⟩ := minLike_first hL hup (t + 1) (by omega)
    unfold minLike
    rw [h1]
    simp only
    split
    · rename_i hle
      rw [hL] at hle ⊢
      simp only [leNan, decide_eq_true_eq] at hle
      exact ⟨_, rfl, hle.trans h2⟩
    · exact ⟨m, rfl, h2⟩

theorem minOf_none {l : List (Option K)} (hl : l ≠ []) (h : ∀ x ∈ l, x ≠ none) : ∃ m, minOf l = some m ∧ ∀ x ∈ l, ∀ v, x = some v → m ≤ v := by
  induction l with
  | nil => exact absurd rfl hl
  | cons x l ih =>
    cases l with
    | nil =>
      obtain ⟨v, hv⟩ := Option.ne_none_iff_exists'.1 (h x (by simp))
      refine ⟨v, hv, ?_⟩
      intro y hy w hw
      simp only [List.mem_singleton] at hy
      rw [hy, hv] at hw
      injection hw with hw
      exact hw.le
    | cons z l =>
      obtain ⟨v, hv⟩ := Option.ne_none_iff_exists'.1 (h x (by simp))
      obtain ⟨m, h1, h2⟩ := ih (by simp) (fun y hy => h y (by simp only [List.mem_cons] at hy ⊢; tauto))
      refine ⟨min v m, by simp only [minOf, hv, h1], ?_⟩
      intro y hy w hw
      rcases List.mem_cons.1 hy with rfl | hy
      · rw [hv] at hw
        injection hw with hw
        rw [← hw]
        exact min_le_left _ _
      · exact (min_le_right _ _).trans (h2 y hy w hw)

theorem minLike_le {ℓ : Nat → K} : ∀ t, 1 ≤ t → ∃ m, minLike (fun t => some (ℓ t)) t = some m ∧ ∀ s, 1 ≤ s → s ≤ t → m ≤ ℓ s
  | 0, h => by omega
  | 1, _ => ⟨ℓ 1, rfl, fun s h1 h2 => by rw [show s = 1 by omega]⟩
  | t + 2, _ => by
    obtain ⟨m, h1, h2⟩ := minLike_le (ℓ := ℓ) (t + 1) (by omega)
    unfold minLike
    rw [h1]
    simp only [leNan, decide_eq_true_eq]
    split
    · rename_i hle
      refine ⟨_, rfl, ?_⟩
      intro s hs1 hs2
      rcases Nat.lt_or_ge s (t + 2) with h | h
      · exact hle.trans (h2 s hs1 (by omega))
      · rw [show s = t + 2 by omega]
    · rename_i hle
      refine ⟨m, rfl, ?_⟩
      intro s hs1 hs2
      rcases Nat.lt_or_ge s (t + 2) with h | h
      · exact h2 s hs1 (by omega)
      · rw [show s = t + 2 by omega]
        exact (not_le.1 hle).le

/-- **C169.** The stopping rule for finite objectives: in round `t` the value changed by less than 0.1; or, from round 30 on, it is
less than 0.1 above every value so far; or, from round 50 on, it is less than 0.1 above the values of the rounds `t - 20` to
`t - 2`. -/
theorem C169_rule (ℓ : Nat → K) (t : Nat) (ht : 1 ≤ t) : stops (fun t => some (ℓ t)) t = true ↔ StopRule ℓ t := by
  have hhist : ∀ s, history (fun t => some (ℓ t)) s = some (if s = 0 then 0 else ℓ s) := by
    intro s
    unfold history
    split <;> rfl
  obtain ⟨m, hm, hm2⟩ := minLike_le (ℓ := ℓ) t ht
  obtain ⟨s0, hs1, hs2, hs3⟩ := minLike_attained _ t m hm
  simp only [Option.some.injEq] at hs3
  have hmt := hm2 t ht (le_refl _)
  have hpos : (0 : K) < 1 / 10 := by positivity
  have ha : near (some (ℓ t)) (some m) = true ∨ leNan (some (ℓ t)) (some m) = true ↔
      ∀ s, 1 ≤ s → s ≤ t → ℓ t < ℓ s + 1 / 10 := by
    simp only [near, leNan, decide_eq_true_eq, abs_lt]
    constructor
    · intro h s h1 h2
      have := hm2 s h1 h2
      rcases h with h | h
      · linarith [h.2]
      · linarith
    · intro h
      have := h s0 hs1 hs2
      rw [hs3] at this
      exact .inl ⟨by linarith, by linarith⟩
  unfold StopRule stops
  simp only [Bool.or_eq_true, Bool.and_eq_true, decide_eq_true_eq]
  rw [hm]
  have hfirst : near (history (fun t => some (ℓ t)) t) (history (fun t => some (ℓ t)) (t - 1)) = true ↔
      |ℓ t - (if t = 1 then 0 else ℓ (t - 1))| < 1 / 10 := by
    rw [hhist, hhist, if_neg (show ¬ t = 0 by omega)]
    simp only [near, decide_eq_true_eq]
    by_cases h : t = 1
    · subst h; simp
    · rw [if_neg (show ¬ t - 1 = 0 by omega), if_neg h]
  have hlast : 50 ≤ t → (near (some (ℓ t)) (minOf ((List.range 19).map (fun k => history (fun t => some (ℓ t)) (t - 20 + k)))) = true ∨
      leNan (some (ℓ t)) (minOf ((List.range 19).map (fun k => history (fun t => some (ℓ t)) (t - 20 + k)))) = true ↔
      ∀ s, t - 20 ≤ s → s ≤ t - 2 → ℓ t < ℓ s + 1 / 10) := by
    intro h50
    obtain ⟨m', h1, h2⟩ := minOf_none (l := (List.range 19).map (fun k => history (fun t => some (ℓ t)) (t - 20 + k)))
      (by simp) (by
        intro x hx
        obtain ⟨k, _, rfl⟩ := List.mem_map.1 hx
        rw [hhist]
        simp)
    obtain ⟨z, hz1, rfl⟩ := minOf_le h1
    obtain ⟨k, hk1, hk2⟩ := List.mem_map.1 hz1
    have hk := List.mem_range.1 hk1
    rw [hhist, if_neg (show ¬ t - 20 + k = 0 by omega)] at hk2
    injection hk2 with hk2
    rw [h1]
    simp only [near, leNan, decide_eq_true_eq, abs_lt]
    constructor
    · intro h s hs1 hs2
      have := h2 _ (List.mem_map.2 ⟨s - (t - 20), List.mem_range.2 (by omega), rfl⟩) (ℓ s) (by
        rw [hhist, show t - 20 + (s - (t - 20)) = s by omega, if_neg (by omega)])
      rcases h with h | h
      · linarith [h.2]
      · linarith
    · intro h
      have h3 := h (t - 20 + k) (by omega) (by omega)
      rw [hk2] at h3
      rcases le_total (ℓ t) m' with h4 | h4
      · exact .inr h4
      · exact .inl ⟨by linarith, by linarith⟩
  rw [hfirst]
  constructor
  · rintro ((((h | ⟨h1, h⟩) | ⟨h1, h⟩) | ⟨h1, h⟩) | ⟨h1, h⟩)
    · exact .inl h
    · exact .inr (.inl ⟨h1, ha.1 (.inl h)⟩)
    · exact .inr (.inl ⟨h1, ha.1 (.inr h)⟩)
    · exact .inr (.inr ⟨h1, (hlast h1).1 (.inl h)⟩)
    · exact .inr (.inr ⟨h1, (hlast h1).1 (.inr h)⟩)
  · rintro (h | ⟨h1, h⟩ | ⟨h1, h⟩)
    · exact .inl (.inl (.inl (.inl h)))
    · rcases ha.2 h with h2 | h2
      · exact .inl (.inl (.inl (.inr ⟨h1, h2⟩)))
      · exact .inl (.inl (.inr ⟨h1, h2⟩))
    · rcases (hlast h1).2 h with h2 | h2
      · exact .inl (.inr ⟨h1, h2⟩)
      · exact .inr ⟨h1, h2⟩

/-- **C169.** For finite objectives: the loop ends in the first round in which the stopping rule holds, or with an IndexError if
it holds in none of the rounds 1 to 9999. -/
theorem C169_ends_by_rule (ℓ : Nat → K) :
    (∃ T, rounds (fun t => some (ℓ t)) 1 10000 = .ok T ∧ 1 ≤ T ∧ T < 10000 ∧ StopRule ℓ T ∧ ∀ u, 1 ≤ u → u < T → ¬ StopRule ℓ u) ∨
      (rounds (fun t => some (ℓ t)) 1 10000 = .error .index ∧ ∀ u, 1 ≤ u → u < 10000 → ¬ StopRule ℓ u) := by
  have hneg : ∀ u, 1 ≤ u → stops (fun t => some (ℓ t)) u = false → ¬ StopRule ℓ u := by
    intro u hu h hs
    rw [(C169_rule ℓ u hu).2 hs] at h
    cases h
  rcases C169_ends (fun t => some (ℓ t)) with ⟨T, h1, h2, h3, h4, h5⟩ | ⟨h1, h2⟩
  · exact .inl ⟨T, h1, h2, h3, (C169_rule ℓ T h2).1 h4, fun u hu hu' => hneg u hu (h5 u hu hu')⟩
  · exact .inr ⟨h1, fun u hu hu' => hneg u hu (h2 u hu hu')⟩

/-- **C169 is violated**: if the objective starts above 0 and goes up by at least 0.1 in every round (nothing prevents this: the
two estimates of a round minimise other objectives), `fit` ends with an IndexError after 9999 rounds instead of a result. -/
theorem C169_rising (ℓ : Nat → K) (h0 : 1 / 10 ≤ ℓ 1) (hup : ∀ t, 1 ≤ t → ℓ t + 1 / 10 ≤ ℓ (t + 1)) :
    rounds (fun t => some (ℓ t)) 1 10000 = .error .index := by
  have hpos : (0 : K) < 1 / 10 := by positivity
  have hmono : ∀ d s, 1 ≤ s → 1 ≤ d → ℓ s + 1 / 10 ≤ ℓ (s + d) := by
    intro d s hs hd
    induction d with
    | zero => omega
    | succ d ih =>
      rcases Nat.eq_zero_or_pos d with rfl | hd'
      · exact hup s hs
      · have h1 := ih hd'
        have h2 := hup (s + d) (by omega)
        have h3 : s + d + 1 = s + (d + 1) := by omega
        rw [h3] at h2
        linarith
  have hge : ∀ t, 1 ≤ t → 1 / 10 ≤ ℓ t := by
    intro t ht
    rcases Nat.lt_or_ge 1 t with h | h
    · have := hmono (t - 1) 1 (le_refl _) (by omega)
      rw [show 1 + (t - 1) = t by omega] at this
      linarith
    · rw [show t = 1 by omega]
      exact h0
  rcases C169_ends (fun t => some (ℓ t)) with ⟨T, _, h2, _, h4, _⟩ | ⟨h1, _⟩
  · exfalso
    have hnotnear : ∀ a b : K, b + 1 / 10 ≤ a → near (some a) (some b) = false := by
      intro a b hab
      simp only [near, decide_eq_false_iff_not, not_lt]
      exact le_trans (by linarith) (le_abs_self (a - b))
    have hnotle : ∀ a b : K, b + 1 / 10 ≤ a → leNan (some a) (some b) = false := by
      intro a b hab
      simp only [leNan, decide_eq_false_iff_not, not_le]
      linarith
    have hT : history (fun t => some (ℓ t)) T = some (ℓ T) := by
      unfold history
      rw [if_neg (by omega)]
    have hprev : ∀ s, s < T → ∃ v, history (fun t => some (ℓ t)) s = some v ∧ v + 1 / 10 ≤ ℓ T := by
      intro s hs
      unfold history
      rcases Nat.eq_zero_or_pos s with rfl | hs0
      · refine ⟨0, rfl, ?_⟩
        have := hge T h2
        linarith
      · rw [if_neg (by omega)]
        refine ⟨ℓ s, rfl, ?_⟩
        have := hmono (T - s) s hs0 (by omega)
        rwa [show s + (T - s) = T by omega] at this
    unfold stops at h4
    simp only [Bool.or_eq_true, Bool.and_eq_true, decide_eq_true_eq] at h4
    have hrec : ∀ m, minOf ((List.range 19).map (fun k => history (fun t => some (ℓ t)) (T - 20 + k))) = some m → 50 ≤ T →
        m + 1 / 10 ≤ ℓ T := by
      intro m hm h50
      obtain ⟨z, hz, rfl⟩ := minOf_le hm
      obtain ⟨k, hk, hk2⟩ := List.mem_map.1 hz
      have hk' := List.mem_range.1 hk
      obtain ⟨v, hv1, hv2⟩ := hprev (T - 20 + k) (by omega)
      rw [hv1] at hk2
      injection hk2 with hk2
      rwa [← hk2]
    have hmin : 30 ≤ T → ∃ m, minLike (fun t => some (ℓ t)) T = some m ∧ m + 1 / 10 ≤ ℓ T := by
      intro h30
      obtain ⟨m, h5, h6⟩ := minLike_first (L := fun t => some (ℓ t)) (ℓ := ℓ) (fun _ => rfl) (by
        intro t
        rcases Nat.eq_zero_or_pos t with rfl | ht
        · exact le_refl _
        · have := hmono t 1 (le_refl _) ht
          rw [Nat.add_comm] at this
          linarith) T h2
      refine ⟨m, h5, ?_⟩
      have := hmono (T - 1) 1 (le_refl _) (by omega)
      rw [show 1 + (T - 1) = T by omega] at this
      linarith
    rcases h4 with (((h4 | ⟨h5, h4⟩) | ⟨h5, h4⟩) | ⟨h5, h4⟩) | ⟨h5, h4⟩
    · obtain ⟨v, hv1, hv2⟩ := hprev (T - 1) (by omega)
      rw [hT, hv1, hnotnear _ _ hv2] at h4
      cases h4
    · obtain ⟨m, h6, h7⟩ := hmin h5
      rw [h6, hnotnear _ _ h7] at h4
      cases h4
    · obtain ⟨m, h6, h7⟩ := hmin h5
      rw [h6, hnotle _ _ h7] at h4
      cases h4
    · cases hm : minOf ((List.range 19).map (fun k => history (fun t => some (ℓ t)) (T - 20 + k))) with
      | none => rw [hm] at h4; simp [near] at h4
      | some m => rw [hm, hnotnear _ _ (hrec m hm h5)] at h4; cases h4
    · cases hm : minOf ((List.range 19).map (fun k => history (fun t => some (ℓ t)) (T - 20 + k))) with
      | none => rw [hm] at h4; simp [leNan] at h4
      | some m => rw [hm, hnotle _ _ (hrec m hm h5)] at h4; cases h4
  · exact h1

/-- **C169 is violated** also if the objective is NaN from the start. -/
theorem C169_nan (L : Nat → Option K) (h : ∀ t, 1 ≤ t → L t = none) : rounds L 1 10000 = .error .index := by
  rcases C169_ends L with ⟨T, _, h2, _, h4, _⟩ | ⟨h1, _⟩
  · exfalso
    have hT : L T = none := h T h2
    have hh : history L T = none := by unfold history; rw [if_neg (by omega), hT]
    unfold stops at h4
    simp [hT, hh, near, leNan] at h4
  · exact h1

/-- **C169.** If the loop ends, the graph that is relabelled is the estimate of the last round; if that has no edge, the one of
the round before (the zero matrix before round 1). -/
theorem C169_chosen (q : Nat) (L : Nat → Option K) (W : Nat → Nat → Nat → K) (V : Nat → Nat → K) (h : chosen q L W = .ok V) :
    ∃ T, 1 ≤ T ∧ T < 10000 ∧ stops L T = true ∧ (∀ u, 1 ≤ u → u < T → stops L u = false) ∧
      (((∃ i j, i < q ∧ j < q ∧ W T i j ≠ 0) ∧ V = W T) ∨ ((∀ i j, i < q → j < q → W T i j = 0) ∧ V = W (T - 1))) := by
  unfold chosen at h
  cases hr : rounds L 1 10000 with
  | error e => rw [hr] at h; cases h
  | ok T =>
    rw [hr] at h
    simp only [Except.ok.injEq] at h
    obtain ⟨h1, h2, h3, h4⟩ := rounds_ok _ _ _ hr
    refine ⟨T, h1, h2, h3, h4, ?_⟩
    by_cases hz : isZero q (W T) = true
    · rw [if_pos hz] at h
      refine .inr ⟨?_, h.symm⟩
      intro i j hi hj
      simp only [isZero, List.all_eq_true, List.mem_range, decide_eq_true_eq] at hz
      exact hz i hi j hj
    · rw [if_neg hz] at h
      refine .inl ⟨?_, h.symm⟩
      simp only [isZero, List.all_eq_true, List.mem_range, decide_eq_true_eq] at hz
      push Not at hz
      obtain ⟨i, hi, j, hj, hij⟩ := hz
      exact ⟨i, j, hi, hj, hij⟩

/-- An objective that halves in every round meets the hypotheses. -/
example : Decreasing (fun t => some (1 / 2 ^ t) : Nat → Option ℚ) := by
  intro t _
  refine ⟨_, _, rfl, rfl, ?_⟩
  have h : (0 : ℚ) < 2 ^ t := by positivity
  rw [pow_succ]
  exact one_div_le_one_div_of_le h (by linarith)

/-- The objective `t` rises by 1 in every round. -/
example : rounds (fun t => some (t : ℚ)) 1 10000 = .error .index :=
  C169_rising (fun t => (t : ℚ)) (by norm_num) (by intro t _; push_cast; linarith)

end loop

/-! ### C170: the estimate of `H` -/
section passes
variable {K : Type} [Field K] [LinearOrder K] [IsStrictOrderedRing K]

theorem hPasses_last {α : Type} (hTol : K) (sol : Nat → α × K) (big : Nat → Bool) : ∀ (m k : Nat) (s : Option K) (last : Option α),
    hPasses hTol sol big m k s last = last ∧ m = 0 ∨
      ∃ i, k ≤ i ∧ i < k + m ∧ hPasses hTol sol big m k s last = some (sol i).1
  | 0, _, _, _ => .inl ⟨rfl, rfl⟩
  | m + 1, k, s, last => by
    refine .inr ?_
    have key : ∀ s', ∃ i, k ≤ i ∧ i < k + (m + 1) ∧ hPasses hTol sol big m (k + 1) s' (some (sol k).1) = some (sol i).1 := by
      intro s'
      rcases hPasses_last hTol sol big m (k + 1) s' (some (sol k).1) with ⟨h, _⟩ | ⟨i, h1, h2, h3⟩
      · exact ⟨k, le_refl _, by omega, h⟩
      · exact ⟨i, by omega, by omega, h3⟩
    unfold hPasses
    simp only
    cases s with
    | none =>
      simp only [Bool.false_eq_true, if_false]
      split <;> exact key _
    | some s0 =>
      simp only
      split
      · exact ⟨k, le_refl _, by omega, rfl⟩
      · split <;> exact key _

/-- **C170.** With at least one pass `_estimate_MDLiNA_H` returns the thresholded solution of one of the passes; every entry is
zero or at least the threshold in absolute value. -/
theorem C170_solution_partial (wThr hTol : K) (maxIter : Nat) (h : 0 < maxIter) (sol : Nat → (Nat → Nat → K) × K) (big : Nat → Bool) :
    ∃ i H, i < maxIter ∧ estimateH wThr hTol maxIter sol big = .ok H ∧
      ∀ a b, (H a b = 0 ∧ |(sol i).1 a b| < wThr) ∨ (H a b = (sol i).1 a b ∧ wThr ≤ |H a b|) := by
  rcases hPasses_last hTol sol big maxIter 0 none none with ⟨_, h0⟩ | ⟨i, _, h2, h3⟩
  · omega
  · refine ⟨i, _, by omega, by unfold estimateH; rw [h3], ?_⟩
    intro a b
    by_cases hc : |(sol i).1 a b| < wThr
    · exact .inl ⟨if_pos hc, hc⟩
    · refine .inr ⟨if_neg hc, ?_⟩
      simp only [if_neg hc]
      exact not_lt.1 hc

/-- **C170.** Without a pass the call fails. -/
theorem C170_no_pass (wThr hTol : K) (sol : Nat → (Nat → Nat → K) × K) (big : Nat → Bool) :
    estimateH wThr hTol 0 sol big = .error .unbound := rfl

/-- **C170 is violated**: the best solution is not kept.  For every number of passes (at least two): if the scores of the passes
differ by the tolerance or more from the first one and are worse, the result is the solution of the *last* pass, although the
first one had the smallest (positive) score and was the only one accepted. -/
theorem C170_last_not_best (wThr hTol : K) (maxIter : Nat) (sol : Nat → (Nat → Nat → K) × K) (hpos : 0 < (sol 0).2) (ht : 0 ≤ hTol)
    (hworse : ∀ i, 0 < i → (sol 0).2 + hTol ≤ (sol i).2) :
    estimateH wThr hTol (maxIter + 2) sol (fun _ => false) =
      .ok (fun a b => if |(sol (maxIter + 1)).1 a b| < wThr then 0 else (sol (maxIter + 1)).1 a b) := by
  have hlater : ∀ (m k : Nat) (last : Option (Nat → Nat → K)), 0 < k →
      hPasses hTol sol (fun _ => false) (m + 1) k (some (sol 0).2) last = some (sol (k + m)).1 := by
    intro m
    induction m with
    | zero =>
      intro k last hk
      have h1 := hworse k hk
      unfold hPasses
      simp only
      split
      · rfl
      · split <;> rfl
    | succ m ih =>
      intro k last hk
      have h1 := hworse k hk
      rw [hPasses]
      have hc : ¬ |(sol 0).2 - (sol k).2| < hTol := by
        rw [not_lt, abs_sub_comm]
        exact le_trans (by linarith) (le_abs_self _)
      have hb : ¬ (0 < (sol k).2 ∧ (sol k).2 < (sol 0).2) := by
        rintro ⟨_, h2⟩
        linarith
      simp only [decide_eq_true_eq, if_neg hc, if_neg hb]
      rw [ih (k + 1) _ (by omega)]
      congr 3
      omega
  unfold estimateH
  have h0 : hPasses hTol sol (fun _ => false) (maxIter + 2) 0 none none = some (sol (maxIter + 1)).1 := by
    rw [hPasses]
    simp only [decide_eq_true_eq, if_pos hpos]
    simp only [Bool.false_eq_true, if_false]
    rw [hlater maxIter 1 _ (by omega)]
    congr 3
    omega
  rw [h0]

/-- Three passes with scores 1, 5, 7: the solution with score 7 is returned. -/
example : (estimateH (3 / 10 : ℚ) (1 / 10 ^ 8) 3 (fun k => (fun _ _ => k + 1, [1, 5, 7].getD k 0)) (fun _ => false)).toOption.map
    (fun H => H 0 0) = some 3 := by decide +kernel

end passes

end Verif.Lina
