import Verif.Proofs.TotalEffect
import Verif.Proofs.PathsCyclic
import Verif.Proofs.Order
import Mathlib.Algebra.Order.Field.Rat

/-!
Properties of `find_all_paths` and `calculate_total_effect` (C09 – C15).

`Edge n W thr a b` : the matrix `W` has an edge `a → b` with `|W b a| > thr`.
`clean dag` reads NaN as 0, as `np.nan_to_num` does.
-/
set_option linter.unusedSectionVars false
set_option autoImplicit false
namespace Verif.Paths
variable {K : Type} [Field K] [LinearOrder K] [IsStrictOrderedRing K]

/-- **C09.** On an acyclic graph the returned list holds exactly the directed paths, each once, and no error occurs.
(`src ≠ dst`: for equal indices see `C09_same_index_error`.) -/
theorem C09_paths_exact (n : Nat) (dag : Nat → Nat → Option K) (src dst : Nat) (thr : K)
    (hthr : 0 ≤ thr) (hE : Acyclic (Edge n (clean dag) thr)) (hsrc : src < n) (hne : src ≠ dst) :
    ∃ paths effects, findAllPaths n dag src dst thr = some (.ok (paths, effects)) ∧
      paths.Nodup ∧ ∀ p, p ∈ paths ↔ IsPath (Edge n (clean dag) thr) src dst p := by
  refine ⟨_, _, findAllPaths_acyclic hthr hE hsrc hne, ?_, ?_⟩
  · exact enum_nodup (toIndices_nodup n dag thr) n src
  · exact fun p => mem_enum_acyclic hE hsrc

/-- **C09, error branch.** With `from_index = to_index` the function fails on every acyclic graph
(`np.cumprod([])[-1]`). -/
theorem C09_same_index_error (n : Nat) (dag : Nat → Nat → Option K) (i : Nat) (thr : K)
    (hE : Acyclic (Edge n (clean dag) thr)) (hi : i < n) :
    findAllPaths n dag i i thr = some (.error .indexError) := by
  unfold findAllPaths
  rw [searchPaths_acyclic hE hi]
  obtain ⟨m, rfl⟩ : ∃ m, n = m + 1 := ⟨n - 1, by omega⟩
  simp [enum, List.mapM_cons, pathEffect, coefs, bind, Except.bind]

/-- **C10.** The effects are, position by position, the products of the coefficients along the paths. -/
theorem C10_effects_are_products (n : Nat) (dag : Nat → Nat → Option K) (src dst : Nat) (thr : K)
    (hthr : 0 ≤ thr) (hE : Acyclic (Edge n (clean dag) thr)) (hsrc : src < n) (hne : src ≠ dst)
    (paths : List (List Nat)) (effects : List (Option K))
    (h : findAllPaths n dag src dst thr = some (.ok (paths, effects))) :
    effects = paths.map (fun p => some (pathWeight (clean dag) p)) := by
  rw [findAllPaths_acyclic hthr hE hsrc hne] at h
  injection h with h; injection h with h; injection h with h1 h2
  rw [← h1, ← h2]

/-- **C11.** The search always terminates, on cyclic graphs too: the loop needs at most `stepBound n n + 1`
evaluations of its condition, and more fuel does not change the outcome. -/
theorem C11_terminates (n : Nat) (dag : Nat → Nat → Option K) (src dst : Nat) (thr : K) :
    ∃ r, ∀ fuel, stepBound n n + 1 ≤ fuel →
      dfs n dst fuel (toIndices n dag thr) [(src, toIndices n dag thr src)] [] = some r := by
  obtain ⟨r, hr⟩ := searchPaths_terminates n dag src dst thr
  refine ⟨r, fun fuel hf => ?_⟩
  obtain ⟨k, rfl⟩ := Nat.exists_eq_add_of_le hf
  exact dfs_mono _ _ _ _ _ _ _ hr k

/-- **C11.** The function itself always produces a result or an exception. -/
theorem C11_findAllPaths_total (n : Nat) (dag : Nat → Nat → Option K) (src dst : Nat) (thr : K) :
    findAllPaths n dag src dst thr ≠ none := by
  obtain ⟨r, hr⟩ := searchPaths_terminates n dag src dst thr
  unfold findAllPaths
  rw [hr]
  rcases r with e | ps
  · simp
  · simp only []
    split <;> simp

/-- The loop is the iteration of its body: as long as there is a next state the result is that of the next state. -/
theorem C11_loop_is_iteration (n dst f : Nat) {tbl tbl' : Nat → List Nat} {st st' : List (Nat × List Nat)}
    {acc acc' : List (List Nat)} (h : dfsNext n dst (tbl, st, acc) = some (tbl', st', acc')) :
    dfs n dst (f + 1) tbl st acc = dfs n dst f tbl' st' acc' := by
  rcases st with _ | ⟨⟨cur, rem⟩, rest⟩
  · simp [dfsNext] at h
  · by_cases h1 : n < rest.length + 1
    · simp [dfsNext, h1] at h
    · by_cases h2 : cur = dst
      · simp only [dfsNext, h1, h2, if_true, if_false, Option.some.injEq, Prod.mk.injEq] at h
        obtain ⟨rfl, rfl, rfl⟩ := h
        simp [dfs, h1, h2]
      · rcases rem with _ | ⟨nx, rem'⟩
        · simp only [dfsNext, h1, h2, if_false, Option.some.injEq, Prod.mk.injEq] at h
          obtain ⟨rfl, rfl, rfl⟩ := h
          simp [dfs, h1, h2]
        · simp only [dfsNext, h1, h2, if_false, Option.some.injEq, Prod.mk.injEq] at h
          obtain ⟨rfl, rfl, rfl⟩ := h
          simp [dfs, h1, h2]

/-- **C11.** Whatever the graph is, the stack holds at most one entry more than there are nodes, in every state which the
loop reaches. -/
theorem C11_stack_bounded (n : Nat) (dag : Nat → Nat → Option K) (src dst : Nat) (thr : K)
    {st : (Nat → List Nat) × List (Nat × List Nat) × List (List Nat)}
    (h : Relation.ReflTransGen (fun a b => dfsNext n dst a = some b)
      (toIndices n dag thr, [(src, toIndices n dag thr src)], []) st) : st.2.1.length ≤ n + 1 := by
  induction h with
  | refl => simp
  | tail _ hs ih =>
    rename_i b c _
    obtain ⟨tbl, st, acc⟩ := b
    rcases st with _ | ⟨⟨cur, rem⟩, rest⟩
    · simp [dfsNext] at hs
    · simp only [dfsNext] at hs
      split at hs
      · cases hs
      · rename_i h1
        split at hs
        · cases hs; simp; omega
        · split at hs
          · cases hs; simp; omega
          · cases hs; simp; omega

/-- **C12, soundness.** The cycle error is only raised for graphs with a cycle. -/
theorem C12_cyclic_error_sound (n : Nat) (dag : Nat → Nat → Option K) (src dst : Nat) (thr : K)
    (hsrc : src < n) (h : findAllPaths n dag src dst thr = some (.error .cyclic)) :
    ¬ Acyclic (Edge n (clean dag) thr) := by
  intro hE
  unfold findAllPaths at h
  rw [searchPaths_acyclic hE hsrc] at h
  simp only [] at h
  have key : ∀ (l : List (List Nat)) e, l.mapM (pathEffect dag) = .error e → e = .indexError := by
    intro l
    induction l with
    | nil => intro e h; simp [pure, Except.pure] at h
    | cons a l ih =>
      intro e h
      rw [List.mapM_cons] at h
      unfold pathEffect at h
      split at h
      · simp only [bind, Except.bind] at h
        injection h with h; exact h.symm
      · simp only [bind, Except.bind] at h
        cases hm : List.mapM (pathEffect dag) l with
        | error e' =>
          change List.mapM _ l = _ at hm
          unfold pathEffect at hm
          rw [hm] at h
          injection h with h
          rw [← h]
          exact ih e' (by unfold pathEffect; exact hm)
        | ok v =>
          unfold pathEffect at hm
          rw [hm] at h
          simp [pure, Except.pure] at h
  split at h
  · rename_i e he
    have := key _ _ he
    subst this
    simp at h
  · simp at h

/-- **C12, partial.** A cycle reachable from `src` is reported, provided that cycle and the way to it avoid both end
points.  (Missing from the full claim: cycles through `from_index`; see `C12_cycle_not_reported`.  Cycles that can only
be reached through `to_index` are not explored by design.) -/
theorem C12_cycle_reported_partial (n : Nat) (dag : Nat → Nat → Option K) (src dst c : Nat) (thr : K)
    (hne : src ≠ dst)
    (hreach : Relation.TransGen (fun a b => Edge n (clean dag) thr a b ∧ b ≠ src ∧ b ≠ dst) src c)
    (hcyc : Relation.TransGen (fun a b => Edge n (clean dag) thr a b ∧ b ≠ src ∧ b ≠ dst) c c) :
    findAllPaths n dag src dst thr = some (.error .cyclic) := by
  unfold findAllPaths
  rw [searchPaths_cyclic hne hreach hcyc]

/-- Witness graph: `0 → 1 → 0`, three nodes. -/
def cyc01 : Nat → Nat → Option ℚ := fun i j =>
  if (i = 1 ∧ j = 0) ∨ (i = 0 ∧ j = 1) then some 1 else some 0

/-- **C12, negation of the full claim.** A graph whose cycle `0 → 1 → 0` goes through `from_index` is accepted
silently. -/
theorem C12_cycle_not_reported :
    Edge 3 (clean cyc01) 0 0 1 ∧ Edge 3 (clean cyc01) 0 1 0 ∧
    findAllPaths 3 cyc01 0 2 0 = some (.ok ([], [])) := by
  refine ⟨⟨by omega, by omega, by decide +kernel⟩, ⟨by omega, by omega, by decide +kernel⟩, by decide +kernel⟩

/-- Witness graph: `0 → 1 → 0 → 2`, four nodes. -/
def cyc012 : Nat → Nat → Option ℚ := fun i j =>
  if (i = 1 ∧ j = 0) ∨ (i = 0 ∧ j = 1) ∨ (i = 2 ∧ j = 0) then some 1 else some 0

/-- **C12, negation.** On a cyclic graph the function may return a walk that visits a node twice. -/
theorem C12_repeated_node :
    findAllPaths 4 cyc012 0 2 0 = some (.ok ([[0, 1, 0, 2], [0, 2]], [some 1, some 1])) := by
  decide +kernel

/-- **C13.** `calculate_total_effect` is the `[to, from]` entry of `(I - B)⁻¹`. -/
theorem C13_total_effect_is_inverse_entry (n : Nat) (dag : Nat → Nat → Option K) (src dst : Fin n)
    (hE : Acyclic (Edge n (clean dag) 0)) (hne : src ≠ dst) :
    calcTotalEffect n dag src dst =
      some (.ok (some ((1 - Matrix.of fun i j : Fin n => clean dag i j)⁻¹ dst src))) := by
  rw [calcTotalEffect_acyclic hE src.2 dst.2 (fun h => hne (Fin.ext h)), inv_apply hE]
  rfl

/-- **C13.** `I - B` is invertible for an acyclic `B`, so the inverse above is genuine. -/
theorem C13_one_sub_isUnit (n : Nat) (dag : Nat → Nat → Option K)
    (hE : Acyclic (Edge n (clean dag) 0)) :
    IsUnit (1 - Matrix.of fun i j : Fin n => clean dag i j) :=
  (Matrix.isUnit_iff_isUnit_det _).2 (Matrix.isUnit_det_of_left_inverse (pathSum_mul hE))

/-- **C13.** The total effect is the sum over all directed paths of the products of coefficients. -/
theorem C13_total_effect_is_path_sum (n : Nat) (dag : Nat → Nat → Option K) (src dst : Nat)
    (hE : Acyclic (Edge n (clean dag) 0)) (hsrc : src < n) (hdst : dst < n) (hne : src ≠ dst)
    (paths : List (List Nat)) (hnd : paths.Nodup)
    (hp : ∀ p, p ∈ paths ↔ IsPath (Edge n (clean dag) 0) src dst p) :
    calcTotalEffect n dag src dst = some (.ok (some ((paths.map (pathWeight (clean dag))).sum))) := by
  rw [calcTotalEffect_acyclic hE hsrc hdst hne]
  have : (enum (toIndices n dag 0) dst n src).Perm paths := by
    rw [List.perm_ext_iff_of_nodup (enum_nodup (toIndices_nodup n dag 0) n src) hnd]
    intro p
    rw [mem_enum_acyclic hE hsrc, hp]
  rw [(this.map (pathWeight (clean dag))).sum_eq]

/-- **C13.** `calculate_total_effect` raises a `ValueError` before looking at the graph when an index is out of range or
both indices agree, whatever the matrix is. -/
theorem C13_bad_indices_rejected (n : Nat) (dag : Nat → Nat → Option K) (src dst : Nat) (isCont : Nat → Bool)
    (h : n < 2 ∨ n ≤ src ∨ n ≤ dst ∨ src = dst) :
    calcTotalEffect n dag src dst isCont = some (.error .valueError) := by
  unfold calcTotalEffect
  by_cases h1 : n < 2 ∨ n ≤ src ∨ n ≤ dst
  · rw [if_pos h1]
  · rw [if_neg h1, if_pos (by omega)]

/-- **C13.** With `is_continuous` given, the call is refused exactly when some directed path from source to target meets a
discrete variable after its first position (a discrete source alone is accepted); otherwise the value is the same as
without the argument. -/
theorem C13_discrete_variables (n : Nat) (dag : Nat → Nat → Option K) (src dst : Nat) (isCont : Nat → Bool)
    (hE : Acyclic (Edge n (clean dag) 0)) (hsrc : src < n) (hdst : dst < n) (hne : src ≠ dst) :
    ((∃ p, IsPath (Edge n (clean dag) 0) src dst p ∧ ∃ v ∈ p.tail, isCont v = false) →
      calcTotalEffect n dag src dst isCont = some (.error .notContinuous)) ∧
    ((∀ p, IsPath (Edge n (clean dag) 0) src dst p → ∀ v ∈ p.tail, isCont v = true) →
      calcTotalEffect n dag src dst isCont = calcTotalEffect n dag src dst) := by
  have hany : (enum (toIndices n dag 0) dst n src).any (fun p => p.tail.any (fun v => !isCont v)) = true ↔
      ∃ p, IsPath (Edge n (clean dag) 0) src dst p ∧ ∃ v ∈ p.tail, isCont v = false := by
    simp only [List.any_eq_true, Bool.not_eq_true', mem_enum_acyclic hE hsrc]
  constructor
  · intro h
    unfold calcTotalEffect
    rw [if_neg (by omega), if_neg hne, findAllPaths_acyclic le_rfl hE hsrc hne]
    simp only []
    rw [if_pos (hany.2 h)]
  · intro h
    rw [calcTotalEffect_acyclic hE hsrc hdst hne]
    unfold calcTotalEffect
    rw [if_neg (by omega), if_neg hne, findAllPaths_acyclic le_rfl hE hsrc hne]
    simp only []
    rw [if_neg, ← sumNan_some, List.map_map]
    · rfl
    · rw [hany]
      rintro ⟨p, hp, v, hv, hc⟩
      rw [h p hp v hv] at hc
      cases hc

/-- **C14.** If all edges go forward in `order`, the total effect of a later on an earlier variable is 0. -/
theorem C14_no_effect_backwards (n : Nat) (dag : Nat → Nat → Option K) (order : List Nat)
    (hord : order.Nodup) (hfwd : ∀ a b, Edge n (clean dag) 0 a b → Before order a b)
    (src dst : Nat) (hsrc : src < n) (hdst : dst < n) (hb : Before order dst src) :
    calcTotalEffect n dag src dst = some (.ok (some 0)) := by
  have hE : Acyclic (Edge n (clean dag) 0) := acyclic_of_before hord hfwd
  have irr := Before.irrefl hord
  have hne : src ≠ dst := by rintro rfl; exact irr _ hb
  rw [C13_total_effect_is_path_sum n dag src dst hE hsrc hdst hne [] (by simp)]
  · simp
  · intro p
    simp only [List.not_mem_nil, false_iff]
    rintro ⟨h1, h2, h3⟩
    cases p with
    | nil => simp at h1
    | cons a p =>
      simp at h1; subst h1
      have hm : dst ∈ a :: p := List.mem_of_getLast? h2
      rcases List.mem_cons.1 hm with h | h
      · exact hne h.symm
      · exact irr _ (Before.trans hord hb (before_of_transGen hord hfwd (chain_transGen h3 _ h)))

/-- **C15.** Raising the threshold only removes paths; the effects of the remaining ones are unchanged. -/
theorem C15_threshold_monotone (n : Nat) (dag : Nat → Nat → Option K) (src dst : Nat) (t1 t2 : K)
    (h0 : 0 ≤ t1) (h12 : t1 ≤ t2) (hE : Acyclic (Edge n (clean dag) t1)) (hsrc : src < n) (hne : src ≠ dst) :
    ∃ p1 e1 p2 e2, findAllPaths n dag src dst t1 = some (.ok (p1, e1)) ∧
      findAllPaths n dag src dst t2 = some (.ok (p2, e2)) ∧
      (∀ p ∈ p2, p ∈ p1) ∧ (∀ pe ∈ p2.zip e2, pe ∈ p1.zip e1) := by
  have hsub : ∀ a b, Edge n (clean dag) t2 a b → Edge n (clean dag) t1 a b :=
    fun a b h => ⟨h.1, h.2.1, lt_of_le_of_lt h12 h.2.2⟩
  have hE2 : Acyclic (Edge n (clean dag) t2) := fun i hi => hE i (Relation.TransGen.mono hsub _ _ hi)
  have hmem : ∀ p ∈ enum (toIndices n dag t2) dst n src, p ∈ enum (toIndices n dag t1) dst n src := by
    intro p hp
    rw [mem_enum_acyclic hE2 hsrc] at hp
    rw [mem_enum_acyclic hE hsrc]
    exact ⟨hp.1, hp.2.1, hp.2.2.imp hsub⟩
  refine ⟨_, _, _, _, findAllPaths_acyclic h0 hE hsrc hne,
    findAllPaths_acyclic (h0.trans h12) hE2 hsrc hne, hmem, ?_⟩
  have hz : ∀ l : List (List Nat), l.zip (l.map (fun p => some (pathWeight (clean dag) p))) =
      l.map (fun p => (p, some (pathWeight (clean dag) p))) := by
    intro l
    induction l with
    | nil => rfl
    | cons a l ih => simp [ih]
  intro pe h
  rw [hz, List.mem_map] at h ⊢
  obtain ⟨p, hp, rfl⟩ := h
  exact ⟨p, hmem p hp, rfl⟩

/-! ### Concrete cases meeting the hypotheses -/

/-- `0 → 1 → 2`, `0 → 2` with a NaN entry between 1 and 3. -/
def exDag : Nat → Nat → Option ℚ := fun i j =>
  if i = 1 ∧ j = 0 then some 2 else if i = 2 ∧ j = 1 then some 3 else if i = 2 ∧ j = 0 then some (-1)
  else if (i = 1 ∧ j = 3) ∨ (i = 3 ∧ j = 1) then none else some 0

theorem exDag_forward : ∀ a b, Edge 4 (clean exDag) 0 a b → a < b := by
  rintro a b ⟨ha, hb, h⟩
  by_contra hc
  have : clean exDag b a = 0 := by
    unfold clean exDag nan0
    have h1 : ¬ (b = 1 ∧ a = 0) := by omega
    have h2 : ¬ (b = 2 ∧ a = 1) := by omega
    have h3 : ¬ (b = 2 ∧ a = 0) := by omega
    rw [if_neg h1, if_neg h2, if_neg h3]
    split <;> rfl
  rw [this] at h
  simp at h

example : Acyclic (Edge 4 (clean exDag) 0) := by
  intro i hi
  have : ∀ a b, Relation.TransGen (Edge 4 (clean exDag) 0) a b → a < b := by
    intro a b h
    induction h with
    | single h => exact exDag_forward _ _ h
    | tail _ h ih => exact ih.trans (exDag_forward _ _ h)
  exact absurd (this i i hi) (lt_irrefl i)

example : findAllPaths 4 exDag 0 2 0 = some (.ok ([[0, 1, 2], [0, 2]], [some 6, some (-1)])) := by
  decide +kernel

example : calcTotalEffect 4 exDag 0 2 = some (.ok (some 5)) := by decide +kernel

/-- C13: a discrete source is accepted, a discrete intermediate variable is not. -/
example : calcTotalEffect 4 exDag 0 2 (fun v => decide (v ≠ 0)) = some (.ok (some 5)) ∧
    calcTotalEffect 4 exDag 0 2 (fun v => decide (v ≠ 1)) = some (.error .notContinuous) := by decide +kernel

/-- The cycle `1 → 2 → 1` reached from `0`, target `3`. -/
def exCyc : Nat → Nat → Option ℚ := fun i j =>
  if (i = 1 ∧ j = 0) ∨ (i = 2 ∧ j = 1) ∨ (i = 1 ∧ j = 2) then some 1 else some 0

example : ∃ c, Relation.TransGen (fun a b => Edge 4 (clean exCyc) 0 a b ∧ b ≠ 0 ∧ b ≠ 3) 0 c ∧
    Relation.TransGen (fun a b => Edge 4 (clean exCyc) 0 a b ∧ b ≠ 0 ∧ b ≠ 3) c c :=
  ⟨1, .single ⟨⟨by omega, by omega, by decide +kernel⟩, by omega, by omega⟩,
    .tail (.single (b := 2) ⟨⟨by omega, by omega, by decide +kernel⟩, by omega, by omega⟩)
      ⟨⟨by omega, by omega, by decide +kernel⟩, by omega, by omega⟩⟩

end Verif.Paths
