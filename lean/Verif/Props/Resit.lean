import Verif.Proofs.Resit

/-! # RESIT (C31) -/
set_option linter.unusedSectionVars false
set_option autoImplicit false
namespace Verif.Resit

variable {K : Type} [Field K] [LinearOrder K] [IsStrictOrderedRing K]

/-- All facts about the result of `fit` at once. -/
theorem fit_spec (stat : List Nat → Nat → Option K) (pval : Nat → List Nat → Option K) (alpha : K) (n : Nat) :
    ∃ (pi : List Nat) (B : Nat → Nat → ℚ), fit stat pval alpha n = some (pi, B) ∧ pi.Perm (List.range n) ∧
      ∀ a k b, pi = a ++ k :: b →
        (a ≠ [] → Chosen stat ((List.range n).filter (fun x => decide (x ∈ a ++ [k]))) k) ∧
        ∀ j, B k j = if j ∈ (if a = [] then [] else pruneParents pval alpha k ((List.range n).filter (fun x => decide (x ∈ a)))
          ((List.range n).filter (fun x => decide (x ∈ a)))) then 1 else 0 := by
  obtain ⟨pa, q, h1, h2, _, h4⟩ := orderLoop_spec stat n (List.range n) (fun _ => []) [] (by simp) List.nodup_range
  rw [List.append_nil] at h1
  refine ⟨q, _, by unfold fit estimateOrder; rw [h1], h2, ?_⟩
  have hnd : q.Nodup := h2.nodup_iff.2 List.nodup_range
  intro a k b hq
  obtain ⟨e1, e2⟩ := h4 a k b hq
  refine ⟨e2, fun j => ?_⟩
  have hk : q[a.length]? = some k := by rw [hq]; simp
  have hlen : q.length = n := by rw [h2.length_eq]; simp
  have hiff : (∃ i ∈ List.range' 1 (n - 1), q[i]? = some k) ↔ a ≠ [] := by
    constructor
    · rintro ⟨i, hi, hi'⟩ rfl
      have hlt : i < q.length := (List.getElem?_eq_some_iff.1 hi').1
      have : i = 0 := (List.getElem?_inj hlt hnd).1 (hi'.trans hk.symm)
      rw [List.mem_range'] at hi
      obtain ⟨x, _, hx⟩ := hi
      omega
    · intro ha
      refine ⟨a.length, ?_, hk⟩
      have h0 : 0 < a.length := List.length_pos_of_ne_nil ha
      have h3 : a.length < n := by rw [← hlen]; exact (List.getElem?_eq_some_iff.1 hk).1
      rw [List.mem_range'_1]
      omega
  unfold removeEdges
  simp only [foldl_removeStep pval alpha hnd k _ pa List.nodup_range', hiff, e1]
  by_cases ha : a = []
  · subst ha; simp
  · simp [ha]

/-- C31: RESIT always returns an order that is a permutation of the variables and a 0/1 matrix. -/
theorem C31_order_and_matrix (stat : List Nat → Nat → Option K) (pval : Nat → List Nat → Option K) (alpha : K) (n : Nat) :
    ∃ (order : List Nat) (B : Nat → Nat → ℚ), fit stat pval alpha n = some (order, B) ∧ IsOrder n order ∧
      (∀ i j, i < n → B i j = 0 ∨ B i j = 1) ∧ ∀ i j, i < n → B i j ≠ 0 → Before order j i := by
  obtain ⟨pi, B, h1, h2, h3⟩ := fit_spec stat pval alpha n
  refine ⟨pi, B, h1, IsOrder.perm.2 h2, ?_, ?_⟩
  · intro i j hi
    obtain ⟨a, b, hq⟩ := List.append_of_mem (h2.mem_iff.2 (List.mem_range.2 hi))
    rw [(h3 a i b hq).2 j]
    exact (ite_eq_or_eq _ _ _).symm
  · intro i j hi hB
    obtain ⟨a, b, hq⟩ := List.append_of_mem (h2.mem_iff.2 (List.mem_range.2 hi))
    rw [(h3 a i b hq).2 j] at hB
    by_cases ha : a = []
    · simp [ha] at hB
    · rw [if_neg ha] at hB
      have hj : j ∈ a := by
        by_contra hc
        rw [if_neg] at hB
        · exact hB rfl
        · intro h
          have := (pruneParents_sublist _ _ _ _ _).subset h
          rw [List.mem_filter] at this
          exact hc (by simpa using this.2)
      obtain ⟨x, y, rfl⟩ := List.append_of_mem hj
      exact ⟨x, y, b, by rw [hq]; simp⟩

/-- C31: every variable except the first of the order keeps at least one parent – also when all variables are
independent. -/
theorem C31_keeps_a_parent {stat : List Nat → Nat → Option K} {pval : Nat → List Nat → Option K} {alpha : K} {n : Nat}
    {order : List Nat} {B : Nat → Nat → ℚ} (h : fit stat pval alpha n = some (order, B)) (i : Nat) (hi : i < n)
    (hfirst : order.head? ≠ some i) : ∃ j, B i j = 1 := by
  obtain ⟨pi, B', h1, h2, h3⟩ := fit_spec stat pval alpha n
  rw [h1] at h
  simp only [Option.some.injEq, Prod.mk.injEq] at h
  obtain ⟨rfl, rfl⟩ := h
  obtain ⟨a, b, hq⟩ := List.append_of_mem (h2.mem_iff.2 (List.mem_range.2 hi))
  have ha : a ≠ [] := by
    rintro rfl
    apply hfirst
    rw [hq]; rfl
  have hne : (List.range n).filter (fun x => decide (x ∈ a)) ≠ [] := by
    obtain ⟨x, hx⟩ := List.exists_mem_of_ne_nil _ ha
    refine List.ne_nil_of_mem (a := x) ?_
    rw [List.mem_filter]
    exact ⟨h2.mem_iff.1 (by rw [hq]; simp [hx]), by simpa using hx⟩
  obtain ⟨j, hj⟩ := List.exists_mem_of_ne_nil _ (pruneParents_ne_nil pval alpha i _ _ hne)
  refine ⟨j, ?_⟩
  rw [(h3 a i b hq).2 j, if_neg ha, if_pos hj]

/-- C31: every step takes a variable with the smallest statistic among the variables not yet placed behind it (first one
on ties), when no statistic is NaN. -/
theorem C31_least_dependent_last {s : List Nat → Nat → K} {pval : Nat → List Nat → Option K} {alpha : K} {n : Nat}
    {order : List Nat} {B : Nat → Nat → ℚ} (h : fit (fun S k => some (s S k)) pval alpha n = some (order, B))
    (a : List Nat) (k : Nat) (b : List Nat) (ho : order = a ++ k :: b) (ha : a ≠ []) :
    ∀ x ∈ a, s ((List.range n).filter (fun x => decide (x ∈ a ++ [k]))) k ≤
        s ((List.range n).filter (fun x => decide (x ∈ a ++ [k]))) x ∧
      (s ((List.range n).filter (fun x => decide (x ∈ a ++ [k]))) k =
        s ((List.range n).filter (fun x => decide (x ∈ a ++ [k]))) x → k < x) := by
  obtain ⟨pi, B', h1, h2, h3⟩ := fit_spec (fun S k => some (s S k)) pval alpha n
  rw [h1] at h
  simp only [Option.some.injEq, Prod.mk.injEq] at h
  obtain ⟨rfl, rfl⟩ := h
  have hc := (h3 a k b ho).1 ha
  have hnd : pi.Nodup := h2.nodup_iff.2 List.nodup_range
  have hka : ∀ x ∈ a, x ≠ k := by
    rintro x hx rfl
    rw [ho] at hnd
    exact (List.nodup_append.1 hnd).2.2 x hx x (by simp) rfl
  have hmem : ∀ x ∈ a, x ∈ (List.range n).filter (fun x => decide (x ∈ a ++ [k])) := by
    intro x hx
    rw [List.mem_filter]
    exact ⟨h2.mem_iff.1 (by rw [ho]; simp [hx]), by simp [hx]⟩
  have hsort : ((List.range n).filter (fun x => decide (x ∈ a ++ [k]))).Pairwise (· < ·) := List.pairwise_lt_range.filter _
  generalize hS : (List.range n).filter (fun x => decide (x ∈ a ++ [k])) = S at *
  unfold Chosen at hc
  rw [Option.bind_eq_some_iff] at hc
  obtain ⟨i, hi, hk⟩ := hc
  intro x hx
  have hx' := Direct.pick_spec hsort .kernel (s := s S) (i := i) (m := k) (by simpa using hi) hk x (hmem x hx)
  refine ⟨not_lt.1 hx'.1, fun he => ?_⟩
  rcases lt_trichotomy k x with h | h | h
  · exact h
  · exact absurd h.symm (hka x hx)
  · exact absurd (hx'.2 h) (by rw [he]; exact lt_irrefl _)

/-- C31: an edge from an earlier variable `l` to a later variable `t` is missing only because some regression of `t` on
other earlier variables had a p-value above `alpha`; it is present only if the regression without `l` on a set containing
all the other final parents did not (or `l` is the only parent left). -/
theorem C31_edges_tested {stat : List Nat → Nat → Option K} {pval : Nat → List Nat → Option K} {alpha : K} {n : Nat}
    {order : List Nat} {B : Nat → Nat → ℚ} (h : fit stat pval alpha n = some (order, B)) (l t : Nat)
    (hlt : Before order l t) :
    (B t l = 0 → ∃ ps p, ps ≠ [] ∧ (∀ x ∈ ps, Before order x t ∧ x ≠ l) ∧ pval t ps = some p ∧ alpha < p) ∧
    (B t l = 1 → ∃ ps, (∀ x ∈ ps, Before order x t ∧ x ≠ l) ∧ (∀ x, B t x = 1 → x = l ∨ x ∈ ps) ∧
      (ps = [] ∨ ∀ p, pval t ps = some p → p ≤ alpha)) := by
  obtain ⟨pi, B', h1, h2, h3⟩ := fit_spec stat pval alpha n
  rw [h1] at h
  simp only [Option.some.injEq, Prod.mk.injEq] at h
  obtain ⟨rfl, rfl⟩ := h
  obtain ⟨x, y, z, hq⟩ := hlt
  have hq' : pi = (x ++ l :: y) ++ t :: z := by rw [hq]; simp
  have hB := (h3 _ t z hq').2
  have ha : x ++ l :: y ≠ [] := by simp
  simp only [if_neg ha] at hB
  generalize haa : x ++ l :: y = a at *
  generalize hL : (List.range n).filter (fun x => decide (x ∈ a)) = L at *
  have hLa : ∀ v, v ∈ L ↔ v ∈ a := by
    intro v
    rw [← hL, List.mem_filter, decide_eq_true_eq]
    exact ⟨fun h => h.2, fun h => ⟨h2.mem_iff.1 (by rw [hq']; simp [h]), h⟩⟩
  have hnd : L.Nodup := hL ▸ List.nodup_range.filter _
  have hbef : ∀ v ∈ L, Before pi v t := by
    intro v hv
    obtain ⟨u, w, hu⟩ := List.append_of_mem ((hLa v).1 hv)
    exact ⟨u, w, z, by rw [hq', hu]; simp⟩
  obtain ⟨t1, t2⟩ := pruneParents_tests pval alpha t L L hnd hnd (fun _ h => h) l ((hLa l).2 (by rw [← haa]; simp))
  constructor
  · intro h0
    rw [hB l] at h0
    have hl : l ∉ pruneParents pval alpha t L L := by
      intro hc; rw [if_pos hc] at h0; exact one_ne_zero h0
    obtain ⟨ps, e1, e2, e3, e4⟩ := t1 hl
    cases hp : pval t ps with
    | none => rw [hp] at e4; cases e4
    | some p =>
      rw [hp] at e4
      exact ⟨ps, p, e1, fun v hv => ⟨hbef v (e2.subset hv), fun h => e3 (h ▸ hv)⟩, hp, by simpa [above] using e4⟩
  · intro h0
    rw [hB l] at h0
    have hl : l ∈ pruneParents pval alpha t L L := by
      by_contra hc; rw [if_neg hc] at h0; exact zero_ne_one h0
    obtain ⟨ps, e2, e3, e4, e5⟩ := t2 hl
    refine ⟨ps, fun v hv => ⟨hbef v (e2.subset hv), fun h => e3 (h ▸ hv)⟩, ?_, ?_⟩
    · intro v hv
      rw [hB v] at hv
      refine e5 v ?_
      by_contra hc; rw [if_neg hc] at hv; exact zero_ne_one hv
    · rcases e4 with e4 | e4
      · exact Or.inl e4
      · right
        intro p hp
        rw [hp] at e4
        simpa [above] using e4

/-! ### Concrete cases meeting the hypotheses -/

/-- Three variables, all tests "independent" (p = 1/2): two edges remain. -/
example : (fit (fun _ k => some (-(k : ℚ))) (fun _ _ => some (1 / 2)) (1 / 100) 3).map
    (fun r => (r.1, r.2 1 0, r.2 2 0, r.2 2 1)) = some ([0, 1, 2], 1, 0, 1) := by decide +kernel

/-- Three variables, all tests "dependent": nothing is removed. -/
example : (fit (fun _ k => some (k : ℚ)) (fun _ _ => some 0) (1 / 100) 3).map
    (fun r => (r.1, r.2 1 2, r.2 0 1, r.2 0 2, r.2 2 1)) = some ([2, 1, 0], 1, 1, 1, 0) := by decide +kernel

end Verif.Resit
