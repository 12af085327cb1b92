import Verif.Props.ResitRecovery

/-! # RESIT and the order of the columns (C212) -/
set_option linter.unusedSectionVars false
set_option autoImplicit false
namespace Verif.Resit

/-- The statistics computed on the data with the columns in another order: column `j` is the former column `π j`. -/
def reorderedStat (π : Nat → Nat) (s : List Nat → Nat → ℚ) : List Nat → Nat → ℚ := fun S k => s (S.map π) (π k)

/-- The p-values computed on the data with the columns in another order. -/
def reorderedPval (π : Nat → Nat) (p : Nat → List Nat → Option ℚ) : Nat → List Nat → Option ℚ := fun t ps => p (π t) (ps.map π)

theorem order_unique {f : List Nat → Nat → ℚ} (hset : ∀ S S' k, S.Perm S' → f S k = f S' k) : ∀ (m : Nat) (q q' : List Nat),
    q.length = m → q.Perm q' → q.Nodup → (∀ a k b, q = a ++ k :: b → ∀ x ∈ a, f (a ++ [k]) k < f (a ++ [k]) x) →
    (∀ a k b, q' = a ++ k :: b → ∀ x ∈ a, f (a ++ [k]) k < f (a ++ [k]) x) → q = q'
  | 0, q, q', hl, hp, _, _, _ => by
    have : q = [] := List.length_eq_zero_iff.1 hl
    subst this
    exact (List.nil_perm.1 hp).symm
  | m + 1, q, q', hl, hp, hnd, h, h' => by
    rcases List.eq_nil_or_concat q with rfl | ⟨a, k, rfl⟩
    · simp at hl
    rcases List.eq_nil_or_concat q' with rfl | ⟨a', k', rfl⟩
    · simpa using hp.length_eq
    simp only [List.concat_eq_append] at *
    have hk : k = k' := by
      by_contra hne
      have h1 : k' ∈ a := by
        have := hp.mem_iff.2 (show k' ∈ a' ++ [k'] by simp)
        simpa [Ne.symm hne] using this
      have h2 : k ∈ a' := by
        have := hp.mem_iff.1 (show k ∈ a ++ [k] by simp)
        simpa [hne] using this
      have e1 := h a k [] rfl k' h1
      have e2 := h' a' k' [] rfl k h2
      rw [hset _ _ k hp, hset _ _ k' hp] at e1
      exact absurd e1 (not_lt.2 e2.le)
    subst hk
    have hpa : a.Perm a' := (List.perm_append_right_iff [k]).1 hp
    rw [order_unique hset m a a' (by simpa using hl) hpa (List.nodup_append.1 hnd).1
      (fun a1 k1 b1 e x hx => h a1 k1 (b1 ++ [k]) (by rw [e]; simp) x hx)
      (fun a1 k1 b1 e x hx => h' a1 k1 (b1 ++ [k]) (by rw [e]; simp) x hx)]

/-- The order of RESIT takes strictly smallest statistics when no two variables have the same one. -/
theorem order_strict {s : List Nat → Nat → ℚ} {pval : Nat → List Nat → Option ℚ} {alpha : ℚ} {n : Nat}
    (hset : ∀ S S' k, S.Perm S' → s S k = s S' k)
    (hties : ∀ S : List Nat, S.Nodup → (∀ x ∈ S, x < n) → ∀ k ∈ S, ∀ x ∈ S, s S k = s S x → k = x)
    {order : List Nat} {B : Nat → Nat → ℚ} (h : fit (fun S k => some (s S k)) pval alpha n = some (order, B))
    (hp : order.Perm (List.range n)) (a : List Nat) (k : Nat) (b : List Nat) (ho : order = a ++ k :: b) :
    ∀ x ∈ a, s (a ++ [k]) k < s (a ++ [k]) x := by
  intro x hx
  have hnd : order.Nodup := hp.nodup_iff.2 List.nodup_range
  have hsub : (a ++ [k]).Sublist order := by
    rw [ho]
    exact List.Sublist.append_left (List.singleton_sublist.2 List.mem_cons_self) _
  have hnd' : (a ++ [k]).Nodup := hsub.nodup hnd
  have hlt : ∀ y ∈ a ++ [k], y < n := fun y hy => List.mem_range.1 (hp.mem_iff.1 (hsub.subset hy))
  have hperm : ((List.range n).filter (fun x => decide (x ∈ a ++ [k]))).Perm (a ++ [k]) := by
    refine (List.perm_ext_iff_of_nodup (List.nodup_range.filter _) hnd').2 ?_
    intro y
    rw [List.mem_filter, List.mem_range, decide_eq_true_eq]
    exact ⟨fun e => e.2, fun e => ⟨hlt y e, e⟩⟩
  have hle := (C31_least_dependent_last h a k b ho (List.ne_nil_of_mem hx) x hx).1
  rw [hset _ _ k hperm, hset _ _ x hperm] at hle
  refine lt_of_le_of_ne hle fun e => ?_
  have := hties (a ++ [k]) hnd' hlt k (by simp) x (by simp [hx]) e
  subst this
  exact (List.nodup_append.1 hnd').2.2 k hx k (by simp) rfl

theorem map_nodup {n : Nat} {π : Nat → Nat} (hπ : ((List.range n).map π).Perm (List.range n)) {S : List Nat} (hS : S.Nodup)
    (hlt : ∀ x ∈ S, x < n) : (S.map π).Nodup ∧ (∀ y ∈ S.map π, y < n) := by
  have hinj : ∀ x < n, ∀ y < n, π x = π y → x = y := fun x hx y hy e =>
    List.inj_on_of_nodup_map (hπ.nodup_iff.2 List.nodup_range) (List.mem_range.2 hx) (List.mem_range.2 hy) e
  refine ⟨List.Nodup.map_on (fun x hx y hy e => hinj x (hlt x hx) y (hlt y hy) e) hS, ?_⟩
  intro y hy
  obtain ⟨x, hx, rfl⟩ := List.mem_map.1 hy
  exact List.mem_range.1 (hπ.mem_iff.1 (List.mem_map_of_mem (List.mem_range.2 (hlt x hx))))

/-- C212, partial: if the regressions and tests do not depend on the order of their inputs and no two variables have the same
statistic, the causal order names the same variables in the same sequence for every order of the columns.  Missing: ties
(`C212_ties_violated`) and the edges (`C212_edges_violated`). -/
theorem C212_order_partial {s : List Nat → Nat → ℚ} {pval pval' : Nat → List Nat → Option ℚ} {alpha : ℚ} {n : Nat} {π : Nat → Nat}
    (hπ : ((List.range n).map π).Perm (List.range n)) (hset : ∀ S S' k, S.Perm S' → s S k = s S' k)
    (hties : ∀ S : List Nat, S.Nodup → (∀ x ∈ S, x < n) → ∀ k ∈ S, ∀ x ∈ S, s S k = s S x → k = x) :
    ∃ order B order' B', fit (fun S k => some (s S k)) pval alpha n = some (order, B) ∧
      fit (fun S k => some (reorderedStat π s S k)) pval' alpha n = some (order', B') ∧ order'.map π = order := by
  obtain ⟨o, B, h1, hp, _⟩ := fit_spec (fun S k => some (s S k)) pval alpha n
  obtain ⟨o', B', h1', hp', _⟩ := fit_spec (fun S k => some (reorderedStat π s S k)) pval' alpha n
  refine ⟨o, B, o', B', h1, h1', ?_⟩
  have hinj : ∀ x < n, ∀ y < n, π x = π y → x = y := fun x hx y hy e =>
    List.inj_on_of_nodup_map (hπ.nodup_iff.2 List.nodup_range) (List.mem_range.2 hx) (List.mem_range.2 hy) e
  have hpp : (o'.map π).Perm o := ((hp'.map π).trans hπ).trans hp.symm
  have hset' : ∀ S S' k, S.Perm S' → reorderedStat π s S k = reorderedStat π s S' k :=
    fun S S' k h => hset _ _ _ (h.map π)
  have hties' : ∀ S : List Nat, S.Nodup → (∀ x ∈ S, x < n) → ∀ k ∈ S, ∀ x ∈ S,
      reorderedStat π s S k = reorderedStat π s S x → k = x := by
    intro S hS hlt k hk x hx e
    obtain ⟨h2, h3⟩ := map_nodup hπ hS hlt
    exact hinj k (hlt k hk) x (hlt x hx) (hties (S.map π) h2 h3 _ (List.mem_map_of_mem hk) _ (List.mem_map_of_mem hx) e)
  refine order_unique hset _ _ _ rfl hpp ?_ ?_ (order_strict hset hties h1 hp)
  · exact hpp.nodup_iff.2 (hp.nodup_iff.2 List.nodup_range)
  · intro a k b e x hx
    obtain ⟨a0, c0, rfl, ha0, hc0⟩ := List.map_eq_append_iff.1 e
    obtain ⟨k0, b0, rfl, hk0, hb0⟩ := List.map_eq_cons_iff.1 hc0
    subst ha0 hk0
    obtain ⟨x0, hx0, rfl⟩ := List.mem_map.1 hx
    have := order_strict hset' hties' h1' hp' a0 k0 b0 rfl x0 hx0
    unfold reorderedStat at this
    rwa [List.map_append, List.map_singleton] at this

/-- The tests decide about sets of earlier variables like a graph: the residual of a variable other than the first on a set of earlier
variables is found independent exactly when the set contains its parents, of which there is at least one. -/
def DecisiveTests (pval : Nat → List Nat → Option ℚ) (alpha : ℚ) (order : List Nat) (G : Nat → Nat → Prop) : Prop :=
  ∀ a t b, order = a ++ t :: b → a ≠ [] → (∃ g, G t g) ∧ (∀ g, G t g → g ∈ a) ∧
    ∀ ps : List Nat, ps.Nodup → ps ≠ [] → (∀ p ∈ ps, p ∈ a) → (above alpha (pval t ps) = true ↔ ∀ g, G t g → g ∈ ps)

theorem edges_of_decisive {stat : List Nat → Nat → Option ℚ} {pval : Nat → List Nat → Option ℚ} {alpha : ℚ} {n : Nat}
    {order : List Nat} {B : Nat → Nat → ℚ} (h : fit stat pval alpha n = some (order, B)) {G : Nat → Nat → Prop}
    (hG : DecisiveTests pval alpha order G) {a : List Nat} {t : Nat} {b : List Nat} (ho : order = a ++ t :: b) (j : Nat) :
    B t j = (open Classical in if a ≠ [] ∧ G t j then 1 else 0) := by
  classical
  obtain ⟨pi, B', h1, hp, h3⟩ := fit_spec stat pval alpha n
  rw [h1] at h
  cases h
  rw [(h3 a t b ho).2 j]
  by_cases ha : a = []
  · subst ha; simp
  obtain ⟨⟨g, hg⟩, hga, htest⟩ := hG a t b ho ha
  have hL : ∀ x, x ∈ (List.range n).filter (fun x => decide (x ∈ a)) ↔ x ∈ a := by
    intro x
    rw [List.mem_filter, decide_eq_true_eq]
    exact ⟨fun e => e.2, fun e => ⟨hp.mem_iff.1 (by rw [ho]; simp [e]), e⟩⟩
  have hnd : ((List.range n).filter (fun x => decide (x ∈ a))).Nodup := List.nodup_range.filter _
  generalize hLe : (List.range n).filter (fun x => decide (x ∈ a)) = L at *
  have key := (prune_exact (pval := pval) (alpha := alpha) (t := t) (G := G t) L [] (by simpa using hnd) (by simp)
    ⟨g, by simpa using (hL g).2 (hga g hg), hg⟩ (by
      intro ps hps hne hall
      refine (htest ps ((hps.nodup) (by simpa using hnd)) hne ?_).2 ?_
      · intro p hpp
        exact (hL p).1 (by simpa using hps.subset hpp)
      · intro g' hg'
        exact hall g' (by simpa using (hL g').2 (hga g' hg')) hg')).2 (by
      intro a1 l b1 e hGl
      by_cases hne : ([] : List Nat) ++ a1.filter (fun x => decide (G t x)) ++ b1 = []
      · exact .inl hne
      · right
        have hsub : (([] : List Nat) ++ a1.filter (fun x => decide (G t x)) ++ b1).Sublist (a1 ++ l :: b1) := by
          rw [List.nil_append]
          exact List.Sublist.append List.filter_sublist (List.sublist_cons_self _ _)
        rw [e] at hnd
        have hnd2 := hsub.nodup hnd
        have hl : l ∉ ([] : List Nat) ++ a1.filter (fun x => decide (G t x)) ++ b1 := by
          intro hc
          rw [List.nil_append] at hc
          obtain ⟨n1, n2, n3⟩ := List.nodup_append.1 hnd
          rcases List.mem_append.1 hc with hc | hc
          · exact n3 l (List.mem_filter.1 hc).1 l (by simp) rfl
          · exact (List.nodup_cons.1 n2).1 hc
        by_contra hab
        rw [Bool.not_eq_false] at hab
        exact hl ((htest _ hnd2 hne (fun p hpp => (hL p).1 (by rw [e]; exact hsub.subset hpp))).1 hab l hGl))
  simp only [List.nil_append] at key
  simp only [if_neg ha]
  by_cases hj : G t j
  · rw [if_pos ((key j).2 ⟨(hL j).2 (hga j hj), hj⟩), if_pos ⟨ha, hj⟩]
  · rw [if_neg (fun hc => hj ((key j).1 hc).2), if_neg (fun hc => hj hc.2)]

/-- C212, partial: if in addition the tests decide like a graph (and every variable but the first has a parent in it), the edges are
the same for every order of the columns too. -/
theorem C212_edges_partial {s : List Nat → Nat → ℚ} {pval : Nat → List Nat → Option ℚ} {alpha : ℚ} {n : Nat} {π : Nat → Nat}
    (hπ : ((List.range n).map π).Perm (List.range n)) (hset : ∀ S S' k, S.Perm S' → s S k = s S' k)
    (hties : ∀ S : List Nat, S.Nodup → (∀ x ∈ S, x < n) → ∀ k ∈ S, ∀ x ∈ S, s S k = s S x → k = x)
    {order : List Nat} {B : Nat → Nat → ℚ} (h : fit (fun S k => some (s S k)) pval alpha n = some (order, B)) {G : Nat → Nat → Prop}
    (hG : DecisiveTests pval alpha order G) :
    ∃ order' B', fit (fun S k => some (reorderedStat π s S k)) (reorderedPval π pval) alpha n = some (order', B') ∧
      order'.map π = order ∧ ∀ i j, i < n → j < n → B' i j = B (π i) (π j) := by
  obtain ⟨o, B0, o', B', h1, h2, h3⟩ := C212_order_partial (pval := pval) (pval' := reorderedPval π pval) (alpha := alpha) hπ hset hties
  rw [h1] at h
  cases h
  refine ⟨o', B', h2, h3, ?_⟩
  have hp' : o'.Perm (List.range n) := by
    obtain ⟨o2, B2, e1, e2, _⟩ := fit_spec (fun S k => some (reorderedStat π s S k)) (reorderedPval π pval) alpha n
    rw [e1] at h2
    cases h2
    exact e2
  have hinj : ∀ x < n, ∀ y < n, π x = π y → x = y := fun x hx y hy e =>
    List.inj_on_of_nodup_map (hπ.nodup_iff.2 List.nodup_range) (List.mem_range.2 hx) (List.mem_range.2 hy) e
  have hlt : ∀ x ∈ o', x < n := fun x hx => List.mem_range.1 (hp'.mem_iff.1 hx)
  have hG' : DecisiveTests (reorderedPval π pval) alpha o' (fun i j => j < n ∧ G (π i) (π j)) := by
    intro a t b e ha
    have e' : order = a.map π ++ π t :: b.map π := by rw [← h3, e]; simp
    obtain ⟨⟨g, hg⟩, hga, htest⟩ := hG _ _ _ e' (by simpa using ha)
    refine ⟨?_, ?_, ?_⟩
    · obtain ⟨g0, hg0, rfl⟩ := List.mem_map.1 (hga g hg)
      exact ⟨g0, hlt g0 (by rw [e]; simp [hg0]), hg⟩
    · rintro g0 ⟨hg0, hg1⟩
      obtain ⟨g2, hg2, e2⟩ := List.mem_map.1 (hga _ hg1)
      rwa [hinj g2 (hlt g2 (by rw [e]; simp [hg2])) g0 hg0 e2] at hg2
    · intro ps hps hne hsub
      have hpl : ∀ p ∈ ps, p < n := fun p hpp => hlt p (by rw [e]; simp [hsub p hpp])
      have hps' : (ps.map π).Nodup := (map_nodup hπ hps hpl).1
      have := htest (ps.map π) hps' (by simpa using hne) (by
        intro p hpp
        obtain ⟨q, hq, rfl⟩ := List.mem_map.1 hpp
        exact List.mem_map_of_mem (hsub q hq))
      unfold reorderedPval
      rw [this]
      constructor
      · rintro hh g0 ⟨hg0, hg1⟩
        obtain ⟨g2, hg2, e2⟩ := List.mem_map.1 (hh _ hg1)
        rwa [hinj g2 (hpl g2 hg2) g0 hg0 e2] at hg2
      · intro hh g1 hg1
        obtain ⟨g0, hg0, rfl⟩ := List.mem_map.1 (hga g1 hg1)
        exact List.mem_map_of_mem (hh g0 ⟨hlt g0 (by rw [e]; simp [hg0]), hg1⟩)
  intro i j hi hj
  have hio : i ∈ o' := hp'.mem_iff.2 (List.mem_range.2 hi)
  obtain ⟨a, b, e⟩ := List.append_of_mem hio
  have e' : order = a.map π ++ π i :: b.map π := by rw [← h3, e]; simp
  rw [edges_of_decisive h2 hG' e j, edges_of_decisive h1 hG e' (π j)]
  by_cases hh : a ≠ [] ∧ G (π i) (π j)
  · rw [if_pos ⟨hh.1, hj, hh.2⟩, if_pos ⟨by simpa using hh.1, hh.2⟩]
  · rw [if_neg fun hc => hh ⟨hc.1, hc.2.2⟩, if_neg fun hc => hh ⟨by simpa using hc.1, hc.2⟩]

/-- C212 is violated by ties: of two variables with equal statistics the one in the first column comes last. -/
theorem C212_ties_violated : (fit (fun _ _ => some 0) (fun _ _ => some 0) (1 / 100 : ℚ) 2).map Prod.fst = some [1, 0] ∧
    (fit (fun S k => some (reorderedStat (fun j => 1 - j) (fun _ _ => 0) S k)) (fun _ _ => some 0) (1 / 100 : ℚ) 2).map
      (fun r => r.1.map (fun j => 1 - j)) = some [0, 1] := by decide +kernel

/-- Statistics of the collider `x0 → x2 ← x1` without ties: the population statistic, and a preference for `x0` over `x1`. -/
def colliderStat (_ : List Nat) (k : Nat) : ℚ := if k = 2 then 0 else if k = 1 then 2 else 1

/-- The variables of the collider: two independent causes and their sum with an error. -/
def colliderX : Nat → Nat → ℚ := fun i k => if i = k ∨ i = 2 then 1 else 0

/-- The exchange of the first two columns. -/
def swap01 (j : Nat) : Nat := if j = 0 then 1 else if j = 1 then 0 else j

/-- C212 is violated by the edges: tests that are right about the collider `x0 → x2 ← x1` let RESIT remove the first of the two edges;
with the first two columns exchanged this is the other one. -/
theorem C212_edges_violated :
    (fit (fun S k => some (colliderStat S k)) (popPval 3 (fun _ => 1) colliderX) (1 / 100) 3).map
        (fun r => (r.1, r.2 2 0, r.2 2 1)) = some ([1, 0, 2], 0, 1) ∧
      (fit (fun S k => some (reorderedStat swap01 colliderStat S k)) (reorderedPval swap01 (popPval 3 (fun _ => 1) colliderX))
        (1 / 100) 3).map (fun r => (r.1.map swap01, r.2 2 (swap01 0), r.2 2 (swap01 1))) = some ([1, 0, 2], 1, 0) := by
  decide +kernel

/-- The statistic of the example has no ties and does not depend on the order of the inputs, so `C212_order_partial` applies. -/
example : (∀ S S' k, S.Perm S' → colliderStat S k = colliderStat S' k) ∧
    ∀ S : List Nat, S.Nodup → (∀ x ∈ S, x < 3) → ∀ k ∈ S, ∀ x ∈ S, colliderStat S k = colliderStat S x → k = x := by
  refine ⟨fun _ _ _ _ => rfl, ?_⟩
  intro S _ hlt k hk x hx e
  have h1 := hlt k hk
  have h2 := hlt x hx
  unfold colliderStat at e
  have hk' : k = 0 ∨ k = 1 ∨ k = 2 := by omega
  have hx' : x = 0 ∨ x = 1 ∨ x = 2 := by omega
  rcases hk' with rfl | rfl | rfl <;> rcases hx' with rfl | rfl | rfl <;> first | rfl | (exfalso; revert e; decide +kernel)

/-- Tests that decide like the chain `x0 → x1 → x2`. -/
example : DecisiveTests (fun t ps => some (if t - 1 ∈ ps then 1 else 0)) (1 / 100) [0, 1, 2] (fun t g => 0 < t ∧ g = t - 1) := by
  intro a t b e ha
  have hcases : (a = [0] ∧ t = 1) ∨ (a = [0, 1] ∧ t = 2) := by
    rcases a with _ | ⟨x, _ | ⟨y, _ | ⟨z, l⟩⟩⟩
    · exact absurd rfl ha
    · simp at e; left; simp [← e.1, ← e.2.1]
    · simp at e; right; simp [← e.1, ← e.2.1, ← e.2.2.1]
    · simp at e
  have htest : ∀ ps : List Nat, above (1 / 100 : ℚ) (some (if t - 1 ∈ ps then 1 else 0)) = true ↔ t - 1 ∈ ps := by
    intro ps
    unfold above
    by_cases h : t - 1 ∈ ps <;> simp [h] <;> norm_num
  have ht : 0 < t := by omega
  refine ⟨⟨t - 1, ht, rfl⟩, ?_, ?_⟩
  · rintro g ⟨_, rfl⟩
    rcases hcases with ⟨rfl, rfl⟩ | ⟨rfl, rfl⟩ <;> simp
  · intro ps _ _ _
    rw [htest]
    constructor
    · rintro h g ⟨_, rfl⟩; exact h
    · intro h; exact h _ ⟨ht, rfl⟩

end Verif.Resit
