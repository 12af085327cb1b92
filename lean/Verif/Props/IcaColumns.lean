import Verif.Props.IcaUnits
import Verif.Proofs.GroupColumns
import Verif.Spec.Strongest

/-!
# The order of the columns in ICA-LiNGAM (C217)

The order returned by ICA-LiNGAM agrees with one graph, that of the strongest coefficients, and this graph does not depend on the
order of the columns.  If the graph leaves the order of some variables open, the order of the columns decides.
-/
set_option linter.unusedSectionVars false
set_option autoImplicit false
namespace Verif.Ica

/-! ### Which entries are kept -/

theorem pruneLoop_search {n : Nat} : ∀ {post : List (Nat × Nat)} {m : Mat} {o : List Nat}, pruneLoop n post m = some o →
    ∃ k, k < post.length ∧ searchOrder n ((post.take k).foldl setZero m) = some o ∧
      ∀ k' < k, searchOrder n ((post.take k').foldl setZero m) = none
  | [], _, _, h => by cases h
  | p :: post, m, o, h => by
    unfold pruneLoop at h
    cases hs : searchOrder n m with
    | some o' =>
      rw [hs] at h
      cases h
      exact ⟨0, by simp, by simpa using hs, by simp⟩
    | none =>
      rw [hs] at h
      obtain ⟨k, h1, h2, h3⟩ := pruneLoop_search h
      refine ⟨k + 1, by simpa using h1, by simpa using h2, fun k' hk' => ?_⟩
      cases k' with
      | zero => simpa using hs
      | succ k' => simpa using h3 k' (by omega)

theorem take_countP {α : Type} (f : α → ℚ) (t : ℚ) : ∀ l : List α, l.Pairwise (fun a b => f a ≤ f b) →
    l.take (l.countP (fun a => decide (f a ≤ t))) = l.filter (fun a => decide (f a ≤ t))
  | [], _ => rfl
  | a :: l, h => by
    rw [List.pairwise_cons] at h
    by_cases ha : f a ≤ t
    · rw [List.countP_cons_of_pos (by simpa using ha), List.take_succ_cons, List.filter_cons_of_pos (by simpa using ha),
        take_countP f t l h.2]
    · have hz : (a :: l).filter (fun a => decide (f a ≤ t)) = [] := by
        rw [List.filter_eq_nil_iff]
        intro b hb
        rcases List.mem_cons.1 hb with rfl | hb
        · simpa using ha
        · have := h.1 b hb
          simp only [decide_eq_true_eq, not_le]
          exact lt_of_lt_of_le (not_le.1 ha) this
      rw [hz, List.countP_eq_length_filter, hz]
      rfl

/-- The entries above a threshold. -/
def cut (τ : ℚ) (M : Mat) : Mat := fun i j => if |M i j| ≤ τ then 0 else M i j

theorem cut_ne {τ : ℚ} (hτ : 0 ≤ τ) {M : Mat} {i j : Nat} : cut τ M i j ≠ 0 ↔ τ < |M i j| := by
  unfold cut
  split
  · rename_i h
    simp only [ne_eq, not_true_eq_false, false_iff, not_lt]
    exact h
  · rename_i h
    refine ⟨fun _ => not_le.1 h, fun _ h0 => ?_⟩
    rw [h0, abs_zero] at h
    exact h hτ

theorem edge_cut {τ : ℚ} (hτ : 0 ≤ τ) {n : Nat} {M : Mat} : Edge n (cut τ M) 0 = Edge n M τ := by
  funext a b
  unfold Edge
  rw [abs_pos, cut_ne hτ]

/-- No two coefficients are equally strong. -/
def DistinctEntries (n : Nat) (M : Mat) : Prop :=
  ∀ i j k l, i < n → j < n → k < n → l < n → M i j ≠ 0 → |M i j| = |M k l| → i = k ∧ j = l

theorem edge_atMost {n : Nat} {M : Mat} {pos : List (Nat × Nat)} (hpos : SortedPositions n M pos) (τ : ℚ) :
    ∀ l : List (Nat × Nat), l.Nodup → (∀ p ∈ l, Edge n M τ p.1 p.2) →
      l.length + pos.countP (fun p => decide (|M p.1 p.2| ≤ τ)) ≤ n * n := by
  intro l hl hE
  have hsub : ((l.map Prod.swap) ++ pos.filter (fun p => decide (|M p.1 p.2| ≤ τ))).length ≤ pos.length := by
    refine (List.subperm_of_subset ?_ ?_).length_le
    · rw [List.nodup_append]
      refine ⟨hl.map Prod.swap_injective, hpos.nodup.filter _, ?_⟩
      intro p hp q hq e
      subst e
      obtain ⟨q, hq', rfl⟩ := List.mem_map.1 hp
      have h1 := (hE q hq').2.2
      have h2 := (List.mem_filter.1 hq).2
      simp only [Prod.fst_swap, Prod.snd_swap, decide_eq_true_eq] at h2
      exact absurd h1 (not_lt.2 h2)
    · intro p hp
      rcases List.mem_append.1 hp with hp | hp
      · obtain ⟨q, hq', rfl⟩ := List.mem_map.1 hp
        exact (hpos.mem _ _).2 ⟨(hE q hq').2.1, (hE q hq').1⟩
      · exact (List.mem_filter.1 hp).1
  rw [List.length_append, List.length_map, hpos.len, ← List.countP_eq_length_filter] at hsub
  exact hsub

theorem tri (n : Nat) : n * n - n * (n + 1) / 2 = n * (n - 1) / 2 ∧ n * (n + 1) / 2 + n * (n - 1) / 2 = n * n := by
  have h1 : 2 ∣ n * (n + 1) := (Nat.even_mul_succ_self n).two_dvd
  have h2 : 2 ∣ n * (n - 1) := (Nat.even_mul_pred_self n).two_dvd
  obtain ⟨a, ha⟩ := h1
  obtain ⟨b, hb⟩ := h2
  have h3 : n * (n + 1) + n * (n - 1) = 2 * (n * n) := by
    cases n with
    | zero => rfl
    | succ n => simp only [Nat.add_sub_cancel]; ring
  rw [ha, hb, Nat.mul_div_cancel_left _ (by norm_num), Nat.mul_div_cancel_left _ (by norm_num)]
  omega

/-- The order is the one found for the strongest acyclic graph. -/
theorem estimateOrder_cut (as : Boot.Argsort) {n : Nat} (hn : 2 ≤ n) {M : Mat} (hdist : DistinctEntries n M) {o : List Nat}
    (h : estimateOrder as n M = some o) :
    ∃ τ, 0 ≤ τ ∧ searchOrder n (cut τ M) = some o ∧ StrongestAcyclic n M (Edge n M τ) := by
  have hpos := positions_sorted as n M
  unfold estimateOrder at h
  generalize positions as n M = pos at hpos h
  obtain ⟨k0, hk0, hs, hmin⟩ := pruneLoop_search h
  have hfold : ∀ k, ((pos.drop (n * (n + 1) / 2)).take k).foldl setZero ((pos.take (n * (n + 1) / 2)).foldl setZero M) =
      zeroed M (pos.take (n * (n + 1) / 2 + k)) := by
    intro k
    rw [← List.foldl_append, ← List.take_add, foldl_setZero]
  rw [hfold] at hs
  have hmin : ∀ k', k' < k0 → searchOrder n (zeroed M (pos.take (n * (n + 1) / 2 + k'))) = none := fun k' hk' => by
    rw [← hfold]; exact hmin k' hk'
  rw [List.length_drop, hpos.len] at hk0
  have htri := tri n
  have hinit : 1 ≤ n * (n + 1) / 2 := by
    rw [Nat.le_div_iff_mul_le (by norm_num)]
    nlinarith
  generalize n * (n + 1) / 2 = init at *
  -- the last entry set to zero
  have hlast : init + k0 - 1 < pos.length := by rw [hpos.len]; omega
  obtain ⟨p, hp⟩ : ∃ p, pos[init + k0 - 1] = p := ⟨_, rfl⟩
  have hpm : p ∈ pos := hp ▸ List.getElem_mem _
  have hpn := (hpos.mem p.1 p.2).1 hpm
  have htake : ∀ i j, i < n → j < n → ((i, j) ∈ pos.take (init + k0) → |M i j| ≤ |M p.1 p.2|) ∧
      ((i, j) ∉ pos.take (init + k0) → M i j ≠ 0 → |M p.1 p.2| < |M i j|) := by
    intro i j hi hj
    have hmem := (hpos.mem i j).2 ⟨hi, hj⟩
    obtain ⟨q, hq, hqe⟩ := List.getElem_of_mem hmem
    have hsorted := List.pairwise_iff_getElem.1 hpos.sorted
    constructor
    · intro hm
      obtain ⟨q', hq', hqe'⟩ := List.getElem_of_mem hm
      rw [List.getElem_take] at hqe'
      rw [List.length_take] at hq'
      rcases Nat.lt_or_ge q' (init + k0 - 1) with hlt | hge
      · have := hsorted q' (init + k0 - 1) (by omega) hlast hlt
        rw [hqe', hp] at this
        exact this
      · have e : q' = init + k0 - 1 := by omega
        subst e
        rw [hp] at hqe'
        rw [hqe']
    · intro hm hne
      have hge : init + k0 ≤ q := by
        by_contra hcon
        refine hm (List.mem_iff_getElem.2 ⟨q, by rw [List.length_take]; omega, ?_⟩)
        rw [List.getElem_take]
        exact hqe
      have hle := hsorted (init + k0 - 1) q hlast hq (by omega)
      rw [hqe, hp] at hle
      refine lt_of_le_of_ne hle fun e => ?_
      obtain ⟨e1, e2⟩ := hdist i j p.1 p.2 hi hj hpn.1 hpn.2 hne e.symm
      have : pos[init + k0 - 1] = pos[q] := by rw [hp, hqe, e1, e2]
      have := (List.Nodup.getElem_inj_iff hpos.nodup).1 this
      omega
  set τ := |M p.1 p.2| with hτ
  have hτ0 : 0 ≤ τ := abs_nonneg _
  have hpat : ∀ i j, i < n → j < n → (zeroed M (pos.take (init + k0)) i j = 0 ↔ cut τ M i j = 0) := by
    intro i j hi hj
    have hc := cut_ne (M := M) (i := i) (j := j) hτ0
    unfold zeroed
    by_cases hm : (i, j) ∈ pos.take (init + k0)
    · rw [if_pos hm]
      refine ⟨fun _ => ?_, fun _ => rfl⟩
      by_contra hcon
      exact absurd (hc.1 hcon) (not_lt.2 ((htake i j hi hj).1 hm))
    · rw [if_neg hm]
      constructor
      · intro h0
        by_contra hcon
        have := hc.1 hcon
        rw [h0, abs_zero] at this
        exact absurd this (not_lt.2 hτ0)
      · intro h0
        by_contra hcon
        exact hc.2 ((htake i j hi hj).2 hm hcon) h0
  have hs' : searchOrder n (cut τ M) = some o := by rw [← searchOrder_pattern hpat]; exact hs
  refine ⟨τ, hτ0, hs', ⟨τ, hτ0, fun a b => Iff.rfl⟩, ?_, ?_, ?_⟩
  · intro l hl hE
    have h1 := edge_atMost hpos τ l hl hE
    have h2 : init + k0 ≤ pos.countP (fun p => decide (|M p.1 p.2| ≤ τ)) := by
      rw [List.countP_eq_length_filter]
      have : (pos.take (init + k0)).length ≤ (pos.filter (fun p => decide (|M p.1 p.2| ≤ τ))).length := by
        refine (List.subperm_of_subset (hpos.nodup.sublist (List.take_sublist _ _)) ?_).length_le
        intro q hq
        have hqm := List.mem_of_mem_take hq
        have hqn := (hpos.mem q.1 q.2).1 hqm
        exact List.mem_filter.2 ⟨hqm, by simpa using (htake q.1 q.2 hqn.1 hqn.2).1 hq⟩
      rw [List.length_take] at this
      have := hpos.len
      omega
    omega
  · rw [← edge_cut hτ0]
    exact (searchOrder_some hs').acyclic
  · intro τ' hτ' hfew hac a b hab
    refine ⟨hab.1, hab.2.1, ?_⟩
    by_contra hcon
    have hle := not_lt.1 hcon
    have hlt : τ' < τ := lt_of_lt_of_le hab.2.2 hle
    set k' := pos.countP (fun p => decide (|M p.1 p.2| ≤ τ')) with hk'
    have htk : pos.take k' = pos.filter (fun p => decide (|M p.1 p.2| ≤ τ')) := take_countP _ _ _ hpos.sorted
    -- the entries above `τ'` are few, so many are below
    have hbig : init ≤ k' := by
      have hc : (pos.filter (fun p => !decide (|M p.1 p.2| ≤ τ'))).length + k' = n * n := by
        have := List.length_eq_countP_add_countP (fun p : Nat × Nat => decide (|M p.1 p.2| ≤ τ')) (l := pos)
        rw [hpos.len] at this
        rw [← List.countP_eq_length_filter, this, hk']
        rw [add_comm]
        congr 1
        exact List.countP_congr fun p _ => by simp
      have := hfew ((pos.filter (fun p => !decide (|M p.1 p.2| ≤ τ'))).map Prod.swap)
        ((hpos.nodup.filter _).map Prod.swap_injective) (by
          intro q hq
          obtain ⟨r, hr, rfl⟩ := List.mem_map.1 hq
          obtain ⟨hr1, hr2⟩ := List.mem_filter.1 hr
          have := (hpos.mem r.1 r.2).1 hr1
          exact ⟨this.2, this.1, by simpa using hr2⟩)
      rw [List.length_map] at this
      omega
    have hsmall : k' < init + k0 := by
      by_contra hcon
      have hpt : p ∈ pos.take k' := by
        rw [List.mem_iff_getElem]
        exact ⟨init + k0 - 1, by rw [List.length_take]; omega, by rw [List.getElem_take]; exact hp⟩
      rw [htk] at hpt
      have := (List.mem_filter.1 hpt).2
      rw [decide_eq_true_eq] at this
      exact absurd hlt (not_lt.2 this)
    have hnone := hmin (k' - init) (by omega)
    rw [show init + (k' - init) = k' by omega, searchOrder_none] at hnone
    apply hnone
    rw [← edge_cut hτ'] at hac
    intro i hi
    refine hac i (Relation.TransGen.mono ?_ _ _ hi)
    rintro x y ⟨hx, hy, hw⟩
    refine ⟨hx, hy, abs_pos.2 ((cut_ne hτ').2 ?_)⟩
    have hw := abs_pos.1 hw
    unfold zeroed at hw
    split at hw
    · exact absurd rfl hw
    · rename_i hm
      rw [htk] at hm
      by_contra hcon
      exact hm (List.mem_filter.2 ⟨(hpos.mem y x).2 ⟨hy, hx⟩, by simpa using not_lt.1 hcon⟩)

/-! ### Reordered columns -/

theorem edge_reordered {n : Nat} {π : Nat → Nat} {M M' : Mat} (hlt : ∀ i, i < n → π i < n)
    (hM : ∀ i j, i < n → j < n → M' i j = M (π i) (π j)) {τ : ℚ} {a b : Nat} (ha : a < n) (hb : b < n) :
    Edge n M' τ a b ↔ Edge n M τ (π a) (π b) := by
  unfold Edge
  rw [hM b a hb ha]
  simp [ha, hb, hlt a ha, hlt b hb]

theorem strongest_reordered {n : Nat} {π : Nat → Nat} (hπ : ((List.range n).map π).Perm (List.range n)) {M M' : Mat}
    (hM : ∀ i j, i < n → j < n → M' i j = M (π i) (π j)) {G : Nat → Nat → Prop} (h : StrongestAcyclic n M G) :
    StrongestAcyclic n M' (fun a b => a < n ∧ b < n ∧ G (π a) (π b)) := by
  have hinj : ∀ i, i < n → ∀ j, j < n → π i = π j → i = j := fun i hi j hj e =>
    List.inj_on_of_nodup_map (hπ.nodup_iff.2 List.nodup_range) (List.mem_range.2 hi) (List.mem_range.2 hj) e
  have hlt : ∀ i, i < n → π i < n := fun i hi =>
    List.mem_range.1 (hπ.mem_iff.1 (List.mem_map.2 ⟨i, List.mem_range.2 hi, rfl⟩))
  have hsur : ∀ x, x < n → ∃ y, y < n ∧ π y = x := fun x hx => by
    obtain ⟨y, hy, e⟩ := List.mem_map.1 (hπ.mem_iff.2 (List.mem_range.2 hx))
    exact ⟨y, List.mem_range.1 hy, e⟩
  choose! ρ hρ1 hρ2 using hsur
  constructor
  · obtain ⟨τ, hτ, hG⟩ := h.threshold
    refine ⟨τ, hτ, fun a b => ?_⟩
    constructor
    · rintro ⟨ha, hb, hab⟩
      exact (edge_reordered hlt hM ha hb).2 ((hG _ _).1 hab)
    · intro hab
      exact ⟨hab.1, hab.2.1, (hG _ _).2 ((edge_reordered hlt hM hab.1 hab.2.1).1 hab)⟩
  · intro l hl hE
    have := h.few (l.map (fun p => (π p.1, π p.2))) (List.Nodup.map_on ?_ hl) ?_
    · simpa using this
    · intro p hp q hq e
      simp only [Prod.mk.injEq] at e
      have h1 := hE p hp
      have h2 := hE q hq
      exact Prod.ext (hinj _ h1.1 _ h2.1 e.1) (hinj _ h1.2.1 _ h2.2.1 e.2)
    · intro p hp
      obtain ⟨q, hq, rfl⟩ := List.mem_map.1 hp
      exact (hE q hq).2.2
  · intro i hi
    exact h.acyclic (π i) (Relation.TransGen.lift π (fun a b h => h.2.2) _ _ hi)
  · intro τ hτ hfew hac a b hab
    refine ⟨hab.1, hab.2.1, h.largest τ hτ ?_ ?_ _ _ ((edge_reordered hlt hM hab.1 hab.2.1).1 hab)⟩
    · intro l hl hE
      have := hfew (l.map (fun p => (ρ p.1, ρ p.2))) (List.Nodup.map_on ?_ hl) ?_
      · simpa using this
      · intro p hp q hq e
        simp only [Prod.mk.injEq] at e
        have h1 := hE p hp
        have h2 := hE q hq
        refine Prod.ext ?_ ?_
        · rw [← hρ2 _ h1.1, ← hρ2 _ h2.1, e.1]
        · rw [← hρ2 _ h1.2.1, ← hρ2 _ h2.2.1, e.2]
      · intro p hp
        obtain ⟨q, hq, rfl⟩ := List.mem_map.1 hp
        have h1 := hE q hq
        rw [edge_reordered hlt hM (hρ1 _ h1.1) (hρ1 _ h1.2.1), hρ2 _ h1.1, hρ2 _ h1.2.1]
        exact h1
    · intro i hi
      refine hac (ρ i) (Relation.TransGen.lift ρ (fun a b h => ?_) _ _ hi)
      show Edge n M' τ (ρ a) (ρ b)
      rw [edge_reordered hlt hM (hρ1 _ h.1) (hρ1 _ h.2.1), hρ2 _ h.1, hρ2 _ h.2.1]
      exact h

/-- `C` holds the coefficients that belong to the unmixing matrix `W`: components and variables are matched in the best way, and
the equation of each component is solved for its variable. -/
def Coefficients (n : Nat) (W C : Mat) : Prop :=
  ∃ c, Best n W c ∧ ∀ i j, i < n → j < n → C (c.getD i 0) j = (if c.getD i 0 = j then 1 else 0) - W i j / W i (c.getD i 0)

theorem coefficients_run {asg : Assign} {n : Nat} {W : Mat} {c : List Nat} (h : asg.run n W = some c) :
    Coefficients n W (bEstimate (permuteRows n c W)) := by
  have hc := asg.perm _ _ _ h
  refine ⟨c, ⟨hc, asg.finite _ _ _ h, asg.minimal _ _ _ h⟩, fun i j hi _ => ?_⟩
  unfold bEstimate
  rw [permuteRows_apply hc hi, permuteRows_apply hc hi]

theorem coefficients_unique {n : Nat} {W C C' : Mat} (huniq : ∀ c c', Best n W c → Best n W c' → c = c')
    (h : Coefficients n W C) (h' : Coefficients n W C') {i j : Nat} (hi : i < n) (hj : j < n) : C i j = C' i j := by
  obtain ⟨c, hc, h1⟩ := h
  obtain ⟨c', hc', h2⟩ := h'
  obtain rfl := huniq c c' hc hc'
  obtain ⟨k, hk, rfl⟩ := exists_row hc.1 hi
  rw [h1 k j hk hj, h2 k j hk hj]

/-- Best matchings and coefficients after the columns are reordered. -/
theorem best_reordered {n : Nat} {π : Nat → Nat} (hπ : ((List.range n).map π).Perm (List.range n)) {W W' : Mat}
    (hW : ∀ i j, i < n → j < n → W' i j = W i (π j)) {c' : List Nat} (h : Best n W' c') : Best n W (c'.map π) := by
  have hinj : ∀ i, i < n → ∀ j, j < n → π i = π j → i = j := fun i hi j hj e =>
    List.inj_on_of_nodup_map (hπ.nodup_iff.2 List.nodup_range) (List.mem_range.2 hi) (List.mem_range.2 hj) e
  have hlt : ∀ i, i < n → π i < n := fun i hi =>
    List.mem_range.1 (hπ.mem_iff.1 (List.mem_map.2 ⟨i, List.mem_range.2 hi, rfl⟩))
  have hsur : ∀ x, x < n → ∃ y, y < n ∧ π y = x := fun x hx => by
    obtain ⟨y, hy, e⟩ := List.mem_map.1 (hπ.mem_iff.2 (List.mem_range.2 hx))
    exact ⟨y, List.mem_range.1 hy, e⟩
  choose! ρ hρ1 hρ2 using hsur
  have hord : ∀ l, IsOrder n l → IsOrder n (l.map π) := fun l hl =>
    IsOrder.perm.2 (((IsOrder.perm.1 hl).map π).trans hπ)
  have hρo : ∀ l, IsOrder n l → IsOrder n (l.map ρ) := by
    intro l hl
    refine ⟨List.Nodup.map_on ?_ hl.1, fun x => ?_⟩
    · intro a ha b hb e
      rw [← hρ2 a ((hl.2 a).1 ha), ← hρ2 b ((hl.2 b).1 hb), e]
    · constructor
      · intro hx
        obtain ⟨a, ha, rfl⟩ := List.mem_map.1 hx
        exact hρ1 a ((hl.2 a).1 ha)
      · intro hx
        refine List.mem_map.2 ⟨π x, (hl.2 _).2 (hlt x hx), ?_⟩
        exact hinj _ (hρ1 _ (hlt x hx)) _ hx (hρ2 _ (hlt x hx))
  have hget : ∀ (f : Nat → Nat) l, IsOrder n l → ∀ i, i < n → (l.map f).getD i 0 = f (l.getD i 0) := by
    intro f l hl i hi
    have := order_length hl
    rw [List.getD_eq_getElem?_getD, List.getD_eq_getElem?_getD, List.getElem?_map, List.getElem?_eq_getElem (by omega)]
    rfl
  obtain ⟨h1, h2, h3⟩ := h
  have hval : ∀ l, IsOrder n l → ∀ i, i < n → W i ((l.map π).getD i 0) = W' i (l.getD i 0) := by
    intro l hl i hi
    rw [hget π l hl i hi, hW i _ hi (idxOf_getD hl hi)]
  refine ⟨hord _ h1, fun i hi => by rw [hval _ h1 i hi]; exact h2 i hi, fun d hd hf => ?_⟩
  have hdρ : ∀ i, i < n → W' i ((d.map ρ).getD i 0) = W i (d.getD i 0) := by
    intro i hi
    have := idxOf_getD hd hi
    rw [hget ρ d hd i hi, hW i _ hi (hρ1 _ this), hρ2 _ this]
  have := h3 (d.map ρ) (hρo d hd) (fun i hi => by rw [hdρ i hi]; exact hf i hi)
  refine le_trans (le_of_eq ?_) (le_trans this (le_of_eq ?_))
  · congr 1
    exact List.map_congr_left fun i hi => by rw [hval _ h1 i (List.mem_range.1 hi)]
  · congr 1
    exact List.map_congr_left fun i hi => by rw [hdρ i (List.mem_range.1 hi)]

theorem coefficients_reordered {n : Nat} {π : Nat → Nat} (hπ : ((List.range n).map π).Perm (List.range n)) {W W' : Mat}
    (hW : ∀ i j, i < n → j < n → W' i j = W i (π j)) (huniq : ∀ c c', Best n W c → Best n W c' → c = c') {C C' : Mat}
    (h : Coefficients n W C) (h' : Coefficients n W' C') {i j : Nat} (hi : i < n) (hj : j < n) : C' i j = C (π i) (π j) := by
  have hinj : ∀ i, i < n → ∀ j, j < n → π i = π j → i = j := fun i hi j hj e =>
    List.inj_on_of_nodup_map (hπ.nodup_iff.2 List.nodup_range) (List.mem_range.2 hi) (List.mem_range.2 hj) e
  have hlt : ∀ i, i < n → π i < n := fun i hi =>
    List.mem_range.1 (hπ.mem_iff.1 (List.mem_map.2 ⟨i, List.mem_range.2 hi, rfl⟩))
  obtain ⟨c, hc, h1⟩ := h
  obtain ⟨c', hc', h2⟩ := h'
  obtain rfl := huniq _ _ hc (best_reordered hπ hW hc')
  obtain ⟨k, hk, rfl⟩ := exists_row hc'.1 hi
  have hg : (c'.map π).getD k 0 = π (c'.getD k 0) := by
    have := order_length hc'.1
    rw [List.getD_eq_getElem?_getD, List.getD_eq_getElem?_getD, List.getElem?_map, List.getElem?_eq_getElem (by omega)]
    rfl
  have := h1 k (π j) hk (hlt j hj)
  rw [hg] at this
  rw [this, h2 k j hk hj, hW k j hk hj, hW k _ hk hi]
  congr 1
  by_cases e : c'.getD k 0 = j
  · rw [if_pos e, if_pos (by rw [e])]
  · rw [if_neg e, if_neg fun h => e (hinj _ hi _ hj h)]

theorem fit_cases {as : Boot.Argsort} {asg : Assign} {lasso : Direct.Lasso ℚ} {n : Nat} (hn : 2 ≤ n) {W : Mat} :
    (fit as asg lasso n W = .error .infeasible ∧ ¬ ∃ c, Best n W c) ∨
    ∃ C o, Coefficients n W C ∧ estimateOrder as n C = some o ∧ fit as asg lasso n W = .ok (o, Direct.estimateAdj none lasso o) := by
  unfold fit
  cases h : asg.run n W with
  | none =>
    left
    refine ⟨rfl, ?_⟩
    rintro ⟨c, hc⟩
    obtain ⟨c', h'⟩ := asg.feasible n W c hc.1 hc.2.1
    rw [h] at h'
    cases h'
  | some c =>
    right
    obtain ⟨_, _, o, _, ho, _⟩ := C24_finds_order as hn (M := bEstimate (permuteRows n c W)) fun i hi => bEstimate_diag h hi
    exact ⟨_, o, coefficients_run h, ho, by simp only [ho]⟩

/-- **C217, the graph behind the order.** If no two coefficients are equally strong, the order that ICA-LiNGAM returns lists causes
before effects in the strongest acyclic graph of the coefficients: the graph of the entries above a threshold, at most
`n (n - 1) / 2` of them, without a cycle, with the lowest such threshold. -/
theorem C217_graph (as : Boot.Argsort) (asg : Assign) (lasso : Direct.Lasso ℚ) {n : Nat} (hn : 2 ≤ n) {W B : Mat} {o : List Nat}
    (hdist : ∀ C, Coefficients n W C → DistinctEntries n C) (h : fit as asg lasso n W = .ok (o, B)) :
    ∃ C G, Coefficients n W C ∧ StrongestAcyclic n C G ∧ OrderOf n G o := by
  rcases fit_cases (as := as) (asg := asg) (lasso := lasso) hn (W := W) with ⟨h', _⟩ | ⟨C, o', hC, ho, h'⟩
  · rw [h] at h'; cases h'
  · rw [h] at h'
    simp only [Except.ok.injEq, Prod.mk.injEq] at h'
    obtain ⟨rfl, rfl⟩ := h'
    obtain ⟨τ, hτ, hs, hG⟩ := estimateOrder_cut as hn (hdist C hC) ho
    have hcons := searchOrder_some hs
    refine ⟨C, _, hC, hG, hcons.1, fun a b hab => ?_⟩
    exact hcons.2 b a hab.2.1 hab.1 ((cut_ne hτ).2 hab.2.2)

/-- The regressions for reordered columns. -/
def reorderedLasso (π : Nat → Nat) (lasso : Direct.Lasso ℚ) : Direct.Lasso ℚ := fun ps t p => lasso (ps.map π) (π t) (π p)

theorem orderOf_map {n : Nat} {π : Nat → Nat} (hπ : ((List.range n).map π).Perm (List.range n)) {G : Nat → Nat → Prop}
    (hGn : ∀ a b, G a b → a < n ∧ b < n) {l : List Nat}
    (h : OrderOf n (fun a b => a < n ∧ b < n ∧ G (π a) (π b)) l) : OrderOf n G (l.map π) := by
  refine ⟨IsOrder.perm.2 (((IsOrder.perm.1 h.1).map π).trans hπ), fun a b hab => ?_⟩
  have hsur : ∀ x, x < n → ∃ y, y < n ∧ π y = x := fun x hx => by
    obtain ⟨y, hy, e⟩ := List.mem_map.1 (hπ.mem_iff.2 (List.mem_range.2 hx))
    exact ⟨y, List.mem_range.1 hy, e⟩
  obtain ⟨x, hx, rfl⟩ := hsur a (hGn _ _ hab).1
  obtain ⟨y, hy, rfl⟩ := hsur b (hGn _ _ hab).2
  obtain ⟨u, v, w, e⟩ := h.2 x y ⟨hx, hy, hab⟩
  exact ⟨u.map π, v.map π, w.map π, by rw [e]; simp⟩

/-- **C217, same graph.** Put the columns of the data in another order `π` (FastICA then returns the components with their entries
reordered, in any order and with any signs).  `fit` fails in the same cases, and the two orders, read as orders of the variables,
are orders of the same graph. -/
theorem C217_same_graph (as : Boot.Argsort) (asg : Assign) (lasso : Direct.Lasso ℚ) {n : Nat} (hn : 2 ≤ n) {π : Nat → Nat}
    (hπ : ((List.range n).map π).Perm (List.range n)) {W W' : Mat} {σ : List Nat} {s : Nat → ℚ} (hσ : IsOrder n σ)
    (hs : ∀ i, i < n → |s i| = 1) (hW : ∀ i j, i < n → j < n → W' i j = s i * W (σ.getD i 0) (π j))
    (huniq : ∀ c c', Best n W c → Best n W c' → c = c') (hdist : ∀ C, Coefficients n W C → DistinctEntries n C) :
    (∀ e, fit as asg lasso n W = .error e → fit as asg (reorderedLasso π lasso) n W' = .error e) ∧
    ∀ o B, fit as asg lasso n W = .ok (o, B) → ∃ o' C G, fit as asg (reorderedLasso π lasso) n W' =
        .ok (o', Direct.estimateAdj none (reorderedLasso π lasso) o') ∧
      Coefficients n W C ∧ StrongestAcyclic n C G ∧ OrderOf n G o ∧ OrderOf n G (o'.map π) := by
  have hinj : ∀ i, i < n → ∀ j, j < n → π i = π j → i = j := fun i hi j hj e =>
    List.inj_on_of_nodup_map (hπ.nodup_iff.2 List.nodup_range) (List.mem_range.2 hi) (List.mem_range.2 hj) e
  have hlt : ∀ i, i < n → π i < n := fun i hi =>
    List.mem_range.1 (hπ.mem_iff.1 (List.mem_map.2 ⟨i, List.mem_range.2 hi, rfl⟩))
  -- the components in their old order
  have hW2 : ∀ i j, i < n → j < n → (fun i j => W i (π j)) i j = W i (π j) := fun i j _ _ => rfl
  have huniq2 : ∀ c c', Best n (fun i j => W i (π j)) c → Best n (fun i j => W i (π j)) c' → c = c' := by
    intro c c' hc hc'
    have := huniq _ _ (best_reordered hπ hW2 hc) (best_reordered hπ hW2 hc')
    have key : ∀ l l' : List Nat, (∀ x ∈ l, x < n) → (∀ x ∈ l', x < n) → l.map π = l'.map π → l = l' := by
      intro l
      induction l with
      | nil => intro l' _ _ e; cases l' with | nil => rfl | cons _ _ => simp at e
      | cons a l ih =>
        intro l' hl hl' e
        cases l' with
        | nil => simp at e
        | cons b l' =>
          simp only [List.map_cons, List.cons.injEq] at e
          rw [hinj a (hl a (by simp)) b (hl' b (by simp)) e.1, ih l' (fun x hx => hl x (by simp [hx])) (fun x hx => hl' x (by simp [hx])) e.2]
    exact key c c' (fun x hx => (hc.1.2 x).1 hx) (fun x hx => (hc'.1.2 x).1 hx) this
  have hsame := C192_components as asg (reorderedLasso π lasso) (W := fun i j => W i (π j)) hσ hs hW huniq2
  rw [hsame]
  rcases fit_cases (as := as) (asg := asg) (lasso := lasso) hn (W := W) with ⟨h1, hno⟩ | ⟨C, o, hC, ho, h1⟩
  · refine ⟨fun e h => ?_, fun o B h => by rw [h1] at h; cases h⟩
    rw [h1] at h
    cases h
    rcases fit_cases (as := as) (asg := asg) (lasso := reorderedLasso π lasso) hn (W := fun i j => W i (π j)) with ⟨h2, _⟩ | ⟨C, _, ⟨c, hc, _⟩, _, _⟩
    · exact h2
    · exact absurd ⟨_, best_reordered hπ hW2 hc⟩ hno
  · refine ⟨fun e h => (by rw [h1] at h; cases h), fun o2 B h => ?_⟩
    rw [h1] at h
    simp only [Except.ok.injEq, Prod.mk.injEq] at h
    obtain ⟨rfl, rfl⟩ := h
    obtain ⟨τ, hτ, hs, hG⟩ := estimateOrder_cut as hn (hdist C hC) ho
    have hcons := searchOrder_some hs
    rcases fit_cases (as := as) (asg := asg) (lasso := reorderedLasso π lasso) hn (W := fun i j => W i (π j)) with ⟨_, h2⟩ | ⟨C', o', hC', ho', h2⟩
    · exfalso
      obtain ⟨c, hc, _⟩ := hC
      -- a best matching for the reordered columns exists
      have hsur : ∀ x, x < n → ∃ y, y < n ∧ π y = x := fun x hx => by
        obtain ⟨y, hy, e⟩ := List.mem_map.1 (hπ.mem_iff.2 (List.mem_range.2 hx))
        exact ⟨y, List.mem_range.1 hy, e⟩
      choose! ρ hρ1 hρ2 using hsur
      have hρ : ((List.range n).map ρ).Perm (List.range n) := by
        refine IsOrder.perm.1 ⟨List.Nodup.map_on ?_ List.nodup_range, fun x => ?_⟩
        · intro a ha b hb e
          rw [← hρ2 a (List.mem_range.1 ha), ← hρ2 b (List.mem_range.1 hb), e]
        · constructor
          · intro hx
            obtain ⟨a, ha, rfl⟩ := List.mem_map.1 hx
            exact hρ1 a (List.mem_range.1 ha)
          · intro hx
            exact List.mem_map.2 ⟨π x, List.mem_range.2 (hlt x hx), hinj _ (hρ1 _ (hlt x hx)) _ hx (hρ2 _ (hlt x hx))⟩
      exact h2 ⟨_, best_reordered hρ (W := fun i j => W i (π j)) (W' := W) (fun i j _ hj => by simp only [hρ2 j hj]) hc⟩
    · have hCC : ∀ i j, i < n → j < n → C' i j = C (π i) (π j) := fun i j hi hj =>
        coefficients_reordered hπ hW2 huniq hC hC' hi hj
      have hd' : DistinctEntries n C' := by
        intro i j k l hi hj hk hl hne e
        rw [hCC i j hi hj] at hne e
        rw [hCC k l hk hl] at e
        obtain ⟨e1, e2⟩ := hdist C hC _ _ _ _ (hlt i hi) (hlt j hj) (hlt k hk) (hlt l hl) hne e
        exact ⟨hinj _ hi _ hk e1, hinj _ hj _ hl e2⟩
      obtain ⟨τ', hτ', hs', hG'⟩ := estimateOrder_cut as hn hd' ho'
      have hcons' := searchOrder_some hs'
      have hstr := strongest_reordered hπ hCC hG
      refine ⟨o', C, _, h2, hC, hG, ⟨hcons.1, fun a b hab => hcons.2 b a hab.2.1 hab.1 ((cut_ne hτ).2 hab.2.2)⟩, ?_⟩
      refine orderOf_map hπ (fun a b h => ⟨h.1, h.2.1⟩) ⟨hcons'.1, fun a b hab => ?_⟩
      have := (hG'.unique hstr a b).2 hab
      exact hcons'.2 b a this.2.1 this.1 ((cut_ne hτ').2 this.2.2)

/-- **C217, columns.** If moreover that graph has only one order, the columns may come in any order: the order of the variables and
all coefficients are the same. -/
theorem C217_columns_partial (as : Boot.Argsort) (asg : Assign) (lasso : Direct.Lasso ℚ) {n : Nat} (hn : 2 ≤ n) {π : Nat → Nat}
    (hπ : ((List.range n).map π).Perm (List.range n)) {W W' : Mat} {σ : List Nat} {s : Nat → ℚ} (hσ : IsOrder n σ)
    (hs : ∀ i, i < n → |s i| = 1) (hW : ∀ i j, i < n → j < n → W' i j = s i * W (σ.getD i 0) (π j))
    (huniq : ∀ c c', Best n W c → Best n W c' → c = c') (hdist : ∀ C, Coefficients n W C → DistinctEntries n C)
    (hone : ∀ C G, Coefficients n W C → StrongestAcyclic n C G → ∀ l l', OrderOf n G l → OrderOf n G l' → l = l')
    {o : List Nat} {B : Mat} (h : fit as asg lasso n W = .ok (o, B)) :
    ∃ o' B', fit as asg (reorderedLasso π lasso) n W' = .ok (o', B') ∧ o'.map π = o ∧
      ∀ i j, i < n → j < n → B' i j = B (π i) (π j) := by
  obtain ⟨o', C, G, h1, hC, hG, h2, h3⟩ := (C217_same_graph as asg lasso hn hπ hσ hs hW huniq hdist).2 o B h
  obtain rfl := hone C G hC hG _ _ h2 h3
  refine ⟨o', _, h1, rfl, fun i j hi hj => ?_⟩
  have hinj : ∀ i, i < n → ∀ j, j < n → π i = π j → i = j := fun i hi j hj e =>
    List.inj_on_of_nodup_map (hπ.nodup_iff.2 List.nodup_range) (List.mem_range.2 hi) (List.mem_range.2 hj) e
  have ho' : IsOrder n o' := by
    rcases fit_cases (as := as) (asg := asg) (lasso := reorderedLasso π lasso) hn (W := W') with ⟨h', _⟩ | ⟨C2, o2, hC2, ho2, h'⟩
    · rw [h1] at h'; cases h'
    · rw [h1] at h'
      simp only [Except.ok.injEq, Prod.mk.injEq] at h'
      obtain ⟨rfl, _⟩ := h'
      unfold estimateOrder at ho2
      obtain ⟨k, _, hk, _⟩ := pruneLoop_search ho2
      exact (searchOrder_some hk).1
  have hB : B = Direct.estimateAdj none lasso (o'.map π) := by
    rcases fit_cases (as := as) (asg := asg) (lasso := lasso) hn (W := W) with ⟨h', _⟩ | ⟨C2, o2, hC2, ho2, h'⟩
    · rw [h] at h'; cases h'
    · rw [h] at h'
      simp only [Except.ok.injEq, Prod.mk.injEq] at h'
      obtain ⟨rfl, rfl⟩ := h'
      rfl
  rw [hB]
  exact GroupData.estimateAdj_reordered (pk := none) (o := o') (fun a ha b hb => hinj a ((ho'.2 a).1 ha) b ((ho'.2 b).1 hb))
    (fun ps t p _ _ _ => rfl) ((ho'.2 i).2 hi) ((ho'.2 j).2 hj)

/-- A graph that relates every two variables has only one order. -/
theorem C217_complete {n : Nat} {G : Nat → Nat → Prop} (hG : ∀ a b, a < n → b < n → a ≠ b → G a b ∨ G b a) {l l' : List Nat}
    (h : OrderOf n G l) (h' : OrderOf n G l') : l = l' := by
  refine order_eq h.1 h'.1 fun a b hab => ?_
  have hab2 := hab
  obtain ⟨x, y, z, e⟩ := hab2
  have ha : a < n := (h.1.2 a).1 (by rw [e]; simp)
  have hb : b < n := (h.1.2 b).1 (by rw [e]; simp)
  have hne : a ≠ b := fun e => Before.irrefl h.1.1 b (e ▸ hab)
  rcases hG a b ha hb hne with h1 | h1
  · exact h'.2 a b h1
  · have h2 := idxOf_lt_of_before h.1.1 (h.2 b a h1)
    have h3 := idxOf_lt_of_before h.1.1 hab
    omega

/-! ### The order of the columns decides -/

theorem order_of_strongest (as : Boot.Argsort) {n : Nat} (hn : 2 ≤ n) {M P : Mat} (hdist : DistinctEntries n M) {o : List Nat}
    (h : estimateOrder as n M = some o) {G : Nat → Nat → Prop} (hG : StrongestAcyclic n M G)
    (hP : ∀ i j, i < n → j < n → (P i j ≠ 0 ↔ G j i)) : searchOrder n P = some o := by
  obtain ⟨τ, hτ, hs, hG'⟩ := estimateOrder_cut as hn hdist h
  rw [← hs]
  refine searchOrder_pattern fun i j hi hj => ?_
  rw [← not_iff_not]
  refine (hP i j hi hj).trans ((hG.unique hG' j i).trans ?_)
  rw [← ne_eq, cut_ne hτ]
  exact ⟨fun h => h.2.2, fun h => ⟨hj, hi, h⟩⟩

/-- Coefficients with a strong cycle between 0 and 1. -/
def openM : Mat := fun i j =>
  if i = 0 ∧ j = 1 then 6 / 10 else if i = 1 ∧ j = 0 then 5 / 10 else if i = 0 ∧ j = 2 then 4 / 10
  else if i = 1 ∧ j = 2 then 3 / 10 else if i = 2 ∧ j = 0 then 2 / 10 else if i = 2 ∧ j = 1 then 1 / 10 else 0

/-- Their unmixing matrix. -/
def openW : Mat := fun i j => (if i = j then 1 else 0) - openM i j

/-- Columns 1 and 2 swapped. -/
def swap12 : Nat → Nat := fun i => if i = 1 then 2 else if i = 2 then 1 else i

theorem swap12_perm : ((List.range 3).map swap12).Perm (List.range 3) := by decide

theorem openW_best {c : List Nat} (h : Best 3 openW c) : c = [0, 1, 2] := by
  obtain ⟨hc, hf, hmin⟩ := h
  have hid : IsOrder 3 [0, 1, 2] := ⟨by decide, by intro i; simp; omega⟩
  have hle := hmin [0, 1, 2] hid (by intro i hi; interval_cases i <;> decide +kernel)
  have hl := order_length hc
  have hlt : ∀ i, i < 3 → c.getD i 0 < 3 := fun i hi => idxOf_getD hc hi
  have hcost : ∀ i, i < 3 → 1 ≤ 1 / |openW i (c.getD i 0)| ∧ (c.getD i 0 ≠ i → 1 < 1 / |openW i (c.getD i 0)|) := by
    intro i hi
    have := hlt i hi
    generalize c.getD i 0 = j at *
    interval_cases i <;> interval_cases j <;> (refine ⟨?_, ?_⟩) <;> decide +kernel
  have e2 : ((List.range 3).map (fun i => 1 / |openW i (([0, 1, 2] : List Nat).getD i 0)|)).sum = 3 := by decide +kernel
  rw [e2] at hle
  have e1 : ((List.range 3).map (fun i => 1 / |openW i (c.getD i 0)|)).sum =
      1 / |openW 0 (c.getD 0 0)| + 1 / |openW 1 (c.getD 1 0)| + 1 / |openW 2 (c.getD 2 0)| := by
    simp only [show List.range 3 = [0, 1, 2] from rfl, List.map_cons, List.map_nil, List.sum_cons, List.sum_nil]
    ring
  rw [e1] at hle
  have h0 := hcost 0 (by norm_num)
  have h1 := hcost 1 (by norm_num)
  have h2 := hcost 2 (by norm_num)
  have g0 : c.getD 0 0 = 0 := by
    by_contra hne
    have := h0.2 hne
    linarith [h1.1, h2.1]
  have g1 : c.getD 1 0 = 1 := by
    by_contra hne
    have := h1.2 hne
    linarith [h0.1, h2.1]
  have g2 : c.getD 2 0 = 2 := by
    by_contra hne
    have := h2.2 hne
    linarith [h0.1, h1.1]
  obtain ⟨a, b, d, rfl⟩ := List.length_eq_three.1 hl
  simp only [List.getD_cons_zero, List.getD_cons_succ] at g0 g1 g2
  rw [g0, g1, g2]

theorem openW_coefficients {C : Mat} (h : Coefficients 3 openW C) {i j : Nat} (hi : i < 3) (hj : j < 3) : C i j = openM i j := by
  obtain ⟨c, hc, hC⟩ := h
  obtain rfl := openW_best hc
  have := hC i j hi hj
  interval_cases i <;> interval_cases j <;> (refine Eq.trans this ?_) <;> decide +kernel

theorem openM_distinct {C : Mat} (hC : ∀ i j, i < 3 → j < 3 → C i j = openM i j) : DistinctEntries 3 C := by
  intro i j k l hi hj hk hl hne he
  rw [hC i j hi hj] at hne he
  rw [hC k l hk hl] at he
  have key : ∀ i j k l : Fin 3, openM i j = 0 ∨ |openM i j| ≠ |openM k l| ∨ (i = k ∧ j = l) := by
    decide +kernel
  rcases key ⟨i, hi⟩ ⟨j, hj⟩ ⟨k, hk⟩ ⟨l, hl⟩ with h | h | h
  · exact absurd h hne
  · exact absurd he h
  · exact ⟨Fin.mk.inj h.1, Fin.mk.inj h.2⟩

theorem openM_strongest {C : Mat} (hC : ∀ i j, i < 3 → j < 3 → C i j = openM i j) : StrongestAcyclic 3 C (fun a b => a = 1 ∧ b = 0) := by
  constructor
  · refine ⟨1 / 2, by norm_num, fun a b => ?_⟩
    constructor
    · rintro ⟨rfl, rfl⟩
      refine ⟨by norm_num, by norm_num, ?_⟩
      rw [hC 0 1 (by norm_num) (by norm_num)]
      decide +kernel
    · rintro ⟨ha, hb, hw⟩
      rw [hC b a hb ha] at hw
      revert hw
      have key : ∀ a < 3, ∀ b < 3, (1 / 2 : ℚ) < |openM b a| → a = 1 ∧ b = 0 := by decide +kernel
      exact key a ha b hb
  · intro l hl hE
    have : l ⊆ [(1, 0)] := fun p hp => by
      obtain ⟨h1, h2⟩ := hE p hp
      exact List.mem_singleton.2 (Prod.ext h1 h2)
    have := (List.subperm_of_subset hl this).length_le
    simp only [List.length_singleton] at this
    omega
  · refine acyclic_of_before (l := [1, 0]) (by decide) ?_
    rintro a b ⟨rfl, rfl⟩
    exact ⟨[], [], [], rfl⟩
  · rintro τ hτ _ hac a b ⟨ha, hb, hw⟩
    have h5 : (5 / 10 : ℚ) ≤ τ := by
      by_contra hcon
      push Not at hcon
      refine hac 0 (.tail (.single (b := 1) ⟨by norm_num, by norm_num, ?_⟩) ⟨by norm_num, by norm_num, ?_⟩)
      · rw [hC 1 0 (by norm_num) (by norm_num), show |openM 1 0| = 5 / 10 by decide +kernel]
        exact hcon
      · rw [hC 0 1 (by norm_num) (by norm_num), show |openM 0 1| = 6 / 10 by decide +kernel]
        linarith
    rw [hC b a hb ha] at hw
    have key : ∀ a < 3, ∀ b < 3, (5 / 10 : ℚ) < |openM b a| → a = 1 ∧ b = 0 := by decide +kernel
    exact key a ha b hb (lt_of_le_of_lt h5 hw)

/-- **C217, violated.** Swapping two columns of the data reverses the order of two variables: variable 0 comes before variable 2 with
the columns in one order, and after it in the other, although the coefficients are all different and have one best matching. -/
theorem C217_violated (as : Boot.Argsort) (asg : Assign) (lasso : Direct.Lasso ℚ) :
    (∀ c c', Best 3 openW c → Best 3 openW c' → c = c') ∧ (∀ C, Coefficients 3 openW C → DistinctEntries 3 C) ∧
    ∃ o B o' B', fit as asg lasso 3 openW = .ok (o, B) ∧
      fit as asg (reorderedLasso swap12 lasso) 3 (fun i j => openW i (swap12 j)) = .ok (o', B') ∧
      o = [1, 0, 2] ∧ o'.map swap12 = [2, 1, 0] := by
  have huniq : ∀ c c', Best 3 openW c → Best 3 openW c' → c = c' := fun c c' h h' => by rw [openW_best h, openW_best h']
  refine ⟨huniq, fun C hC => openM_distinct fun i j hi hj => openW_coefficients hC hi hj, ?_⟩
  have hid : IsOrder 3 [0, 1, 2] := ⟨by decide, by intro i; simp; omega⟩
  have hW2 : ∀ i j, i < 3 → j < 3 → (fun i j => openW i (swap12 j)) i j = openW i (swap12 j) := fun i j _ _ => rfl
  rcases fit_cases (as := as) (asg := asg) (lasso := lasso) (by norm_num : 2 ≤ 3) (W := openW) with ⟨h1, _⟩ | ⟨C, o, hC, ho, h1⟩
  · exfalso
    obtain ⟨i, hi, h0⟩ := (C24_infeasible_iff as asg lasso 3 openW).1 h1 _ hid
    revert h0
    interval_cases i <;> decide +kernel
  rcases fit_cases (as := as) (asg := asg) (lasso := reorderedLasso swap12 lasso) (by norm_num : 2 ≤ 3)
    (W := fun i j => openW i (swap12 j)) with ⟨h2, _⟩ | ⟨C', o', hC', ho', h2⟩
  · exfalso
    obtain ⟨i, hi, h0⟩ := (C24_infeasible_iff as asg _ 3 _).1 h2 [0, 2, 1] ⟨by decide, by intro i; simp; omega⟩
    revert h0
    interval_cases i <;> decide +kernel
  refine ⟨o, _, o', _, h1, h2, ?_, ?_⟩
  · have hCM := fun i j (hi : i < 3) (hj : j < 3) => openW_coefficients hC hi hj
    have := order_of_strongest as (by norm_num) (openM_distinct hCM) ho (openM_strongest hCM)
      (P := fun i j => if i = 0 ∧ j = 1 then 1 else 0) (by intro i j _ _; simp [and_comm])
    rw [show searchOrder 3 (fun i j => if i = 0 ∧ j = 1 then 1 else 0) = some [1, 0, 2] by unfold searchOrder; decide +kernel] at this
    exact (Option.some.inj this).symm
  · have hCM := fun i j (hi : i < 3) (hj : j < 3) => openW_coefficients hC hi hj
    have hCC : ∀ i j, i < 3 → j < 3 → C' i j = C (swap12 i) (swap12 j) := fun i j hi hj =>
      coefficients_reordered swap12_perm hW2 huniq hC hC' hi hj
    have hlt : ∀ i, i < 3 → swap12 i < 3 := by decide
    have hinj : ∀ i < 3, ∀ j < 3, swap12 i = swap12 j → i = j := by decide
    have hd' : DistinctEntries 3 C' := by
      intro i j k l hi hj hk hl hne e
      rw [hCC i j hi hj] at hne e
      rw [hCC k l hk hl] at e
      obtain ⟨e1, e2⟩ := openM_distinct hCM _ _ _ _ (hlt i hi) (hlt j hj) (hlt k hk) (hlt l hl) hne e
      exact ⟨hinj _ hi _ hk e1, hinj _ hj _ hl e2⟩
    have := order_of_strongest as (by norm_num) hd' ho' (strongest_reordered swap12_perm hCC (openM_strongest hCM))
      (P := fun i j => if i = 0 ∧ j = 2 then 1 else 0) (by
        intro i j hi hj
        interval_cases i <;> interval_cases j <;> simp [swap12])
    rw [show searchOrder 3 (fun i j => if i = 0 ∧ j = 2 then 1 else 0) = some [1, 2, 0] by unfold searchOrder; decide +kernel] at this
    rw [← Option.some.inj this]
    decide

/-! ### Concrete cases -/

/-- The two orders of `C217_violated` put 0 and 2 in different order. -/
example : Before [1, 0, 2] 0 2 ∧ Before [2, 1, 0] 2 0 := ⟨⟨[1], [], [], rfl⟩, ⟨[], [1], [], rfl⟩⟩

/-- The hypotheses of `C217_graph` and `C217_same_graph` hold for `openW`. -/
example : (∀ c c', Best 3 openW c → Best 3 openW c' → c = c') ∧ ∀ C, Coefficients 3 openW C → DistinctEntries 3 C :=
  ⟨fun c c' h h' => by rw [openW_best h, openW_best h'], fun C hC => openM_distinct fun i j hi hj => openW_coefficients hC hi hj⟩

/-- A graph with one order: the three pairs `0 → 1`, `0 → 2`, `1 → 2`. -/
example : OrderOf 3 (fun a b => a < b ∧ b < 3) [0, 1, 2] ∧ ∀ l, OrderOf 3 (fun a b => a < b ∧ b < 3) l → l = [0, 1, 2] := by
  have h : OrderOf 3 (fun a b => a < b ∧ b < 3) [0, 1, 2] := by
    refine ⟨⟨by decide, by intro i; simp; omega⟩, fun a b ⟨h1, h2⟩ => ?_⟩
    interval_cases b <;> interval_cases a
    · exact ⟨[], [], [2], rfl⟩
    · exact ⟨[], [1], [], rfl⟩
    · exact ⟨[0], [], [], rfl⟩
  exact ⟨h, fun l hl => C217_complete (fun a b ha hb hne => by omega) hl h⟩

end Verif.Ica
