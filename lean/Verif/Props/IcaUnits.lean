import Verif.Props.Ica
import Mathlib.Algebra.Order.BigOperators.Group.Finset
import Mathlib.Tactic.FieldSimp

/-!
# ICA-LiNGAM: components and units (C192, C193)

Independent component analysis determines the unmixing matrix up to the order and the sign of its rows, and the unmixing
matrix of data in other units has its columns divided by the units.
-/
set_option linter.unusedSectionVars false
set_option autoImplicit false
namespace Verif.Ica

/-! ### The order depends only on which entries are zero -/

theorem skip_lt {t i k : Nat} (hi : i < k) : skip t i < k + 1 := by
  unfold skip; split <;> omega

theorem searchLoop_pattern : ∀ (k : Nat) {m m' : Mat} (orig acc : List Nat),
    (∀ i j, i < k → j < k → (m i j = 0 ↔ m' i j = 0)) → searchLoop k m orig acc = searchLoop k m' orig acc
  | 0, _, _, _, _, _ => rfl
  | k + 1, m, m', orig, acc, h => by
    have hf : (List.range (k + 1)).find? (fun i => decide (rowAbsSum (k + 1) m i = 0)) =
        (List.range (k + 1)).find? (fun i => decide (rowAbsSum (k + 1) m' i = 0)) := by
      apply List.find?_congr
      intro i hi
      have hi := List.mem_range.1 hi
      simp only [rowAbsSum_eq_zero]
      congr 1
      exact propext ⟨fun h1 j hj => (h i j hi hj).1 (h1 j hj), fun h1 j hj => (h i j hi hj).2 (h1 j hj)⟩
    unfold searchLoop
    rw [hf]
    split
    · rfl
    · exact searchLoop_pattern k _ _ fun i j hi hj => h _ _ (skip_lt hi) (skip_lt hj)

theorem searchOrder_pattern {n : Nat} {m m' : Mat} (h : ∀ i j, i < n → j < n → (m i j = 0 ↔ m' i j = 0)) :
    searchOrder n m = searchOrder n m' := by
  unfold searchOrder
  rw [searchLoop_pattern n _ _ h]

theorem pruneLoop_congr {n : Nat} : ∀ (ps : List (Nat × Nat)) {m m' : Mat}, (∀ i j, i < n → j < n → m i j = m' i j) →
    pruneLoop n ps m = pruneLoop n ps m'
  | [], _, _, _ => rfl
  | p :: ps, m, m', h => by
    unfold pruneLoop
    rw [searchOrder_pattern (m := m) (m' := m') fun i j hi hj => by rw [h i j hi hj],
      pruneLoop_congr ps (m := setZero m p) (m' := setZero m' p) fun i j hi hj => by
        unfold setZero; rw [h i j hi hj]]

theorem estimateOrder_congr (as : Boot.Argsort) {n : Nat} {m m' : Mat} (h : ∀ i j, i < n → j < n → m i j = m' i j) :
    estimateOrder as n m = estimateOrder as n m' := by
  have hp : positions as n m = positions as n m' := by
    unfold positions
    congr 2
    apply List.map_congr_left
    intro f hf
    have hf := List.mem_range.1 hf
    have hn : 0 < n := by
      rcases Nat.eq_zero_or_pos n with h0 | h0
      · subst h0; simp at hf
      · exact h0
    rw [h _ _ (Nat.div_lt_of_lt_mul hf) (Nat.mod_lt _ hn)]
  unfold estimateOrder
  rw [hp]
  simp only [foldl_setZero]
  exact pruneLoop_congr _ fun i j hi hj => by unfold zeroed; rw [h i j hi hj]

theorem estimateOrder_eq_search (as : Boot.Argsort) {n : Nat} (hn : 2 ≤ n) {M : Mat} {o : List Nat}
    (ho : searchOrder n M = some o) : estimateOrder as n M = some o := by
  have hpos := positions_sorted as n M
  unfold estimateOrder
  generalize positions as n M = pos at hpos ⊢
  simp only [foldl_setZero, zeroed_init hpos (searchOrder_some ho)]
  have hdl : (pos.drop (n * (n + 1) / 2)).length = n * n - n * (n + 1) / 2 := by rw [List.length_drop, hpos.len]
  have := tri_lt hn
  cases hdrop : pos.drop (n * (n + 1) / 2) with
  | nil => rw [hdrop] at hdl; simp at hdl; omega
  | cons p ps => simp only [pruneLoop, ho]

/-! ### C192: order and sign of the components -/

/-- `c` is a best matching of rows and columns. -/
def Best (n : Nat) (W : Mat) (c : List Nat) : Prop :=
  IsOrder n c ∧ (∀ i, i < n → W i (c.getD i 0) ≠ 0) ∧
    ∀ c', IsOrder n c' → (∀ i, i < n → W i (c'.getD i 0) ≠ 0) →
      ((List.range n).map (fun i => 1 / |W i (c.getD i 0)|)).sum ≤ ((List.range n).map (fun i => 1 / |W i (c'.getD i 0)|)).sum

theorem order_length {n : Nat} {c : List Nat} (hc : IsOrder n c) : c.length = n := by
  rw [(IsOrder.perm.1 hc).length_eq]; simp

/-- Sums over all rows do not depend on the order of the rows. -/
theorem sum_rows {n : Nat} {π : List Nat} (hπ : IsOrder n π) (f : Nat → ℚ) :
    ((List.range n).map (fun i => f (π.getD i 0))).sum = ((List.range n).map f).sum := by
  have h1 : (List.range n).map (fun i => f (π.getD i 0)) = π.map f := by
    apply List.ext_getElem
    · simp [order_length hπ]
    · intro i h1 h2
      simp [List.getD_eq_getElem?_getD]
      rw [List.getElem?_eq_getElem (by simpa using h2)]
      rfl
  rw [h1]
  exact ((IsOrder.perm.1 hπ).map f).sum_eq

/-- The matching for rows listed in the order `π`. -/
def follow (n : Nat) (π c : List Nat) : List Nat := (List.range n).map (fun i => c.getD (π.getD i 0) 0)

theorem follow_getD {n : Nat} (π c : List Nat) {i : Nat} (hi : i < n) : (follow n π c).getD i 0 = c.getD (π.getD i 0) 0 := by
  unfold follow
  rw [List.getD_eq_getElem?_getD, List.getElem?_map, List.getElem?_range hi]
  rfl

theorem getD_inj {n : Nat} {c : List Nat} (hc : IsOrder n c) {a b : Nat} (ha : a < n) (hb : b < n)
    (h : c.getD a 0 = c.getD b 0) : a = b := by
  have hl := order_length hc
  rw [List.getD_eq_getElem?_getD, List.getD_eq_getElem?_getD, List.getElem?_eq_getElem (by omega),
    List.getElem?_eq_getElem (by omega)] at h
  exact (List.Nodup.getElem_inj_iff hc.1).1 h

theorem follow_order {n : Nat} {π c : List Nat} (hπ : IsOrder n π) (hc : IsOrder n c) : IsOrder n (follow n π c) := by
  constructor
  · unfold follow
    refine List.Nodup.map_on ?_ List.nodup_range
    intro a ha b hb h
    have ha := List.mem_range.1 ha
    have hb := List.mem_range.1 hb
    exact getD_inj hπ ha hb (getD_inj hc (idxOf_getD hπ ha) (idxOf_getD hπ hb) h)
  · intro x
    unfold follow
    rw [List.mem_map]
    constructor
    · rintro ⟨i, hi, rfl⟩
      exact idxOf_getD hc (idxOf_getD hπ (List.mem_range.1 hi))
    · intro hx
      obtain ⟨a, ha, rfl⟩ := exists_row hc hx
      obtain ⟨i, hi, rfl⟩ := exists_row hπ ha
      exact ⟨i, List.mem_range.2 hi, rfl⟩

/-- **C192.** The order and the signs in which FastICA lists the components do not matter: if `W'` consists of the rows of
`W` in another order and with other signs, and the best matching of components and variables is unique, both runs have the
same outcome. -/
theorem C192_components (as : Boot.Argsort) (asg : Assign) (lasso : Direct.Lasso ℚ) {n : Nat} {W W' : Mat} {π : List Nat}
    {s : Nat → ℚ} (hπ : IsOrder n π) (hs : ∀ i, i < n → |s i| = 1)
    (hW : ∀ i j, i < n → j < n → W' i j = s i * W (π.getD i 0) j)
    (huniq : ∀ c c', Best n W c → Best n W c' → c = c') : fit as asg lasso n W' = fit as asg lasso n W := by
  have hs0 : ∀ i, i < n → s i ≠ 0 := fun i hi h => by have := hs i hi; rw [h] at this; simp at this
  have habs : ∀ i j, i < n → j < n → |W' i j| = |W (π.getD i 0) j| := fun i j hi hj => by
    rw [hW i j hi hj, abs_mul, hs i hi, one_mul]
  have hne : ∀ i j, i < n → j < n → (W' i j ≠ 0 ↔ W (π.getD i 0) j ≠ 0) := fun i j hi hj => by
    rw [← abs_ne_zero, habs i j hi hj, abs_ne_zero]
  -- costs agree
  have hcost : ∀ c, IsOrder n c → ((List.range n).map (fun i => 1 / |W' i ((follow n π c).getD i 0)|)).sum =
      ((List.range n).map (fun i => 1 / |W i (c.getD i 0)|)).sum := by
    intro c hc
    rw [← sum_rows hπ (fun i => 1 / |W i (c.getD i 0)|)]
    congr 1
    apply List.map_congr_left
    intro i hi
    have hi := List.mem_range.1 hi
    rw [follow_getD _ _ hi, habs _ _ hi (idxOf_getD hc (idxOf_getD hπ hi))]
  have hfeas : ∀ c, IsOrder n c → ((∀ i, i < n → W' i ((follow n π c).getD i 0) ≠ 0) ↔ ∀ i, i < n → W i (c.getD i 0) ≠ 0) := by
    intro c hc
    constructor
    · intro h i hi
      obtain ⟨k, hk, rfl⟩ := exists_row hπ hi
      have := h k hk
      rw [follow_getD _ _ hk, hne _ _ hk (idxOf_getD hc (idxOf_getD hπ hk))] at this
      exact this
    · intro h i hi
      rw [follow_getD _ _ hi, hne _ _ hi (idxOf_getD hc (idxOf_getD hπ hi))]
      exact h _ (idxOf_getD hπ hi)
  -- every matching for `W'` comes from one for `W`
  have hsurj : ∀ c', IsOrder n c' → ∃ c, IsOrder n c ∧ follow n π c = c' := by
    intro c' hc'
    have hinv : ∀ k, k < n → ∃ i, i < n ∧ π.getD i 0 = k := fun k hk => exists_row hπ hk
    choose! g hg1 hg2 using hinv
    have hgi : ∀ i, i < n → g (π.getD i 0) = i := fun i hi =>
      getD_inj hπ (hg1 _ (idxOf_getD hπ hi)) hi (hg2 _ (idxOf_getD hπ hi))
    refine ⟨(List.range n).map (fun k => c'.getD (g k) 0), ⟨?_, ?_⟩, ?_⟩
    · refine List.Nodup.map_on ?_ List.nodup_range
      intro a ha b hb h
      have ha := List.mem_range.1 ha
      have hb := List.mem_range.1 hb
      have := getD_inj hc' (hg1 a ha) (hg1 b hb) h
      rw [← hg2 a ha, ← hg2 b hb, this]
    · intro x
      rw [List.mem_map]
      constructor
      · rintro ⟨i, hi, rfl⟩
        exact idxOf_getD hc' (hg1 _ (List.mem_range.1 hi))
      · intro hx
        obtain ⟨a, ha, rfl⟩ := exists_row hc' hx
        exact ⟨π.getD a 0, List.mem_range.2 (idxOf_getD hπ ha), by rw [hgi a ha]⟩
    · apply List.ext_getElem
      · rw [order_length hc']; simp [follow]
      · intro i h1 h2
        have hi : i < n := by simpa [follow] using h1
        have e1 : (follow n π ((List.range n).map (fun k => c'.getD (g k) 0))).getD i 0 = c'.getD i 0 := by
          rw [follow_getD _ _ hi, List.getD_eq_getElem?_getD, List.getElem?_map,
            List.getElem?_range (idxOf_getD hπ hi)]
          simp only [Option.map_some, Option.getD_some]
          rw [hgi i hi]
        rw [List.getD_eq_getElem?_getD, List.getD_eq_getElem?_getD, List.getElem?_eq_getElem h1,
          List.getElem?_eq_getElem h2] at e1
        exact e1
  cases h : asg.run n W with
  | none =>
    have h' : asg.run n W' = none := by
      cases h' : asg.run n W' with
      | none => rfl
      | some c' =>
        obtain ⟨c, hc, rfl⟩ := hsurj c' (asg.perm _ _ _ h')
        obtain ⟨c2, h2⟩ := asg.feasible n W c hc ((hfeas c hc).1 (asg.finite _ _ _ h'))
        rw [h] at h2
        cases h2
    simp only [fit, h, h']
  | some c =>
    have hc := asg.perm _ _ _ h
    have hbest : Best n W c := ⟨hc, asg.finite _ _ _ h, asg.minimal _ _ _ h⟩
    obtain ⟨c', h'⟩ := asg.feasible n W' (follow n π c) (follow_order hπ hc) ((hfeas c hc).2 (asg.finite _ _ _ h))
    obtain ⟨c2, hc2, rfl⟩ := hsurj c' (asg.perm _ _ _ h')
    have hbest2 : Best n W c2 := by
      refine ⟨hc2, (hfeas c2 hc2).1 (asg.finite _ _ _ h'), ?_⟩
      intro c3 hc3 hf3
      rw [← hcost c2 hc2, ← hcost c3 hc3]
      exact asg.minimal _ _ _ h' _ (follow_order hπ hc3) ((hfeas c3 hc3).2 hf3)
    obtain rfl := huniq _ _ hbest hbest2
    have hb : ∀ i j, i < n → j < n →
        bEstimate (permuteRows n (follow n π c) W') i j = bEstimate (permuteRows n c W) i j := by
      intro r j hr hj
      obtain ⟨k, hk, rfl⟩ := exists_row hc hr
      obtain ⟨i, hi, rfl⟩ := exists_row hπ hk
      have e1 : ∀ j, permuteRows n (follow n π c) W' (c.getD (π.getD i 0) 0) j = W' i j := by
        intro j
        rw [← follow_getD π c hi]
        exact permuteRows_apply (follow_order hπ hc) hi j
      unfold bEstimate
      rw [e1, e1, permuteRows_apply hc hk, permuteRows_apply hc hk, hW i j hi hj, hW i _ hi hr,
        mul_div_mul_left _ _ (hs0 i hi)]
    simp only [fit, h, h', estimateOrder_congr as hb]

/-! ### C193: units of measurement -/

theorem nodup_laterPairs : ∀ l : List Nat, l.Nodup → (Boot.laterPairs l).Nodup
  | [], _ => List.nodup_nil
  | a :: l, h => by
    have hn := List.nodup_cons.1 h
    rw [Boot.laterPairs]
    refine List.nodup_append.2 ⟨hn.2.map fun x y h => (Prod.mk.inj h).2, nodup_laterPairs l hn.2, ?_⟩
    rintro ⟨x, y⟩ h1 ⟨x', y'⟩ h2 he
    obtain ⟨rfl, rfl⟩ := Prod.mk.inj he
    obtain ⟨_, _, h3⟩ := List.mem_map.1 h1
    obtain ⟨p, q, r, h4⟩ := Boot.mem_laterPairs.1 h2
    obtain ⟨rfl, rfl⟩ := Prod.mk.inj h3
    exact hn.1 (by rw [h4]; simp)

theorem before_getElem (l : List Nat) {i j : Nat} (hi : i < l.length) (hj : j < l.length) (hij : i < j) :
    Before l l[i] l[j] := by
  refine ⟨l.take i, (l.take j).drop (i + 1), l.drop (j + 1), ?_⟩
  have e1 : l = l.take j ++ l[j] :: l.drop (j + 1) := by
    conv_lhs => rw [← List.take_append_drop j l, List.drop_eq_getElem_cons hj]
  have hij' : i < (l.take j).length := by rw [List.length_take]; omega
  have e2 : l.take j = l.take i ++ l[i] :: (l.take j).drop (i + 1) := by
    conv_lhs => rw [← List.take_append_drop i (l.take j), List.drop_eq_getElem_cons hij', List.take_take,
      Nat.min_eq_left hij.le, List.getElem_take]
  conv_lhs => rw [e1, e2]
  simp

theorem before_of_idxOf {l : List Nat} {a b : Nat} (ha : a ∈ l) (hb : b ∈ l) (h : l.idxOf a < l.idxOf b) : Before l a b := by
  have := before_getElem l (List.idxOf_lt_length_iff.2 ha) (List.idxOf_lt_length_iff.2 hb) h
  rwa [List.getElem_idxOf, List.getElem_idxOf] at this

/-- Sorting by absolute value puts all positions that do not point forward in `o` first, if they are all smaller than those
that do. -/
theorem zeroed_forward {n : Nat} {M : Mat} {pos : List (Nat × Nat)} (hpos : SortedPositions n M pos) {o : List Nat}
    (ho : IsOrder n o) (hsep : ∀ i j k l, i < n → j < n → k < n → l < n → Before o j i → ¬ Before o l k → |M k l| < |M i j|)
    {i j : Nat} (hi : i < n) (hj : j < n) :
    ((i, j) ∈ pos.take (n * (n + 1) / 2) ↔ ¬ Before o j i) := by
  have h2 := laterPairs_length o
  rw [(IsOrder.perm.1 ho).length_eq, List.length_range] at h2
  have h3 : n * (n + 1) / 2 * 2 = n * (n + 1) := Nat.div_mul_cancel (Nat.even_mul_succ_self n).two_dvd
  have h4 : n * (n - 1) + n * (n + 1) = n * n * 2 := by
    cases n with
    | zero => rfl
    | succ k => rw [Nat.add_sub_cancel]; ring
  -- no forward position among the first
  have hfirst : ∀ a b, (a, b) ∈ pos.take (n * (n + 1) / 2) → ¬ Before o b a := by
    intro a b hmem hbef
    obtain ⟨t, ht⟩ := List.getElem?_of_mem hmem
    have htl : t < n * (n + 1) / 2 := by
      have := (List.getElem?_eq_some_iff.1 ht).1
      rw [List.length_take] at this
      omega
    rw [List.getElem?_take_of_lt htl] at ht
    obtain ⟨htp, hte⟩ := List.getElem?_eq_some_iff.1 ht
    have hab := (hpos.mem a b).1 (List.mem_of_mem_take hmem)
    have hfw : ∀ p ∈ pos.drop t, Before o p.2 p.1 := by
      intro p hp
      have hpn := (hpos.mem p.1 p.2).1 (List.mem_of_mem_drop hp)
      rw [List.drop_eq_getElem_cons htp, hte] at hp
      rcases List.mem_cons.1 hp with rfl | hp
      · exact hbef
      · have hs : ((a, b) :: pos.drop (t + 1)).Pairwise (fun p q => |M p.1 p.2| ≤ |M q.1 q.2|) := by
          rw [← hte, ← List.drop_eq_getElem_cons htp]
          exact hpos.sorted.sublist (List.drop_sublist _ _)
        have h5 := (List.pairwise_cons.1 hs).1 p hp
        by_contra hnb
        exact absurd h5 (not_le.2 (hsep a b p.1 p.2 hab.1 hab.2 hpn.1 hpn.2 hbef hnb))
    have hsub : ((pos.drop t).map Prod.swap) ⊆ Boot.laterPairs o := by
      intro q hq
      obtain ⟨⟨a, b⟩, hp, rfl⟩ := List.mem_map.1 hq
      exact Boot.mem_laterPairs.2 (hfw _ hp)
    have hnd : ((pos.drop t).map Prod.swap).Nodup :=
      (hpos.nodup.sublist (List.drop_sublist _ _)).map Prod.swap_injective
    have hle := (List.subperm_of_subset hnd hsub).length_le
    rw [List.length_map, List.length_drop, hpos.len] at hle
    have h5 : (n * n - t) * 2 ≤ n * (n - 1) := by rw [← h2]; exact Nat.mul_le_mul_right 2 hle
    have h6 : t * 2 + 2 ≤ n * (n + 1) := by omega
    have : n * n * 2 - t * 2 ≤ n * (n - 1) := by rw [← Nat.sub_mul]; exact h5
    have h7 : t < n * n := by rw [← hpos.len]; exact htp
    omega
  refine ⟨hfirst i j, fun hnb => ?_⟩
  by_contra hnt
  have hd : (i, j) ∈ pos.drop (n * (n + 1) / 2) := by
    have := (hpos.mem i j).2 ⟨hi, hj⟩
    rw [← List.take_append_drop (n * (n + 1) / 2) pos, List.mem_append] at this
    exact this.resolve_left hnt
  -- all forward positions and `(i, j)` are among the last ones: too many
  have hndp : (Boot.laterPairs o).Nodup := by
    exact nodup_laterPairs o ho.1
  have hsub : ((j, i) :: Boot.laterPairs o) ⊆ (pos.drop (n * (n + 1) / 2)).map Prod.swap := by
    intro q hq
    rcases List.mem_cons.1 hq with rfl | hq
    · exact List.mem_map.2 ⟨(i, j), hd, rfl⟩
    · obtain ⟨a, b⟩ := q
      have hb := Boot.mem_laterPairs.1 hq
      obtain ⟨x, y, z, he⟩ := hb
      have ha : a < n := (ho.2 a).1 (by rw [he]; simp)
      have hbn : b < n := (ho.2 b).1 (by rw [he]; simp)
      refine List.mem_map.2 ⟨(b, a), ?_, rfl⟩
      have := (hpos.mem b a).2 ⟨hbn, ha⟩
      rw [← List.take_append_drop (n * (n + 1) / 2) pos, List.mem_append] at this
      exact this.resolve_left fun h => hfirst b a h ⟨x, y, z, he⟩
  have hnd : ((j, i) :: Boot.laterPairs o).Nodup :=
    List.nodup_cons.2 ⟨fun h => hnb (Boot.mem_laterPairs.1 h), hndp⟩
  have hle := (List.subperm_of_subset hnd hsub).length_le
  rw [List.length_cons, List.length_map, List.length_drop, hpos.len] at hle
  omega

/-- Two orders in which the same elements come before each other are equal. -/
theorem order_eq {n : Nat} {o o' : List Nat} (ho : IsOrder n o) (ho' : IsOrder n o')
    (h : ∀ a b, Before o a b → Before o' a b) : o = o' := by
  have hp : o.Perm o' := (IsOrder.perm.1 ho).trans (IsOrder.perm.1 ho').symm
  have key : ∀ l : List Nat, l.Nodup → l.Pairwise (fun a b => Before l a b) := fun l _ =>
    List.pairwise_iff_getElem.2 fun i j hi hj hij => before_getElem l hi hj hij
  refine List.Perm.eq_of_pairwise (le := fun a b => Before o' a b) ?_ ((key o ho.1).imp fun {a b} => h a b) (key o' ho'.1) hp
  intro a b _ _ h1 h2
  have := idxOf_lt_of_before ho'.1 h1
  have := idxOf_lt_of_before ho'.1 h2
  omega

theorem estimateOrder_forward (as : Boot.Argsort) {n : Nat} (hn : 2 ≤ n) {M : Mat} {o : List Nat} (ho : IsOrder n o)
    (hsep : ∀ i j k l, i < n → j < n → k < n → l < n → Before o j i → ¬ Before o l k → |M k l| < |M i j|) :
    estimateOrder as n M = some o := by
  have hpos := positions_sorted as n M
  unfold estimateOrder
  generalize positions as n M = pos at hpos ⊢
  simp only [foldl_setZero]
  have hz : ∀ i j, i < n → j < n → (zeroed M (pos.take (n * (n + 1) / 2)) i j ≠ 0 ↔ Before o j i) := by
    intro i j hi hj
    unfold zeroed
    by_cases hb : Before o j i
    · rw [if_neg (fun h => (zeroed_forward hpos ho hsep hi hj).1 h hb)]
      refine ⟨fun _ => hb, fun _ h0 => ?_⟩
      have := hsep i j i i hi hj hi hi hb (Before.irrefl ho.1 _)
      rw [h0, abs_zero] at this
      exact absurd this (not_lt.2 (abs_nonneg _))
    · rw [if_pos ((zeroed_forward hpos ho hsep hi hj).2 hb)]
      simp [hb]
  have hcons : Consistent n (zeroed M (pos.take (n * (n + 1) / 2))) o := ⟨ho, fun i j hi hj h => (hz i j hi hj).1 h⟩
  obtain ⟨o', ho'⟩ := searchOrder_acyclic hcons.acyclic
  have hc' := searchOrder_some ho'
  have he : o = o' := by
    refine order_eq ho hc'.1 fun a b hab => ?_
    obtain ⟨x, y, z, hxyz⟩ := id hab
    have ha : a < n := (ho.2 a).1 (by rw [hxyz]; simp)
    have hb : b < n := (ho.2 b).1 (by rw [hxyz]; simp)
    exact hc'.2 b a hb ha ((hz b a hb ha).2 hab)
  have hdl : (pos.drop (n * (n + 1) / 2)).length = n * n - n * (n + 1) / 2 := by rw [List.length_drop, hpos.len]
  have := tri_lt hn
  cases hdrop : pos.drop (n * (n + 1) / 2) with
  | nil => rw [hdrop] at hdl; simp at hdl; omega
  | cons p ps => simp only [pruneLoop, ho', he]

/-- **C193, violated.** For any two or more variables, any unmixing matrix without zero entries and *any* order of the
variables, there are units of measurement in which ICA-LiNGAM reports this order: `W i j / d j` is the unmixing matrix of the
variables `d j * x j`, with the same components. -/
theorem C193_any_order (as : Boot.Argsort) (asg : Assign) (lasso : Direct.Lasso ℚ) {n : Nat} (hn : 2 ≤ n) {W : Mat}
    (hW : ∀ i j, i < n → j < n → W i j ≠ 0) {o : List Nat} (ho : IsOrder n o) :
    ∃ d : Nat → ℚ, (∀ j, 0 < d j) ∧ ∃ B, fit as asg lasso n (fun i j => W i j / d j) = .ok (o, B) := by
  let ρ : ℚ := ∑ i ∈ Finset.range n, ∑ j ∈ Finset.range n, ∑ k ∈ Finset.range n, |W i j| / |W i k|
  have hρ : ∀ i j k, i < n → j < n → k < n → |W i j| / |W i k| ≤ ρ := by
    intro i j k hi hj hk
    have hnn : ∀ i j k, 0 ≤ |W i j| / |W i k| := fun i j k => div_nonneg (abs_nonneg _) (abs_nonneg _)
    calc |W i j| / |W i k| ≤ ∑ k ∈ Finset.range n, |W i j| / |W i k| :=
          Finset.single_le_sum (f := fun k => |W i j| / |W i k|) (fun k _ => hnn i j k) (Finset.mem_range.2 hk)
      _ ≤ ∑ j ∈ Finset.range n, ∑ k ∈ Finset.range n, |W i j| / |W i k| :=
          Finset.single_le_sum (f := fun j => ∑ k ∈ Finset.range n, |W i j| / |W i k|)
            (fun j _ => Finset.sum_nonneg fun k _ => hnn i j k) (Finset.mem_range.2 hj)
      _ ≤ ρ := Finset.single_le_sum (f := fun i => ∑ j ∈ Finset.range n, ∑ k ∈ Finset.range n, |W i j| / |W i k|)
            (fun i _ => Finset.sum_nonneg fun j _ => Finset.sum_nonneg fun k _ => hnn i j k) (Finset.mem_range.2 hi)
  have hρ1 : 1 ≤ ρ := by
    have := hρ 0 0 0 (by omega) (by omega) (by omega)
    rwa [div_self (abs_ne_zero.2 (hW 0 0 (by omega) (by omega)))] at this
  let T : ℚ := ρ + 1
  have hT : 1 < T := by simp only [T]; linarith
  have hT0 : 0 < T := by linarith
  let d : Nat → ℚ := fun j => T ^ o.idxOf j
  have hd : ∀ j, 0 < d j := fun j => pow_pos hT0 _
  refine ⟨d, hd, ?_⟩
  have hW' : ∀ i j, i < n → j < n → W i j / d j ≠ 0 := fun i j hi hj => div_ne_zero (hW i j hi hj) (hd j).ne'
  obtain ⟨c, hc⟩ := asg.feasible n (fun i j => W i j / d j) o ho fun i hi => hW' i _ hi (idxOf_getD ho hi)
  have hco := asg.perm _ _ _ hc
  have hval : ∀ r j, r < n → j < n → r ≠ j → ∃ k, k < n ∧
      |bEstimate (permuteRows n c fun i j => W i j / d j) r j| = |W k j| / |W k r| * (d r / d j) := by
    intro r j hr hj hrj
    obtain ⟨k, hk, rfl⟩ := exists_row hco hr
    refine ⟨k, hk, ?_⟩
    unfold bEstimate
    rw [permuteRows_apply hco hk, permuteRows_apply hco hk, if_neg hrj, zero_sub, abs_neg, abs_div, abs_div, abs_div,
      abs_of_pos (hd _), abs_of_pos (hd _)]
    have h1 := abs_ne_zero.2 (hW k _ hk hr)
    have h2 := (hd j).ne'
    have h3 := (hd (c.getD k 0)).ne'
    field_simp
  have hsep : ∀ i j k l, i < n → j < n → k < n → l < n → Before o j i → ¬ Before o l k →
      |bEstimate (permuteRows n c fun i j => W i j / d j) k l| < |bEstimate (permuteRows n c fun i j => W i j / d j) i j| := by
    intro i j k l hi hj hk hl hb hnb
    have hij : i ≠ j := by rintro rfl; exact Before.irrefl ho.1 _ hb
    -- the forward entry is large
    have hbig : T / ρ ≤ |bEstimate (permuteRows n c fun i j => W i j / d j) i j| := by
      obtain ⟨m, hm, he⟩ := hval i j hi hj hij
      rw [he]
      have h1 : 1 / ρ ≤ |W m j| / |W m i| := by
        have h2 := hρ m i j hm hi hj
        have h3 : 0 < |W m i| / |W m j| := div_pos (abs_pos.2 (hW m i hm hi)) (abs_pos.2 (hW m j hm hj))
        have := one_div_le_one_div_of_le h3 h2
        rwa [one_div_div] at this
      have h4 : T ≤ d i / d j := by
        have := idxOf_lt_of_before ho.1 hb
        rw [le_div_iff₀ (hd j)]
        show T * T ^ _ ≤ T ^ _
        rw [← pow_succ']
        exact pow_le_pow_right₀ hT.le this
      calc T / ρ = 1 / ρ * T := by ring
        _ ≤ |W m j| / |W m i| * (d i / d j) :=
          mul_le_mul h1 h4 hT0.le (div_nonneg (abs_nonneg _) (abs_nonneg _))
    refine lt_of_lt_of_le ?_ hbig
    by_cases hkl : k = l
    · subst hkl
      rw [bEstimate_diag hc hk, abs_zero]
      exact div_pos hT0 (by linarith)
    · obtain ⟨m, hm, he⟩ := hval k l hk hl hkl
      rw [he]
      have h1 := hρ m l k hm hl hk
      have hidx : o.idxOf k < o.idxOf l := by
        rcases lt_trichotomy (o.idxOf k) (o.idxOf l) with h | h | h
        · exact h
        · exact absurd ((List.idxOf_inj ((ho.2 k).2 hk)).1 h) hkl
        · exact absurd (before_of_idxOf ((ho.2 l).2 hl) ((ho.2 k).2 hk) h) hnb
      have h4 : d k / d l ≤ 1 / T := by
        rw [div_le_div_iff₀ (hd l) hT0, one_mul]
        show T ^ _ * T ≤ T ^ _
        rw [← pow_succ]
        exact pow_le_pow_right₀ hT.le hidx
      calc |W m l| / |W m k| * (d k / d l) ≤ ρ * (1 / T) :=
            mul_le_mul h1 h4 (div_pos (hd k) (hd l)).le (by linarith)
        _ < T / ρ := by
          rw [mul_one_div, div_lt_div_iff₀ hT0 (by linarith)]
          simp only [T]
          nlinarith
  exact ⟨Direct.estimateAdj none lasso o, by simp only [fit, hc, estimateOrder_forward as hn ho hsep]⟩

/-- **C193, partial.** If the unmixing matrix is exactly that of an acyclic model, a change of units leaves the reported
order as it is and converts the matrix found before pruning. -/
theorem C193_exact_partial (as : Boot.Argsort) (asg : Assign) (lasso lasso' : Direct.Lasso ℚ) {n : Nat} (hn : 2 ≤ n)
    {B W : Mat} {σ : List Nat} {s : Nat → ℚ} (hac : Acyclic (Edge n B 0)) (hW : ExactUnmixing n B W σ s) {d : Nat → ℚ}
    (hd : ∀ j, 0 < d j) :
    ∃ order B1 B2 c c', fit as asg lasso n W = .ok (order, B1) ∧
      fit as asg lasso' n (fun i j => W i j / d j) = .ok (order, B2) ∧
      asg.run n W = some c ∧ asg.run n (fun i j => W i j / d j) = some c' ∧
      (∀ i j, i < n → j < n → bEstimate (permuteRows n c W) i j = B i j) ∧
      ∀ i j, i < n → j < n → bEstimate (permuteRows n c' fun i j => W i j / d j) i j = d i * B i j / d j := by
  have hW' : ExactUnmixing n (fun i j => d i * B i j / d j) (fun i j => W i j / d j) σ (fun i => s i / d (σ.getD i 0)) := by
    refine ⟨hW.1, fun i hi => div_ne_zero (hW.2.1 i hi) (hd _).ne', ?_⟩
    intro i j hi hj
    beta_reduce
    rw [hW.2.2 i j hi hj]
    have h1 := (hd j).ne'
    have h2 := (hd (σ.getD i 0)).ne'
    split
    · rename_i he
      rw [he] at h2 ⊢
      field_simp
    · field_simp
      ring
  have hzero : ∀ i j, (d i * B i j / d j = 0 ↔ B i j = 0) := by
    intro i j
    rw [div_eq_zero_iff, mul_eq_zero]
    simp [(hd i).ne', (hd j).ne']
  have hac' : Acyclic (Edge n (fun i j => d i * B i j / d j) 0) := by
    intro i hi
    refine hac i (Relation.TransGen.mono ?_ _ _ hi)
    rintro a b ⟨ha, hb, hw⟩
    refine ⟨ha, hb, abs_pos.2 fun h0 => ?_⟩
    exact abs_pos.1 hw ((hzero b a).2 h0)
  obtain ⟨order, B1, c, h1, h2, h3, _, _⟩ := C58_exact_recovery as asg lasso hn hac hW
  obtain ⟨order', B2, c', h1', h2', h3', _, _⟩ := C58_exact_recovery as asg lasso' hn hac' hW'
  obtain ⟨o, ho⟩ := searchOrder_acyclic hac
  have e1 : searchOrder n (bEstimate (permuteRows n c W)) = some o := by
    rw [← ho]
    exact searchOrder_pattern fun i j hi hj => by rw [h2 i j hi hj]
  have e2 : searchOrder n (bEstimate (permuteRows n c' fun i j => W i j / d j)) = some o := by
    rw [← ho]
    exact searchOrder_pattern fun i j hi hj => by rw [h2' i j hi hj]; exact hzero i j
  refine ⟨o, Direct.estimateAdj none lasso o, Direct.estimateAdj none lasso' o, c, c', ?_, ?_, h1, h1', h2, h2'⟩
  · simp only [fit, h1, estimateOrder_eq_search as hn e1]
  · simp only [fit, h1', estimateOrder_eq_search as hn e2]

/-! ### Concrete cases -/

/-- An unmixing matrix without zeros. -/
def exW : Mat := fun i j => if i = j then 3 else 1

theorem exW_best {c : List Nat} (h : Best 2 exW c) : c = [0, 1] := by
  obtain ⟨hc, _, hm⟩ := h
  have hl := order_length hc
  match c, hl with
  | [a, b], _ =>
    have ha : a < 2 := (hc.2 a).1 (by simp)
    have hb : b < 2 := (hc.2 b).1 (by simp)
    have hab : a ≠ b := by have := hc.1; simpa using this
    have ho : IsOrder 2 [0, 1] := ⟨by decide, fun x => by simp; omega⟩
    have h1 := hm [0, 1] ho (by intro i hi; interval_cases i <;> decide +kernel)
    interval_cases a <;> interval_cases b
    · exact absurd rfl hab
    · rfl
    · exact absurd h1 (by decide +kernel)
    · exact absurd rfl hab

/-- C192: the two components listed the other way round, one with the opposite sign. -/
example (as : Boot.Argsort) (lasso : Direct.Lasso ℚ) :
    fit as exAssign lasso 2 (fun i j => (if i = 0 then -1 else 1) * exW ([1, 0].getD i 0) j) = fit as exAssign lasso 2 exW :=
  C192_components as exAssign lasso (π := [1, 0]) (s := fun i => if i = 0 then -1 else 1)
    ⟨by decide, fun x => by simp; omega⟩ (fun i hi => by interval_cases i <;> simp) (fun _ _ _ _ => rfl)
    (fun _ _ h h' => by rw [exW_best h, exW_best h'])

/-- C193: `exW` has no zero entries; the order `1, 0` is reported in some units and `0, 1` in others. -/
example (as : Boot.Argsort) (lasso : Direct.Lasso ℚ) :
    (∃ d : Nat → ℚ, (∀ j, 0 < d j) ∧ ∃ B, fit as exAssign lasso 2 (fun i j => exW i j / d j) = .ok ([0, 1], B)) ∧
    ∃ d : Nat → ℚ, (∀ j, 0 < d j) ∧ ∃ B, fit as exAssign lasso 2 (fun i j => exW i j / d j) = .ok ([1, 0], B) :=
  have h : ∀ i j, i < 2 → j < 2 → exW i j ≠ 0 := fun i j _ _ => by unfold exW; split <;> norm_num
  ⟨C193_any_order as exAssign lasso (by decide) h ⟨by decide, fun x => by simp; omega⟩,
   C193_any_order as exAssign lasso (by decide) h ⟨by decide, fun x => by simp; omega⟩⟩

end Verif.Ica
