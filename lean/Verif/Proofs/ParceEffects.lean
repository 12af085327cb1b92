import Verif.Model.ParceEffects
import Verif.Props.ParcePopulation
import Verif.Props.Paths

set_option linter.unusedSectionVars false
set_option autoImplicit false
namespace Verif.Parce
open Finset

theorem fillTotals_spec {n : Nat} {B : Nat → Nat → Option ℚ} : ∀ {ps : List (Nat × Nat)} {T T' : Nat → Nat → Option ℚ},
    fillTotals n B ps T = some (.ok T') →
    ∀ i j, ((i, j) ∈ ps → totalEffect2 n B j i = some (.ok (T' i j))) ∧ ((i, j) ∉ ps → T' i j = T i j)
  | [], T, T', h, i, j => by simp [fillTotals] at h; simp [h]
  | (d, s) :: ps, T, T', h, i, j => by
    unfold fillTotals at h
    cases hv : totalEffect2 n B s d with
    | none => simp [hv] at h
    | some r =>
      cases r with
      | error e => simp [hv] at h
      | ok v =>
        simp only [hv] at h
        obtain ⟨h1, h2⟩ := fillTotals_spec h i j
        constructor
        · intro hm
          by_cases hps : (i, j) ∈ ps
          · exact h1 hps
          · rcases List.mem_cons.1 hm with he | he
            · obtain ⟨rfl, rfl⟩ := Prod.mk.inj he
              rw [h2 hps, hv]; simp
            · exact absurd he hps
        · intro hm
          rw [List.mem_cons, not_or] at hm
          rw [h2 hm.2, if_neg]
          rintro ⟨rfl, rfl⟩
          exact hm.1 rfl

theorem fillTotals_ok {n : Nat} {B : Nat → Nat → Option ℚ} : ∀ {ps : List (Nat × Nat)} (T : Nat → Nat → Option ℚ),
    (∀ p ∈ ps, ∃ v, totalEffect2 n B p.2 p.1 = some (.ok v)) → ∃ T', fillTotals n B ps T = some (.ok T')
  | [], T, _ => ⟨T, rfl⟩
  | (d, s) :: ps, T, h => by
    obtain ⟨v, hv⟩ := h (d, s) (by simp)
    unfold fillTotals
    simp only at hv
    rw [hv]
    exact fillTotals_ok _ fun p hp => h p (List.mem_cons_of_mem _ hp)

theorem mem_effectPairs_map {f t : Nat} : ∀ (l : List Nat), (t, f) ∈ effectPairs (l.map (fun i => [i])) ↔ Before l f t
  | [] => by simp [effectPairs, Before]
  | a :: l => by
    rw [List.map_cons]
    unfold effectPairs
    rw [List.mem_append, mem_effectPairs_map l]
    simp only [List.mem_flatMap, List.mem_map, exists_exists_and_eq_and, List.map_cons, List.map_nil, List.mem_singleton,
      Prod.mk.injEq]
    constructor
    · rintro (⟨x, hx, rfl, rfl⟩ | h)
      · exact Before.of_mem_append (l := [f]) (by simp) hx
      · exact h.of_append_right (l := [a])
    · rintro ⟨x, y, z, h⟩
      cases x with
      | nil =>
        simp only [List.nil_append, List.cons.injEq] at h
        exact Or.inl ⟨t, by rw [h.2]; simp, rfl, h.1.symm⟩
      | cons b x =>
        simp only [List.cons_append, List.cons.injEq] at h
        exact Or.inr ⟨x, y, z, h.2⟩

theorem mem_effectPairs {o : Order} {f t : Nat} :
    (t, f) ∈ effectPairs o.items ↔ (f ∈ o.block ∧ t ∈ o.rest) ∨ Before o.rest f t := by
  unfold Order.items
  split
  · rename_i hb
    rw [List.nil_append, mem_effectPairs_map, hb]
    simp
  · rw [List.singleton_append]
    unfold effectPairs
    rw [List.mem_append, mem_effectPairs_map]
    simp only [List.mem_flatMap, List.mem_map, exists_exists_and_eq_and, Prod.mk.injEq]
    constructor
    · rintro (⟨x, hx, y, hy, rfl, rfl⟩ | h)
      · exact Or.inl ⟨hy, hx⟩
      · exact Or.inr h
    · rintro (⟨h1, h2⟩ | h)
      · exact Or.inl ⟨t, h2, f, h1, rfl, rfl⟩
      · exact Or.inr h

theorem rowNan_iff {n : Nat} {B : Nat → Nat → Option ℚ} {src : Nat} : rowNan n B src = true ↔ ∃ k, k < n ∧ B src k = none := by
  unfold rowNan
  simp [List.any_eq_true, Option.isNone_iff_eq_none]

/-- The rows with a NaN are those of the block. -/
theorem rowNan_block {F : Nat} {c : Cfg} {lasso : Direct.Lasso ℚ} {n : Nat} (h0 : n ≠ 0) {o : Order}
    {B : Nat → Nat → Option ℚ} (h : fit c lasso n F = some (.ok (o, B))) {i : Nat} (hi : i < n) :
    rowNan n B i = true ↔ i ∈ o.block := by
  rw [rowNan_iff]
  obtain ⟨ho, hb⟩ := fit_order h0 h
  constructor
  · rintro ⟨k, _, hk⟩
    exact ((C32_matrix h0 h i k hi).1.1 hk).1
  · intro hib
    rcases hb with hb | hb
    · rw [hb] at hib; simp at hib
    · have hnd : o.block.Nodup := by
        have := ho.1; unfold Order.flat at this; exact (List.nodup_append.1 this).1
      obtain ⟨k, hk, hki⟩ : ∃ k ∈ o.block, k ≠ i := by
        by_contra hcon
        push Not at hcon
        match hbl : o.block, hb, hnd, hcon with
        | a :: b :: l, _, hnd, hcon =>
          have h1 := hcon a (by simp)
          have h2 := hcon b (by simp)
          simp [h1, h2] at hnd
      refine ⟨k, (ho.2 k).1 (List.mem_append_left _ hk), ?_⟩
      exact ((C32_matrix h0 h i k hi).1).2 ⟨hib, hk, fun e => hki e.symm⟩

/-- Edges of the cleaned matrix follow the order. -/
theorem clean_before {F : Nat} {c : Cfg} {lasso : Direct.Lasso ℚ} {n : Nat} (h0 : n ≠ 0) {o : Order}
    {B : Nat → Nat → Option ℚ} (h : fit c lasso n F = some (.ok (o, B))) {a b : Nat}
    (hab : Edge n (Paths.clean B) 0 a b) : b ∈ o.rest ∧ Before o.flat a b := by
  obtain ⟨_, hb, hne⟩ := hab
  have hne := abs_pos.1 hne
  unfold Paths.clean Paths.nan0 at hne
  cases hB : B b a with
  | none => rw [hB] at hne; simp at hne
  | some w =>
    rw [hB] at hne
    have := (C32_matrix h0 h b a hb).2 w hB (by simpa using hne)
    exact ⟨this.1, this.2.1⟩

section pop
variable {n m : Nat} {B L X : Nat → Nat → ℚ} {σ : Nat → ℚ}

/-- A hidden cause of a resolved variable acts on no other variable, and its own effect is the weight. -/
theorem hidden_private (hX : SourceModel n m B L X) (hac : Acyclic (Edge n B 0)) {K : List Nat} (hnd : K.Nodup)
    (hO : Ordered n m B L X K) {i k : Nat} (hi : i ∈ K) (hin : i < n) (hk1 : n ≤ k) (hk2 : k < m) (hL : L i k ≠ 0) :
    ∀ w, w < n → w ≠ i → L w k = 0 := by
  have irr := Before.irrefl hnd
  have hanc : ∀ a b, TrueAncestor n B a b → a ∈ K → Before K a b :=
    fun a b hab ha => hO a ha b (hab.ne hac).symm ⟨hab.lt_right, Or.inl hab⟩
  have htouch : ∀ u, u < n → u ≠ i → X u k ≠ 0 → Before K i u :=
    fun u hu hui hXu => hO i hi u hui ⟨hu, Or.inr ⟨k, hk1, hk2, hL, hXu⟩⟩
  have hXi : X i k ≠ 0 := by
    rw [hX.2 i hin k hk2, if_neg (by omega), sum_eq_zero, zero_add]
    · exact hL
    · intro j hj
      have hjn := mem_range.1 hj
      by_contra hne
      have hB : B i j ≠ 0 := fun h => hne (by rw [h, zero_mul])
      have hXj : X j k ≠ 0 := fun h => hne (by rw [h, mul_zero])
      have hE := trueAncestor_of_edge hjn hin hB
      have h1 := htouch j hjn (hE.ne hac) hXj
      have h2 := hanc j i hE h1.mem_right
      exact irr _ (h1.trans hnd h2)
  intro w hw hwi
  by_contra hLw
  have hwi' : w ∈ K → Before K w i :=
    fun hwK => hO w hwK i hwi.symm ⟨hin, Or.inr ⟨k, hk1, hk2, hLw, hXi⟩⟩
  by_cases hXw : X w k = 0
  · rw [hX.2 w hw k hk2, if_neg (by omega)] at hXw
    have hsum : ∑ j ∈ range n, B w j * X j k ≠ 0 := fun h => hLw (by rw [h, zero_add] at hXw; exact hXw)
    obtain ⟨j, hj, hj0⟩ := exists_ne_zero_of_sum_ne_zero hsum
    have hjn := mem_range.1 hj
    have hB : B w j ≠ 0 := fun h => hj0 (by rw [h, zero_mul])
    have hXj : X j k ≠ 0 := fun h => hj0 (by rw [h, mul_zero])
    have hE := trueAncestor_of_edge hjn hw hB
    by_cases hji : j = i
    · subst hji
      have h1 := hanc j w hE hi
      exact irr _ (h1.trans hnd (hwi' h1.mem_right))
    · have h1 := htouch j hjn hji hXj
      have h2 := hanc j w hE h1.mem_right
      exact irr _ (h1.trans hnd (h2.trans hnd (hwi' h2.mem_right)))
  · have h1 := htouch w hw hwi hXw
    exact irr _ (h1.trans hnd (hwi' h1.mem_right))

/-- So it reaches every variable only through the resolved one. -/
theorem hidden_through (hX : SourceModel n m B L X) (hac : Acyclic (Edge n B 0)) {i k : Nat} (hin : i < n)
    (hk1 : n ≤ k) (hk2 : k < m) (hpriv : ∀ w, w < n → w ≠ i → L w k = 0) :
    ∀ d, d < n → X d k = X d i * L i k := by
  classical
  intro d hd
  by_contra hcon
  obtain ⟨p, hp, hmin⟩ := exists_minimal hac
    ((List.range n).filter (fun d => decide (X d k ≠ X d i * L i k)))
    (List.ne_nil_of_mem (List.mem_filter.2 ⟨List.mem_range.2 hd, by simpa using hcon⟩))
  simp only [List.mem_filter, List.mem_range, decide_eq_true_eq] at hp hmin
  obtain ⟨hpn, hpne⟩ := hp
  apply hpne
  rw [hX.2 p hpn k hk2, hX.2 p hpn i (hin.trans_le hX.1), if_neg (by omega), if_pos hin, add_mul, sum_mul]
  congr 1
  · refine sum_congr rfl fun j hj => ?_
    have hjn := mem_range.1 hj
    by_cases hB : B p j = 0
    · rw [hB]; ring
    · have : X j k = X j i * L i k := by
        by_contra hne
        exact hmin j ⟨hjn, hne⟩ ⟨hjn, hpn, abs_pos.2 hB⟩
      rw [this]; ring
  · by_cases hpi : i = p
    · rw [if_pos hpi, ← hpi]; ring
    · rw [if_neg hpi, hpriv p hpn (fun e => hpi e.symm)]; ring

/-- The covariance of a variable with the unexplained part of a resolved one is its total effect times a positive number. -/
theorem cov_own (hX : SourceModel n m B L X) (hac : Acyclic (Edge n B 0)) {K : List Nat} (hnd : K.Nodup)
    (hO : Ordered n m B L X K) {i : Nat} (hi : i ∈ K) (hin : i < n) (d : Nat) (hd : d < n) :
    popCov m σ (X d) (own n L i) = X d i * popCov m σ (own n L i) (own n L i) := by
  unfold popCov
  rw [mul_sum]
  refine sum_congr rfl fun k hk => ?_
  have hk2 := mem_range.1 hk
  unfold own
  by_cases hkn : k < n
  · rw [if_pos hkn]
    by_cases hki : k = i
    · subst hki
      simp only [if_true]
      ring
    · rw [if_neg hki]; ring
  · rw [if_neg hkn]
    by_cases hL : L i k = 0
    · rw [hL]; ring
    · rw [hidden_through hX hac hin (by omega) hk2 (hidden_private hX hac hnd hO hi hin (by omega) hk2 hL) d hd]
      ring

theorem own_pos (hX : SourceModel n m B L X) (hσ : ∀ k, k < m → 0 < σ k) {i : Nat} (hin : i < n) :
    popCov m σ (own n L i) (own n L i) ≠ 0 := by
  intro h
  have := popCov_self_eq_zero hσ h i (hin.trans_le hX.1)
  unfold own at this
  rw [if_pos hin, if_pos rfl] at this
  exact one_ne_zero this

/-- Regressing on a resolved variable and its parents gives the total effect. -/
theorem effect_coef (hX : SourceModel n m B L X) (hac : Acyclic (Edge n B 0)) (hσ : ∀ k, k < m → 0 < σ k) {K : List Nat}
    (hnd : K.Nodup) (hO : Ordered n m B L X K) {i : Nat} (hi : i ∈ K) (hin : i < n) {P : Finset Nat} (hiP : i ∈ P)
    (hP : ∀ h, h ∈ P ↔ h = i ∨ (h < n ∧ B i h ≠ 0)) {d : Nat} (hd : d < n) {c r : Nat → ℚ}
    (hr : IsRegression m σ X P (X d) c r) : c i = X d i := by
  have hPn : ∀ h ∈ P, h < n := by
    intro h hh
    rcases (hP h).1 hh with rfl | h'
    · exact hin
    · exact h'.1
  -- the unexplained part is a combination of the regressors
  have hown : ∀ k, k < m → own n L i k = ∑ h ∈ P, (if h = i then 1 else - B i h) * X h k := by
    intro k hk
    have hsub : ∑ h ∈ range n, B i h * X h k = ∑ h ∈ P.erase i, B i h * X h k := by
      symm
      refine sum_subset (fun h hh => mem_range.2 (hPn h (mem_erase.1 hh).2)) fun h hh hnot => ?_
      by_contra hne
      have hB : B i h ≠ 0 := fun h0 => hne (by rw [h0, zero_mul])
      refine hnot (mem_erase.2 ⟨?_, (hP h).2 (Or.inr ⟨mem_range.1 hh, hB⟩)⟩)
      exact (trueAncestor_of_edge (mem_range.1 hh) hin hB).ne hac
    have := hX.2 i hin k hk
    rw [hsub] at this
    rw [← add_sum_erase P _ hiP, if_pos rfl, one_mul, this]
    have e2 : ∑ h ∈ P.erase i, (if h = i then 1 else - B i h) * X h k = - ∑ h ∈ P.erase i, B i h * X h k := by
      rw [← sum_neg_distrib]
      exact sum_congr rfl fun h hh => by rw [if_neg (mem_erase.1 hh).1]; ring
    rw [e2]; unfold own; ring
  have h0 : popCov m σ r (own n L i) = 0 := by
    rw [popCov_comm, popCov_congr hown (fun _ _ => rfl), popCov_sum_left]
    refine sum_eq_zero fun h hh => ?_
    rw [popCov_comm, hr.2 h hh, mul_zero]
  rw [popCov_congr hr.1 (fun _ _ => rfl), popCov_sub_left, popCov_sum_left, cov_own hX hac hnd hO hi hin d hd] at h0
  have hs : ∑ h ∈ P, c h * popCov m σ (X h) (own n L i) = c i * popCov m σ (own n L i) (own n L i) := by
    rw [sum_eq_single i]
    · rw [cov_own hX hac hnd hO hi hin i hin, source_self hX hac hin, one_mul]
    · intro h hh hhi
      rw [cov_own hX hac hnd hO hi hin h (hPn h hh)]
      have : X h i = 0 := by
        by_contra hne
        rcases (hP h).1 hh with h' | ⟨hn, hB⟩
        · exact hhi h'
        · have hE := trueAncestor_of_edge hn hin hB
          rcases source_ancestor hX hac hn hin hne with h' | h'
          · exact hhi h'.symm
          · exact h'.asymm hac hE
      rw [this]; ring
    · exact fun h => absurd hiP h
  rw [hs, ← sub_mul] at h0
  rcases mul_eq_zero.1 h0 with h | h
  · linarith
  · exact absurd h (own_pos hX hσ hin)

end pop
end Verif.Parce
