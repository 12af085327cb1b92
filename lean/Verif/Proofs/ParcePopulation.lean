import Verif.Spec.ParceTests
import Verif.Proofs.Population
import Verif.Proofs.Parce

set_option linter.unusedSectionVars false
set_option autoImplicit false
namespace Verif.Parce
open Finset
open Direct (PK Part)

section pop
variable {n m : Nat} {B L X : Nat → Nat → ℚ} {σ : Nat → ℚ}

/-- The unexplained part of variable `j`: its own error and its hidden causes. -/
def own (n : Nat) (L : Nat → Nat → ℚ) (j : Nat) : Nat → ℚ := fun k => if k < n then (if k = j then 1 else 0) else L j k

/-- A passed test means that the variable has no effect on the others. -/
theorem indep_no_effect (hX : SourceModel n m B L X) (hac : Acyclic (Edge n B 0)) {S : Finset Nat}
    (hS : ∀ h ∈ S, h < n) {j : Nat} (hj : j ∈ S) (h : IndepOfOthers m σ X S j) : ∀ u ∈ S, u ≠ j → X u j = 0 := by
  intro u hu huj
  by_contra hne
  obtain ⟨r, ⟨c, hc, _⟩, hs⟩ := h
  have hz : ∀ v ∈ S, r v = 0 := by
    intro v hv
    by_cases hvj : v = j
    · subst hvj
      exact (hs u (mem_erase.2 ⟨huj, hu⟩) v ((hS v hv).trans_le hX.1)).resolve_right hne
    · refine (hs v (mem_erase.2 ⟨hvj, hv⟩) v ((hS v hv).trans_le hX.1)).resolve_right ?_
      rw [source_self hX hac (hS v hv)]; exact one_ne_zero
  have h0 : ∀ k ∈ S, ∑ h ∈ S, (if h = j then 1 else - c h) * X h k = 0 := by
    intro k hk
    rw [← add_sum_erase S _ hj, if_pos rfl, one_mul]
    have : ∑ h ∈ S.erase j, (if h = j then 1 else - c h) * X h k = - ∑ h ∈ S.erase j, c h * X h k := by
      rw [← sum_neg_distrib]
      exact sum_congr rfl fun h hh => by rw [if_neg (mem_erase.1 hh).1]; ring
    rw [this, ← sub_eq_add_neg, ← hc k ((hS k hk).trans_le hX.1)]
    exact hz k hk
  have := sources_independent_own hX hac hS h0 j hj
  rw [if_pos rfl] at this
  exact one_ne_zero this

/-- Regressing on a set that contains all parents of `j` and nothing that `j` touches leaves the unexplained part. -/
theorem own_regression (hX : SourceModel n m B L X) (hac : Acyclic (Edge n B 0)) {j : Nat} (hj : j < n) {P : Finset Nat}
    (hP : ∀ h ∈ P, h < n) (hpar : ∀ h, TrueAncestor n B h j → h ∈ P) (hjP : j ∉ P)
    (ht : ∀ u ∈ P, ¬ Touches n m B L X j u) :
    IsRegression m σ X P (X j) (fun h => B j h) (own n L j) ∧ ∀ u ∈ P, ShareNoSource m (own n L j) (X u) := by
  have hshare : ∀ u ∈ P, ShareNoSource m (own n L j) (X u) := by
    intro u hu k hk
    by_contra hcon
    push Not at hcon
    obtain ⟨h1, h2⟩ := hcon
    unfold own at h1
    split at h1
    · rename_i hkn
      split at h1
      · rename_i hkj
        subst hkj
        rcases source_ancestor hX hac (hP u hu) hkn h2 with rfl | h
        · exact hjP hu
        · exact ht u hu ⟨hP u hu, Or.inl h⟩
      · exact h1 rfl
    · rename_i hkn
      exact ht u hu ⟨hP u hu, Or.inr ⟨k, by omega, hk, h1, h2⟩⟩
  refine ⟨⟨?_, fun h hh => popCov_disjoint (hshare h hh)⟩, hshare⟩
  intro k hk
  have hsub : ∑ h ∈ range n, B j h * X h k = ∑ h ∈ P, B j h * X h k := by
    symm
    refine sum_subset (fun h hh => mem_range.2 (hP h hh)) fun h hh hnot => ?_
    by_contra hne
    exact hnot (hpar h (trueAncestor_of_edge (mem_range.1 hh) hj (fun h0 => hne (by rw [h0, zero_mul]))))
  have := hX.2 j hj k hk
  rw [hsub] at this
  rw [this]
  unfold own
  ring

/-- When all causes of the remaining variables remain, a candidate passes iff it touches none of the others. -/
theorem indep_iff (hX : SourceModel n m B L X) (hac : Acyclic (Edge n B 0))
    (hf : ∀ i j, TrueAncestor n B j i → X i j ≠ 0) {S : Finset Nat} (hS : ∀ h ∈ S, h < n)
    (hcl : ∀ a b, TrueAncestor n B a b → b ∈ S → a ∈ S) {j : Nat} (hj : j ∈ S) :
    IndepOfOthers m σ X S j ↔ ∀ u ∈ S, u ≠ j → ¬ Touches n m B L X j u := by
  have hpar : ∀ h, TrueAncestor n B h j → h ∈ S.erase j :=
    fun h hh => mem_erase.2 ⟨hh.ne hac, hcl h j hh hj⟩
  constructor
  · intro h u hu huj
    have hno := indep_no_effect hX hac hS hj h
    rintro ⟨_, ht | ⟨k, hk1, hk2, hL, hXu⟩⟩
    · exact hf u j ht (hno u hu huj)
    · obtain ⟨r, ⟨c, hc, _⟩, hs⟩ := h
      have hown : ∀ k, k < m → own n L j k = X j k - ∑ h ∈ S.erase j, B j h * X h k := by
        intro k hk
        have hsub : ∑ h ∈ range n, B j h * X h k = ∑ h ∈ S.erase j, B j h * X h k := by
          symm
          refine sum_subset (fun h hh => mem_range.2 (hS h (mem_erase.1 hh).2)) fun h hh hnot => ?_
          by_contra hne
          exact hnot (hpar h (trueAncestor_of_edge (mem_range.1 hh) (hS j hj) (fun h0 => hne (by rw [h0, zero_mul]))))
        have := hX.2 j (hS j hj) k hk
        rw [hsub] at this
        rw [this]; unfold own; ring
      have hcoef : ∀ h ∈ S.erase j, c h - B j h = 0 := by
        refine sources_independent_own hX hac (fun h hh => hS h (mem_erase.1 hh).2) fun v hv => ?_
        have hvn := hS v (mem_erase.1 hv).2
        have hvm := hvn.trans_le hX.1
        have hr : r v = 0 := by
          refine (hs v hv v hvm).resolve_right ?_
          rw [source_self hX hac hvn]; exact one_ne_zero
        have ho : own n L j v = 0 := by
          unfold own; rw [if_pos hvn, if_neg (mem_erase.1 hv).1]
        have e1 := hc v hvm
        have e2 := hown v hvm
        rw [hr] at e1
        rw [ho] at e2
        simp only [sub_mul, sum_sub_distrib]
        linarith
      have hrk : r k = own n L j k := by
        rw [hc k hk2, hown k hk2]
        congr 1
        exact sum_congr rfl fun h hh => by rw [sub_eq_zero.1 (hcoef h hh)]
      have := (hs u (mem_erase.2 ⟨huj, hu⟩) k hk2).resolve_right hXu
      rw [hrk] at this
      unfold own at this
      rw [if_neg (by omega)] at this
      exact hL this
  · intro h
    obtain ⟨h1, h2⟩ := own_regression (σ := σ) (P := S.erase j) hX hac (hS j hj) (fun u hu => hS u (mem_erase.1 hu).2) hpar
      (by simp) (fun u hu => h u (mem_erase.1 hu).2 (mem_erase.1 hu).1)
    exact ⟨_, ⟨_, h1⟩, h2⟩

/-- Regression coefficients are unique. -/
theorem regression_unique (hX : SourceModel n m B L X) (hac : Acyclic (Edge n B 0)) (hσ : ∀ k, k < m → 0 < σ k)
    {P : Finset Nat} (hP : ∀ h ∈ P, h < n) {v c c' r r' : Nat → ℚ} (h : IsRegression m σ X P v c r)
    (h' : IsRegression m σ X P v c' r') : ∀ u ∈ P, c u = c' u := by
  have hr := IsResidual.unique hσ ⟨c, h⟩ ⟨c', h'⟩
  intro u hu
  refine sub_eq_zero.1 (sources_independent hX hac hP (c := fun u => c u - c' u) (fun k hk => ?_) u hu)
  have e := hr k (hk.trans_le hX.1)
  rw [h.1 k (hk.trans_le hX.1), h'.1 k (hk.trans_le hX.1)] at e
  simp only [sub_mul, sum_sub_distrib]
  linarith

/-! ### The search -/

/-- The value reported for the candidate, right tests. -/
theorem passed_iff {c : Cfg} (ht : RightTests n m σ X c) {Uc : List Nat} (hnd : Uc.Nodup) (hlt : ∀ u ∈ Uc, u < n)
    {j : Nat} (hj : j ∈ Uc) : Passed c n (eval c Uc j) ↔ IndepOfOthers m σ X Uc.toFinset j := by
  unfold eval
  cases hfc : c.fc with
  | true => exact ht.fcorr hfc Uc j hnd hlt hj
  | false => exact ht.hsic hfc Uc j hnd hlt hj

theorem isReject_iff (c : Cfg) (e : ℚ) :
    isReject c (c.alpha / ((n : ℚ) - 1)) ((e : ℚ) : WithTop ℚ) = false ↔ Passed c n e := by
  unfold isReject Passed
  cases c.fc <;> simp

theorem cost_finite {c : Cfg} (ht : RightTests n m σ X c) {Uc : List Nat} (hl : 2 ≤ Uc.length) :
    ∃ j ∈ Uc, cost c Uc j ≠ ⊤ := by
  unfold cost
  cases hfc : c.fc with
  | true =>
    obtain ⟨j, hj⟩ := List.exists_mem_of_length_pos (l := Uc) (by omega)
    exact ⟨j, hj, by simp⟩
  | false => simpa [hfc] using ht.finite hfc Uc hl

/-- If some candidate is independent of the others, the chosen one is. -/
theorem best_indep {c : Cfg} (ht : RightTests n m σ X c) {Uc : List Nat} (hnd : Uc.Nodup) (hlt : ∀ u ∈ Uc, u < n)
    {w : Nat} (hw : w ∈ Uc) (hbest : ∀ j ∈ Uc, cost c Uc w ≤ cost c Uc j) {i : Nat} (hi : i ∈ Uc)
    (h : IndepOfOthers m σ X Uc.toFinset i) : IndepOfOthers m σ X Uc.toFinset w := by
  have hb := hbest i hi
  cases hfc : c.fc with
  | true =>
    rw [← passed_iff ht hnd hlt hi] at h
    rw [← passed_iff ht hnd hlt hw]
    unfold Passed eval at *
    unfold cost at hb
    rw [hfc] at hb h ⊢
    simp only [if_true, WithTop.coe_le_coe] at hb h ⊢
    exact lt_of_le_of_lt hb h
  | false =>
    by_contra hn
    have := ht.stat hfc Uc i w hnd hlt hi hw h hn
    unfold cost at hb
    rw [hfc] at hb
    simp only [Bool.false_eq_true, if_false] at hb
    exact absurd hb (not_le.2 this)

/-- Everything that a placed variable touches is placed after it. -/
def Ordered (n m : Nat) (B L X : Nat → Nat → ℚ) (K : List Nat) : Prop :=
  ∀ x ∈ K, ∀ u, u ≠ x → Touches n m B L X x u → Before K x u

theorem closed_of_ordered (hac : Acyclic (Edge n B 0)) {K U : List Nat} (hp : Part n K U) (hK : Ordered n m B L X K) :
    ∀ a b, TrueAncestor n B a b → b ∈ U.toFinset → a ∈ U.toFinset := by
  intro a b hab hb
  rw [List.mem_toFinset] at hb ⊢
  rcases (hp.2.2.2 a).2 hab.lt_left with ha | ha
  · obtain ⟨x, y, z, rfl⟩ := hK a ha b (hab.ne hac).symm ⟨hab.lt_right, Or.inl hab⟩
    exact absurd hb (hp.2.2.1 b (by simp))
  · exact ha

theorem ordered_cons {K U : List Nat} (hp : Part n K U) (hK : Ordered n m B L X K) {x : Nat}
    (hx : ∀ u ∈ U, u ≠ x → ¬ Touches n m B L X x u) : Ordered n m B L X (x :: K) := by
  intro y hy u huy ht
  rcases List.mem_cons.1 hy with rfl | hy
  · refine Before.of_mem_append (l := [y]) (by simp) ?_
    rcases (hp.2.2.2 u).2 ht.1 with h | h
    · exact h
    · exact absurd ht (hx u h huy)
  · exact (hK y hy u huy ht).of_append_right (l := [x])

/-- The search without prior knowledge. -/
theorem search_right (hX : SourceModel n m B L X) (hac : Acyclic (Edge n B 0))
    (hf : ∀ i j, TrueAncestor n B j i → X i j ≠ 0) {c : Cfg} (hpk : c.pk = none) (ht : RightTests n m σ X c) :
    ∀ (fuel : Nat) (K U : List Nat) (po : List (Nat × Nat)) (K' : List Nat), Part n K U → 2 ≤ U.length →
      Ordered n m B L X K → searchOrder c (c.alpha / ((n : ℚ) - 1)) fuel K U po = some (.ok K') →
      ∃ U', Part n K' U' ∧ Ordered n m B L X K' ∧ Entangled n m B L X U' ∧
        ∀ V, Entangled n m B L X V → (∀ v ∈ V, v ∈ U) → ∀ v ∈ V, v ∈ U'
  | 0, _, _, _, _, _, _, _, h => by simp [searchOrder] at h
  | fuel + 1, K, U, po, K', hp, hU, hK, h => by
    have hcand : searchCandidate c po U = U := by unfold searchCandidate; rw [hpk]
    have hlt : ∀ u ∈ U, u < n := fun u hu => (hp.2.2.2 u).1 (Or.inr hu)
    have hcl := closed_of_ordered hac hp hK
    have hiff : ∀ j ∈ U, IndepOfOthers m σ X U.toFinset j ↔ ∀ u ∈ U, u ≠ j → ¬ Touches n m B L X j u := by
      intro j hj
      rw [indep_iff hX hac hf (fun u hu => hlt u (List.mem_toFinset.1 hu)) hcl (List.mem_toFinset.2 hj)]
      simp only [List.mem_toFinset]
    rcases search_cases hU h with ⟨hrej, rfl⟩ | ⟨x, e, hx, hb, hr, hh⟩ | ⟨heq, hall, _, _⟩
    · refine ⟨U, hp, hK, ?_, fun V _ hV => hV⟩
      rw [hcand] at hrej
      intro j hj
      refine ⟨hlt j hj, ?_⟩
      by_contra hcon
      push Not at hcon
      have hij := (hiff j hj).2 hcon
      rcases findExo_cases c U U with ⟨x, e, hx, hfe, hb⟩ | ⟨_, _, hall⟩
      · rw [hfe] at hrej
        rcases hb with ⟨hb, _⟩ | ⟨_, he, _, hbest⟩
        · have := congrArg List.length hb; simp at this; omega
        · have hxi := best_indep ht hp.2.1 hlt hx hbest hj hij
          rw [← passed_iff ht hp.2.1 hlt hx, ← isReject_iff, ← he] at hxi
          rw [hxi] at hrej
          cases hrej
      · obtain ⟨j', hj', hne⟩ := cost_finite ht hU
        exact hne (hall j' hj')
    · rw [hcand] at hx hb
      rcases hb with ⟨hb, _⟩ | ⟨_, he, _, hbest⟩
      · have := congrArg List.length hb; simp at this; omega
      · have hxi : IndepOfOthers m σ X U.toFinset x := by
          rw [← passed_iff ht hp.2.1 hlt hx, ← he, ← isReject_iff]; exact hr
        have hno := (hiff x hx).1 hxi
        have hp' := Part.cons hp hx
        have hK' := ordered_cons hp hK hno
        have hstep : ∀ V, Entangled n m B L X V → (∀ v ∈ V, v ∈ U) → ∀ v ∈ V, v ∈ U.filter (fun i => decide (i ≠ x)) := by
          intro V hV hVU v hv
          rw [List.mem_filter, decide_eq_true_eq]
          refine ⟨hVU v hv, ?_⟩
          rintro rfl
          obtain ⟨_, u, hu, huv, htu⟩ := hV v hv
          exact hno u (hVU u hu) huv htu
        rcases hh with ⟨hl, rfl⟩ | ⟨hl, hs⟩
        · generalize hW : U.filter (fun i => decide (i ≠ x)) = W at *
          match W, hl, hp', hstep with
          | [], _, hp', hstep =>
            exact ⟨[], by simpa using hp', by simpa using hK', fun j hj => absurd hj (by simp), hstep⟩
          | [y], _, hp', hstep =>
            refine ⟨[], ?_, ?_, fun j hj => absurd hj (by simp), ?_⟩
            · have := Part.cons hp' (m := y) (by simp)
              simpa using this
            · exact ordered_cons hp' hK' (fun u hu hne => absurd (List.mem_singleton.1 hu) hne)
            · intro V hV hVU v hv
              obtain ⟨_, u, hu, huv, _⟩ := hV v hv
              have h1 := List.mem_singleton.1 (hstep V hV hVU v hv)
              have h2 := List.mem_singleton.1 (hstep V hV hVU u hu)
              exact absurd (h2.trans h1.symm) huv
        · obtain ⟨U', r1, r2, r3, r4⟩ := search_right hX hac hf hpk ht fuel _ _ _ _ hp' (by omega) hK' hs
          exact ⟨U', r1, r2, r3, fun V hV hVU => r4 V hV (hstep V hV hVU)⟩
    · obtain ⟨j', hj', hne⟩ := cost_finite ht hU
      exact absurd (hall j' hj') hne

/-- The search with prior knowledge about paths only: the order is right. -/
theorem search_paths (hX : SourceModel n m B L X) (hac : Acyclic (Edge n B 0))
    (hf : ∀ i j, TrueAncestor n B j i → X i j ≠ 0) {c : Cfg} {pk : PK} (hpk : c.pk = some pk)
    (ht : RightTests n m σ X c) {R : Nat → Nat → Prop} (hR : ∀ a b, R a b → TrueAncestor n B a b) :
    ∀ (fuel : Nat) (K U : List Nat) (po : List (Nat × Nat)) (K' : List Nat), Part n K U → 2 ≤ U.length →
      (∀ a b, (a, b) ∈ po ↔ R a b ∧ b ∉ K) → (∀ a b, TrueAncestor n B a b → a ∈ K → Before K a b) →
      searchOrder c (c.alpha / ((n : ℚ) - 1)) fuel K U po = some (.ok K') →
      ∀ a b, TrueAncestor n B a b → a ∈ K' → Before K' a b
  | 0, _, _, _, _, _, _, _, _, h => by simp [searchOrder] at h
  | fuel + 1, K, U, po, K', hp, hU, hpo, hK, h => by
    classical
    have hlt : ∀ u ∈ U, u < n := fun u hu => (hp.2.2.2 u).1 (Or.inr hu)
    have hsub := searchCandidate_sublist c po U
    have hnotU : ∀ b, b < n → b ∉ K → b ∈ U := fun b hb hbK => ((hp.2.2.2 b).2 hb).resolve_left hbK
    rcases search_cases hU h with ⟨_, rfl⟩ | ⟨x, e, hx, hb, hr, hh⟩ | ⟨heq, hall, _, _⟩
    · exact hK
    · have hxU := hsub.subset hx
      have hnd := hp.2.1.sublist hsub
      have hltc : ∀ u ∈ searchCandidate c po U, u < n := fun u hu => hlt u (hsub.subset hu)
      -- no remaining variable is a descendant of the accepted one
      have hno : ∀ u ∈ U, ¬ TrueAncestor n B x u := by
        rw [isReject_iff] at hr
        rcases hb with ⟨_, he⟩ | ⟨_, he, _, _⟩
        · rw [he, ht.single U x hp.2.1 hlt hxU] at hr
          intro u hu hxu
          exact hf u x hxu (indep_no_effect hX hac (fun v hv => hlt v (List.mem_toFinset.1 hv))
            (List.mem_toFinset.2 hxU) hr u (List.mem_toFinset.2 hu) (hxu.ne hac).symm)
        · rw [he, passed_iff ht hnd hltc hx] at hr
          intro u hu hxu
          obtain ⟨w, hw, hmin⟩ := exists_minimal (acyclic_flip (acyclic_ancestor hac))
            (U.filter (fun u => decide (TrueAncestor n B x u)))
            (List.ne_nil_of_mem (List.mem_filter.2 ⟨hu, by simpa using hxu⟩))
          simp only [List.mem_filter, decide_eq_true_eq] at hw hmin
          by_cases hwc : w ∈ searchCandidate c po U
          · exact hf w x hw.2 (indep_no_effect hX hac (fun v hv => hltc v (List.mem_toFinset.1 hv))
              (List.mem_toFinset.2 hx) hr w (List.mem_toFinset.2 hwc) (hw.2.ne hac).symm)
          · rw [mem_searchCandidate hpk] at hwc
            push Not at hwc
            obtain ⟨b, hb⟩ := hwc hw.1
            obtain ⟨hwb, hbK⟩ := (hpo w b).1 hb
            have hanc := hR w b hwb
            exact hmin b ⟨hnotU b hanc.lt_right hbK, hw.2.trans hanc⟩ hanc
      have hp' := Part.cons hp hxU
      have hK' : ∀ a b, TrueAncestor n B a b → a ∈ x :: K → Before (x :: K) a b := by
        intro a b hab ha
        rcases List.mem_cons.1 ha with rfl | ha
        · refine Before.of_mem_append (l := [a]) (by simp) ?_
          by_contra hbK
          exact hno b (hnotU b hab.lt_right hbK) hab
        · exact (hK a b hab ha).of_append_right (l := [x])
      rcases hh with ⟨hl, rfl⟩ | ⟨hl, hs⟩
      · intro a b hab ha
        rcases List.mem_append.1 ha with ha | ha
        · refine Before.of_mem_append ha ?_
          rcases (hp'.2.2.2 b).2 hab.lt_right with hb | hb
          · exact hb
          · exfalso
            have hab' := hab.ne hac
            generalize U.filter (fun i => decide (i ≠ x)) = V at *
            match V, hl, ha, hb with
            | [], _, ha, _ => simp at ha
            | [y], _, ha, hb =>
              simp only [List.mem_singleton] at ha hb
              exact hab' (ha.trans hb.symm)
        · exact (hK' a b hab ha).of_append_right
      · refine search_paths hX hac hf hpk ht hR fuel _ _ _ _ hp' (by omega) ?_ hK' hs
        intro a b
        rw [hpk]
        simp only [Option.isSome_some, if_true, List.mem_filter, decide_eq_true_eq, hpo, List.mem_cons, not_or]
        tauto
    · obtain ⟨j', hj', hne⟩ := cost_finite ht hU
      exact absurd (hall j' hj') hne

end pop

/-! ### Right tests exist -/

/-- The residual of `j` on the other variables of the list shares no source with them, computed. -/
def popIndep (m : Nat) (σ : Nat → ℚ) (X : Nat → Nat → ℚ) (l : List Nat) (j : Nat) : Bool :=
  let o := l.filter (fun u => decide (u ≠ j))
  let r := residual m σ X o (X j)
  o.all (fun u => (List.range m).all (fun k => decide (r k = 0 ∨ X u k = 0)))

theorem popIndep_iff {m : Nat} {σ : Nat → ℚ} (hσ : ∀ k, k < m → 0 < σ k) (X : Nat → Nat → ℚ) (l : List Nat) (j : Nat) :
    popIndep m σ X l j = true ↔ IndepOfOthers m σ X l.toFinset j := by
  have hset : (l.filter (fun u => decide (u ≠ j))).toFinset = l.toFinset.erase j := by
    ext u; simp only [List.mem_toFinset, List.mem_filter, decide_eq_true_eq, mem_erase]; tauto
  have hspec := residual_spec hσ X (l.filter (fun u => decide (u ≠ j))) (X j)
  rw [hset] at hspec
  have hmem : ∀ u, u ∈ l.filter (fun u => decide (u ≠ j)) ↔ u ∈ l.toFinset.erase j := by
    intro u; rw [← hset, List.mem_toFinset]
  unfold popIndep IndepOfOthers
  simp only [List.all_eq_true, List.mem_range, decide_eq_true_eq]
  constructor
  · intro h
    exact ⟨_, hspec, fun u hu k hk => h u ((hmem u).2 hu) k hk⟩
  · rintro ⟨r, hr, hs⟩ u hu k hk
    rw [hspec.unique hσ hr k hk]
    exact hs u ((hmem u).1 hu) k hk

/-- Tests computed from the coefficients: value 0 (F-correlation) or statistic 0, p-value 1 (HSIC) for independence. -/
def popCfg (m : Nat) (σ : Nat → ℚ) (X : Nat → Nat → ℚ) (pk : Option PK) (fc : Bool) : Cfg where
  pk := pk
  fc := fc
  alpha := 1 / 10
  indCorr := 1 / 2
  single U x := if popIndep m σ X U x = fc then 0 else 1
  hsic Uc j := if popIndep m σ X Uc j then ((0 : ℚ), 1) else ((1 : ℚ), 0)
  fcorr Uc j := if popIndep m σ X Uc j then 0 else 1

theorem popCfg_right {m : Nat} {σ : Nat → ℚ} (hσ : ∀ k, k < m → 0 < σ k) {n : Nat} (hn : 2 ≤ n) (X : Nat → Nat → ℚ)
    (pk : Option PK) (fc : Bool) : RightTests n m σ X (popCfg m σ X pk fc) := by
  have h1 : (1 : ℚ) / 10 / ((n : ℚ) - 1) ≤ 1 := by
    have : (2 : ℚ) ≤ n := by exact_mod_cast hn
    rw [div_le_iff₀ (by linarith)]; linarith
  have h0 : ¬ (1 : ℚ) / 10 / ((n : ℚ) - 1) ≤ 0 := by
    have : (2 : ℚ) ≤ n := by exact_mod_cast hn
    rw [not_le]
    have : (0 : ℚ) < (n : ℚ) - 1 := by linarith
    positivity
  refine ⟨?_, ?_, ?_, ?_, ?_⟩
  · intro U x _ _ _
    rw [← popIndep_iff hσ X U x]
    unfold Passed popCfg
    cases fc <;> cases hP : popIndep m σ X U x <;> simp only [hP, if_true, if_false, Bool.false_eq_true, iff_true,
      iff_false, reduceCtorEq] <;> first | assumption | norm_num
  · intro hfc Uc j _ _ _
    rw [← popIndep_iff hσ X Uc j]
    have hfc : fc = true := hfc
    subst hfc
    unfold Passed popCfg
    (cases hP : popIndep m σ X Uc j <;> simp [hP]); norm_num
  · intro hfc Uc j _ _ _
    rw [← popIndep_iff hσ X Uc j]
    have hfc : fc = false := hfc
    subst hfc
    unfold Passed popCfg
    cases hP : popIndep m σ X Uc j <;> simp only [hP, if_true, if_false, Bool.false_eq_true, iff_true, iff_false] <;>
      assumption
  · intro _ Uc i j _ _ _ _ hi hj
    rw [← popIndep_iff hσ X Uc] at hi hj
    simp only [popCfg, hi, if_true, if_neg hj]
    exact_mod_cast (by norm_num : (0 : ℚ) < 1)
  · intro _ Uc hl
    obtain ⟨j, hj⟩ := List.exists_mem_of_length_pos (l := Uc) (by omega)
    refine ⟨j, hj, ?_⟩
    simp only [popCfg]
    split <;> exact WithTop.coe_ne_top

theorem rightCoef_exists {m : Nat} {σ : Nat → ℚ} (hσ : ∀ k, k < m → 0 < σ k) (n : Nat) (X : Nat → Nat → ℚ) :
    ∃ lasso : Direct.Lasso ℚ, RightCoef n m σ X lasso := by
  classical
  choose r hr using fun (ps : List Nat) (x : Nat) => exists_residual hσ X ps.toFinset (X x)
  choose c hc using hr
  exact ⟨c, fun ps x _ _ _ => ⟨r ps x, hc ps x⟩⟩

end Verif.Parce
