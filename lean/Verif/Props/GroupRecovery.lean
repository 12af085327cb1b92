import Verif.Props.DirectData
import Verif.Props.MultiGroup
import Verif.Model.MultiGroupData

/-!
# MultiGroupDirectLiNGAM on data: recovery of the models of all groups (C156)

The groups share a causal order but not the coefficients, nor the set of edges.
-/
set_option linter.unusedSectionVars false
set_option autoImplicit false
namespace Verif.MultiGroup
open Finset Verif.Direct

/-- A sample with the truth about it: coefficients and errors. -/
structure Group extends Sample where
  B : Nat → Nat → ℚ
  e : Nat → Fin N → ℚ

/-- The group follows its linear model, and statistic and regressions are right for it. -/
structure GroupRight (n : Nat) (g : Group) : Prop where
  errors : GoodErrors n g.e
  follows : FollowsModel (range n) g.B g.X g.e
  statistic : PwlingRight g.num n g.B g.e
  regressions : RegressionRight n g.B g.X g.select g.ols

/-- The edges of all groups together and the hard prior knowledge have no cycle. -/
def GroupsCompatible (pk : Option PK) (n : Nat) (gs : List Group) : Prop :=
  Acyclic (fun a b => (∃ g ∈ gs, Edge n g.B 0 a b) ∨ ∃ q, pk = some q ∧ MustPrecede n q a b)

open Classical in
/-- One if some group has the effect. -/
noncomputable def unionB (gs : List Group) (i j : Nat) : ℚ := if ∃ g ∈ gs, g.B i j ≠ 0 then 1 else 0

theorem unionB_ne {gs : List Group} {i j : Nat} : unionB gs i j ≠ 0 ↔ ∃ g ∈ gs, g.B i j ≠ 0 := by
  unfold unionB; split <;> simp_all

theorem pwlingM_nonneg {N : Nat} (num : Numerics N) (X : Nat → Fin N → ℚ) (U Uc Vj : List Nat) (i : Nat) :
    0 ≤ pwlingM num X U Uc Vj i := by
  unfold pwlingM
  refine List.sum_nonneg ?_
  intro x hx
  obtain ⟨j, _, rfl⟩ := List.mem_map.1 hx
  exact sq_nonneg _

theorem groupScore_some (n : Nat) (gs : List Group) (A U Uc Vj : List Nat) (i : Nat) :
    groupScore ((gs.map Group.toSample).map (Sample.data n)) A U Uc Vj i = some (-((gs.map fun g =>
      pwlingM g.num (working id n g.X A).1 U Uc Vj i * ((g.N : ℚ) / ((gs.map fun g => g.N).sum : ℕ))).sum)) := by
  unfold groupScore
  rw [if_neg (by simp [Sample.data])]
  congr 2
  simp only [List.map_map]
  rfl

/-- One group, one stage of the search: the statistic is zero for variables without remaining parents and positive for
variables with one. -/
theorem stage {n : Nat} {g : Group} (hg : GroupRight n g) {A U : List Nat} (Uc : List Nat) (hA : A.Nodup) (hAn : ∀ a ∈ A, a < n)
    (htop : ∀ pre m post, A = pre ++ m :: post → ∀ j, j < n → g.B m j ≠ 0 → j ∈ pre)
    (hmem : ∀ x, x ∈ U ↔ x < n ∧ x ∉ A) {x : Nat} (hx : x ∈ U) :
    ((∀ j ∈ U, g.B x j = 0) → pwlingM g.num (working id n g.X A).1 U Uc [] x = 0) ∧
    ((∃ j ∈ U, g.B x j ≠ 0) → 0 < pwlingM g.num (working id n g.X A).1 U Uc [] x) := by
  have hfin : U.toFinset = (range n).filter (fun i => i ∉ A) := by ext z; simp [hmem]
  have hf := working_follows hg.errors hg.follows A hA hAn htop
  rw [← hfin] at hf
  have hsub : U.toFinset ⊆ range n := by rw [hfin]; exact filter_subset _ _
  have e1 : ∀ i j, pairDiff g.num (working id n g.X A).1 Uc [] i j =
      advantage g.num ((working id n g.X A).1 i) ((working id n g.X A).1 j) := by
    intro i j; simp [pairDiff, advantage, entropyGap_eq]
  have hr := hg.statistic U.toFinset _ hsub hf x (by simpa using hx)
  refine ⟨fun h => ?_, fun h => ?_⟩
  · refine pwlingM_zero fun j hj hjx => ?_
    rw [e1]
    exact hr.1 (fun j hj => h j (by simpa using hj)) j (by simpa using hj) hjx
  · obtain ⟨j0, hj0, hB0⟩ := h
    obtain ⟨k, hk, hky, hlt⟩ := hr.2 ⟨j0, by simpa using hj0, hB0⟩
    exact pwlingM_pos ⟨k, by simpa using hk, hky, by rw [e1]; exact hlt⟩

theorem size_pos {n : Nat} {g : Group} (hg : GroupRight n g) {x : Nat} (hx : x < n) : 0 < g.N := by
  obtain ⟨r, _, _⟩ := hg.errors.2 x hx
  exact r.pos

/-- The order of all groups together. -/
theorem group_order {pk : Option PK} {n : Nat} {gs : List Group} (hg : ∀ g ∈ gs, GroupRight n g)
    (hc : GroupsCompatible pk n gs) {order : List Nat} (h : fitOrder pk false ((gs.map Group.toSample).map (Sample.data n)) n = .ok order)
    {g : Group} (hgs : g ∈ gs) :
    ∀ pre m post, order = pre ++ m :: post → ∀ j, j < n → g.B m j ≠ 0 → j ∈ pre := by
  have hall : ∀ pre m post, order = pre ++ m :: post → ∀ j, j < n → unionB gs m j ≠ 0 → j ∈ pre := by
    refine order_recovers (cfg := ⟨pk, false, .pwling⟩) (score := groupScore ((gs.map Group.toSample).map (Sample.data n))) rfl (by simp)
      (groupScore_some n gs) ?_ ?_ h
    · intro i hi
      refine hc i (Relation.TransGen.mono ?_ i i hi)
      rintro a b (⟨h1, h2, h3⟩ | h)
      · obtain ⟨g, hg, hB⟩ := unionB_ne.1 (abs_pos.1 h3)
        exact Or.inl ⟨g, hg, h1, h2, abs_pos.2 hB⟩
      · exact Or.inr h
    · intro A U Uc hA hAn htop hU hmem x hx hxe y hy hyp
      have htg : ∀ g ∈ gs, ∀ pre m post, A = pre ++ m :: post → ∀ j, j < n → g.B m j ≠ 0 → j ∈ pre :=
        fun g hgs pre m post hs j hj hB => htop pre m post hs j hj (unionB_ne.2 ⟨g, hgs, hB⟩)
      have hyn : y < n := ((hmem y).1 hy).1
      have hxz : (gs.map fun g => pwlingM g.num (working id n g.X A).1 U Uc [] x *
          ((g.N : ℚ) / ((gs.map fun g => g.N).sum : ℕ))).sum = 0 := by
        refine List.sum_eq_zero ?_
        intro q hq
        obtain ⟨g, hgm, rfl⟩ := List.mem_map.1 hq
        rw [(stage (hg g hgm) Uc hA hAn (htg g hgm) hmem hx).1 (fun j hj => by
          by_contra hB; exact unionB_ne.2 ⟨g, hgm, hB⟩ (hxe j hj)), zero_mul]
      obtain ⟨j0, hj0, hB0⟩ := hyp
      obtain ⟨g0, hg0, hgB⟩ := unionB_ne.1 hB0
      have hpos : 0 < (gs.map fun g => pwlingM g.num (working id n g.X A).1 U Uc [] y *
          ((g.N : ℚ) / ((gs.map fun g => g.N).sum : ℕ))).sum := by
        have hsum : 0 < (gs.map fun g => g.N).sum :=
          lt_of_lt_of_le (size_pos (hg g0 hg0) hyn) (List.le_sum_of_mem (List.mem_map_of_mem hg0))
        have hnn : ∀ q ∈ gs.map (fun g => pwlingM g.num (working id n g.X A).1 U Uc [] y *
            ((g.N : ℚ) / ((gs.map fun g => g.N).sum : ℕ))), 0 ≤ q := by
          intro q hq
          obtain ⟨g, _, rfl⟩ := List.mem_map.1 hq
          exact mul_nonneg (pwlingM_nonneg _ _ _ _ _ _) (div_nonneg (Nat.cast_nonneg _) (Nat.cast_nonneg _))
        have h0 : 0 < pwlingM g0.num (working id n g0.X A).1 U Uc [] y * ((g0.N : ℚ) / ((gs.map fun g => g.N).sum : ℕ)) :=
          mul_pos ((stage (hg g0 hg0) Uc hA hAn (htg g0 hg0) hmem hy).2 ⟨j0, hj0, hgB⟩)
            (div_pos (by exact_mod_cast size_pos (hg g0 hg0) hyn) (by exact_mod_cast hsum))
        exact lt_of_lt_of_le h0 (List.single_le_sum hnn _ (List.mem_map_of_mem
          (f := fun g : Group => pwlingM g.num (working id n g.X A).1 U Uc [] y * ((g.N : ℚ) / ((gs.map fun g => g.N).sum : ℕ))) hg0))
      show -_ < -_
      rw [hxz]
      linarith
  intro pre m post hs j hj hB
  exact hall pre m post hs j hj (unionB_ne.2 ⟨g, hgs, hB⟩)

/-- **C156.** The groups follow linear models with possibly different edges and coefficients whose union has no cycle (also
together with the prior knowledge, which denies no true edge).  If the pairwise statistic and the regressions are right in
every group, `fit` succeeds, the common order puts causes before effects in every group, and the matrix of every group is
its true matrix. -/
theorem C156_recovered {pk : Option PK} {n : Nat} {gs : List Group} (hg : ∀ g ∈ gs, GroupRight n g)
    (hc : GroupsCompatible pk n gs) (hz : ∀ g ∈ gs, ZerosTrue ⟨pk, false, .pwling⟩ n g.B) :
    ∃ order Bs, fitSamples pk false (gs.map Group.toSample) n = .ok (order, Bs) ∧ IsOrder n order ∧ Bs.length = gs.length ∧
      (∀ g ∈ gs, ∀ i j, i < n → j < n → g.B i j ≠ 0 → Before order j i) ∧
      ∀ (k : Nat) (g : Group), gs[k]? = some g → ∃ Bh, Bs[k]? = some Bh ∧ ∀ i j, i < n → j < n → Bh i j = g.B i j := by
  have hcc : Compatible ⟨pk, false, .pwling⟩ n (unionB gs) := by
    intro i hi
    refine hc i (Relation.TransGen.mono ?_ i i hi)
    rintro a b (⟨h1, h2, h3⟩ | h)
    · obtain ⟨g, hg, hB⟩ := unionB_ne.1 (abs_pos.1 h3)
      exact Or.inl ⟨g, hg, h1, h2, abs_pos.2 hB⟩
    · exact Or.inr h
  obtain ⟨order, h⟩ := compatible_total rfl hcc (groupScore ((gs.map Group.toSample).map (Sample.data n)))
  have hfit : fitSamples pk false (gs.map Group.toSample) n =
      .ok (order, ((gs.map Group.toSample).map (Sample.data n)).map fun g => estimateAdj pk g.lasso order) := by
    unfold fitSamples fit fitOrder; rw [h]
  refine ⟨order, _, hfit, fitOrder_isOrder h, by simp, ?_, ?_⟩
  · intro g hgs
    exact before_of_parents (fitOrder_isOrder h) (group_order hg hc h hgs)
  · intro k g hk
    have hgs := List.mem_of_getElem? hk
    refine ⟨estimateAdj pk (Sample.data n g.toSample).lasso order, by simp [hk], ?_⟩
    intro i j hi hj
    exact adjacency_recovered (hg g hgs).errors (hg g hgs).follows (hg g hgs).regressions (hz g hgs) h
      (group_order hg hc h hgs) i j hi hj

/-- C156, effects: after such a fit `estimate_total_effect` gives for every group the true total effect of the group. -/
theorem C156_total_effects {pk : Option PK} {n : Nat} {gs : List Group} (hg : ∀ g ∈ gs, GroupRight n g)
    (hc : GroupsCompatible pk n gs) (hz : ∀ g ∈ gs, ZerosTrue ⟨pk, false, .pwling⟩ n g.B) :
    ∃ order Bs, fitSamples pk false (gs.map Group.toSample) n = .ok (order, Bs) ∧
      ∀ src dst, src < n → dst < n → src ≠ dst →
        (totalEffects (gs.map Group.toSample) n Bs src dst).length = gs.length ∧
        ∀ (k : Nat) (g : Group), gs[k]? = some g →
          ∃ t, (totalEffects (gs.map Group.toSample) n Bs src dst)[k]? = some t ∧
            Paths.calcTotalEffect n (fun i j => some (g.B i j)) src dst = some (.ok (some t)) := by
  obtain ⟨order, Bs, h, ho, hlen, hb, hB⟩ := C156_recovered hg hc hz
  refine ⟨order, Bs, h, ?_⟩
  intro src dst hsrc hdst hne
  refine ⟨by simp [totalEffects, hlen], ?_⟩
  intro k g hk
  have hgs := List.mem_of_getElem? hk
  obtain ⟨Bh, hBk, hBe⟩ := hB k g hk
  refine ⟨estimateTotalEffect g.ols n Bh src dst, by simp [totalEffects, List.getElem?_zipWith, List.zip, hk, hBk], ?_⟩
  refine C95_total_effect_recovered (hg g hgs).errors (hg g hgs).follows ho (hb g hgs) hsrc hdst hne ?_ ?_
    (hg g hgs).regressions.1
  · intro j hj hB; rw [hBe src j hsrc hj]; exact hB
  · intro j hj hB; rw [hBe src j hsrc hj] at hB; exact hb g hgs src j hsrc hj hB

/-! ### A concrete case -/

/-- The group with the edge 0 → 1 of `Verif.Props.DirectData`. -/
def groupA : Group := ⟨⟨4, exRight, exX, fun _ _ _ => true, exOls⟩, oneEdge, exE⟩

/-- Least squares on the errors. -/
def exOlsE : Ols := fun S t p =>
  if t ∈ S then (if p = t then 1 else 0) else sampleCov (exE t) (exE p) / sampleCov (exE p) (exE p)

/-- A group without edges. -/
def groupB : Group := ⟨⟨4, exRight, exE, fun _ _ _ => true, exOlsE⟩, fun _ _ => 0, exE⟩

theorem groupA_right : GroupRight 2 groupA := ⟨exE_good, exX_follows, exPwlingRight, exRegressionRight⟩

theorem groupB_right : GroupRight 2 groupB := by
  refine ⟨exE_good, ?_, ?_, ?_, fun _ _ _ _ _ _ => rfl⟩
  · intro i _ r; simp [groupB]
  · intro U Y hU hY i hi
    have hYe : ∀ j ∈ U, Y j = exE j := by
      intro j hj; funext r; have := hY j hj r; simpa [groupB] using this
    have hlt : ∀ j ∈ U, j = 0 ∨ j = 1 := by
      intro j hj; have := mem_range.1 (hU hj); omega
    refine ⟨fun _ j hj hji => ?_, fun ⟨j, _, h⟩ => absurd rfl h⟩
    rw [hYe i hi, hYe j hj]
    rcases hlt i hi with rfl | rfl <;> rcases hlt j hj with rfl | rfl
    · exact absurd rfl hji
    · decide +kernel
    · decide +kernel
    · exact absurd rfl hji
  · intro S t hS hn ht q hq
    change Uncorrelated (fun r => exE t r - (S.map (fun p => exOlsE S t p * exE p r)).sum) (exE q)
    by_cases htS : t ∈ S
    · have h0 : ∀ r, exE t r - (S.map (fun p => exOlsE S t p * exE p r)).sum = 0 := by
        intro r
        rw [← List.sum_toFinset _ hS, sum_eq_single t]
        · simp [exOlsE, htS]
        · intro b _ hb; simp [exOlsE, htS, hb]
        · intro h; exact absurd (by simpa using htS) h
      rw [uncorrelated_iff]
      simp only [h0]
      exact sampleCov_zero_left _
    · have hc : ∀ p ∈ S, sampleCov (exE t) (exE p) = 0 := by
        intro p hp
        exact uncorrelated_iff.1 (exE_good.1 t p ht (hn p hp) fun h => htS (h ▸ hp))
      have h0 : ∀ r, (S.map (fun p => exOlsE S t p * exE p r)).sum = 0 := by
        intro r
        refine List.sum_eq_zero ?_
        intro y hy
        obtain ⟨p, hp, rfl⟩ := List.mem_map.1 hy
        simp [exOlsE, htS, hc p hp]
      rw [uncorrelated_iff]
      simp only [h0, sub_zero]
      exact hc q hq

theorem groups_compatible : GroupsCompatible none 2 [groupA, groupB] := by
  refine acyclic_of_before (l := [0, 1]) (by decide) ?_
  rintro a b (⟨g, hg, _, _, h⟩ | ⟨pk, h, _⟩)
  · rcases List.mem_pair.1 hg with rfl | rfl
    · change 0 < |oneEdge b a| at h
      unfold oneEdge at h
      split at h
      · rename_i hh; obtain ⟨rfl, rfl⟩ := hh; exact ⟨[], [], [], rfl⟩
      · simp at h
    · simp [groupB] at h
  · cases h

/-- All hypotheses of C156 hold for the two groups, which have different edges. -/
example : ∃ order B1 B2, fitSamples none false ([groupA, groupB].map Group.toSample) 2 = .ok (order, [B1, B2]) ∧
    ∀ i j, i < 2 → j < 2 → B1 i j = oneEdge i j ∧ B2 i j = 0 := by
  obtain ⟨order, Bs, h, _, hl, _, hB⟩ := C156_recovered (gs := [groupA, groupB]) (by simp [groupA_right, groupB_right])
    groups_compatible (fun _ _ pk h => by cases h)
  match Bs, hl with
  | [B1, B2], _ =>
    obtain ⟨_, h1, e1⟩ := hB 0 groupA rfl
    obtain ⟨_, h2, e2⟩ := hB 1 groupB rfl
    cases h1; cases h2
    exact ⟨order, B1, B2, h, fun i j hi hj => ⟨e1 i j hi hj, e2 i j hi hj⟩⟩

example : fitOrder none false (([groupB, groupA].map Group.toSample).map (Sample.data 2)) 2 = .ok [0, 1] := by
  decide +kernel

end Verif.MultiGroup
