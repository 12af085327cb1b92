import Verif.Spec.CamGroups
import Verif.Proofs.CamPopulation

set_option linter.unusedSectionVars false
set_option autoImplicit false
namespace Verif.Camuv
open Finset
open Rcd (Anc combos addAncestors mem_combos pair_sublist_range listOf listOf_toFinset)

section groups
variable {n : Nat} {gs : List Pop} {c : Cfg}

theorem GroupEdge.lt {j i : Nat} (h : GroupEdge n gs j i) : j < n ∧ i < n := by
  obtain ⟨g, _, h⟩ := h
  exact ⟨h.1, h.2.1⟩

theorem GroupAncestor.lt_left {j i : Nat} (h : GroupAncestor n gs j i) : j < n := by
  rcases Relation.TransGen.head'_iff.1 h with ⟨_, h, _⟩
  exact h.lt.1

theorem groupAncestor_of {g : Pop} (hg : g ∈ gs) {j i : Nat} (h : TrueAncestor n g.B j i) : GroupAncestor n gs j i := by
  unfold TrueAncestor at h
  exact Relation.TransGen.mono (fun _ _ h => ⟨g, hg, h⟩) j i h

theorem CommonOrder.acyc (ho : CommonOrder n gs) {g : Pop} (hg : g ∈ gs) : Acyclic (Edge n g.B 0) := fun i hi =>
  ho.acyclic i (Relation.TransGen.mono (fun _ _ h => ⟨g, hg, h⟩) i i hi)

theorem CommonOrder.acyc_anc (ho : CommonOrder n gs) : Acyclic (GroupAncestor n gs) := by
  intro i hi
  have : Relation.TransGen (Relation.TransGen (GroupEdge n gs)) i i := hi
  rw [Relation.transGen_eq_self] at this
  exact ho.acyclic i this

theorem CommonOrder.zero (ho : CommonOrder n gs) {g : Pop} (hg : g ∈ gs) {i j : Nat} (hi : i < n) (hj : j < n) (hij : i ≠ j)
    (hna : ¬ GroupAncestor n gs j i) : g.X i j = 0 := by
  by_contra h
  rcases source_ancestor (ho.valid g hg).1 (ho.acyc hg) hi hj h with h | h
  · exact hij h.symm
  · exact hna (groupAncestor_of hg h)

/-- Residuals on causes keep the own error. -/
theorem CommonOrder.own (ho : CommonOrder n gs) {g : Pop} (hg : g ∈ gs) {j : Nat} (hj : j < n) {S : Finset Nat}
    (hS : ∀ s ∈ S, GroupAncestor n gs s j) {y : Nat → ℚ} (hy : IsResidual g.m g.σ g.X S (g.X j) y) : y j = 1 := by
  obtain ⟨e, he, _⟩ := hy
  have hX := (ho.valid g hg).1
  rw [he j (hj.trans_le hX.1), source_self hX (ho.acyc hg) hj, sum_eq_zero, sub_zero]
  intro s hs
  have hs' := hS s hs
  rw [ho.zero hg hs'.lt_left hj (fun h => ho.acyclic j (h ▸ hs')) (fun h => ho.acyclic j (h.trans hs')), mul_zero]

theorem PooledRight.pair (ht : PooledRight n gs c) {a b : Nat} {A S : Finset Nat} (ha : a < n) (hb : b < n)
    (hA : A ⊆ range n) (hS : S ⊆ range n) : isInd c (c.val a A [(b, S)]) = true ↔
      ∀ g ∈ gs, ∃ r y, IsResidual g.m g.σ g.X A (g.X a) r ∧ IsResidual g.m g.σ g.X S (g.X b) y ∧ ShareNoSource g.m r y := by
  rw [ht.indep a A [(b, S)] ha hA (by simpa using ⟨hb, hS⟩)]
  refine forall₂_congr fun g _ => ?_
  constructor
  · rintro ⟨r, h1, h2⟩
    obtain ⟨y, h3, h4⟩ := h2 (b, S) (by simp)
    exact ⟨r, y, h1, h3, h4⟩
  · rintro ⟨r, y, h1, h2, h3⟩
    refine ⟨r, h1, fun q hq => ?_⟩
    rw [List.mem_singleton] at hq
    subst hq
    exact ⟨y, h2, h3⟩

theorem PooledRight.symm (ht : PooledRight n gs c) {a b : Nat} {A S : Finset Nat} (ha : a < n) (hb : b < n)
    (hA : A ⊆ range n) (hS : S ⊆ range n) : isInd c (c.val a A [(b, S)]) = isInd c (c.val b S [(a, A)]) := by
  rw [Bool.eq_iff_iff, ht.pair ha hb hA hS, ht.pair hb ha hS hA]
  constructor <;>
  · intro h g hg
    obtain ⟨r, y, h1, h2, h3⟩ := h g hg
    exact ⟨y, r, h2, h1, fun k hk => (h3 k hk).symm⟩

/-- Everything recorded is a cause. -/
def SoundG (n : Nat) (gs : List Pop) (P : Anc) : Prop := ∀ i j, j ∈ P i → GroupAncestor n gs j i

theorem soundG_range {P : Anc} (hP : SoundG n gs P) (i : Nat) : P i ⊆ range n :=
  fun j hj => mem_range.2 (hP i j hj).lt_left

/-- A pair that passes both tests is in causal order, hidden causes or not. -/
theorem pair_soundG (ho : CommonOrder n gs) (ht : PooledRight n gs c) {P : Anc}
    (hP : SoundG n gs P) {i j : Nat} (hi : i < n) (hj : j < n) (hij : i ≠ j)
    (hind : isInd c (c.val i ({j} ∪ P i) [(j, P j)]) = true) (hdep : isInd c (c.val i (P i) [(j, P j)]) = false) :
    GroupAncestor n gs j i := by
  by_contra hna
  have hjP : j ∉ P i := fun h => hna (hP i j h)
  have hU : {j} ∪ P i ⊆ range n := union_subset (by simpa using hj) (soundG_range hP i)
  have hall := (ht.pair hi hj hU (soundG_range hP j)).1 hind
  have := (ht.pair hi hj (soundG_range hP i) (soundG_range hP j)).2 (by
    intro g hg
    obtain ⟨r, y, ⟨e, he, hoo⟩, hy, hs⟩ := hall g hg
    have hX := (ho.valid g hg).1
    have hac := ho.acyc hg
    have hjm : j < g.m := hj.trans_le hX.1
    have hyj : y j = 1 := ho.own hg hj (fun s hs => hP j s hs) hy
    have hrj : r j = 0 := by
      rcases hs j hjm with h | h
      · exact h
      · rw [hyj] at h; exact absurd h one_ne_zero
    have hXij : g.X i j = 0 := ho.zero hg hi hj hij hna
    have hXh : ∀ h ∈ P i, g.X h j = 0 := fun h hh =>
      ho.zero hg (hP i h hh).lt_left hj (fun e => hjP (e ▸ hh)) (fun h' => hna (h'.trans (hP i h hh)))
    have hsplit : ∀ k, ∑ h ∈ {j} ∪ P i, e h * g.X h k = e j * g.X j k + ∑ h ∈ P i, e h * g.X h k := by
      intro k
      rw [← insert_eq, sum_insert hjP]
    have hej : e j = 0 := by
      have := he j hjm
      rw [hrj, hXij, hsplit, source_self hX hac hj, sum_eq_zero (fun h hh => by rw [hXh h hh, mul_zero])] at this
      linarith
    refine ⟨r, y, ⟨e, fun k hk => ?_, fun h hh => hoo h (mem_union_right _ hh)⟩, hy, hs⟩
    rw [he k hk, hsplit, hej, zero_mul, zero_add])
  rw [hdep] at this
  cases this

theorem body_soundG (ho : CommonOrder n gs) (ht : PooledRight n gs c) {N P : Anc}
    {V : List Nat} (b : Bool) (hV : V ∈ combos 2 (List.range n)) (hP : SoundG n gs P) :
    SoundG n gs (body c N (P, b) V).1 := by
  rcases body_cases ht.iter N (P, b) V with h | ⟨i, v, _, hel, hv, hind, hdep, hb⟩
  · rw [h]; exact hP
  · rw [hb]
    intro x y hy
    rcases mem_addAncestors.1 hy with h | ⟨rfl, h⟩
    · exact hP x y h
    · obtain ⟨hyV, hyx⟩ := mem_rest.1 h
      obtain ⟨hsub, hlen⟩ := mem_combos.1 hV
      have hlt : ∀ x ∈ V, x < n := fun x hx => List.mem_range.1 (hsub.subset hx)
      have hrest : rest V x = [y] := by
        obtain ⟨a, b, rfl⟩ := List.length_eq_two.1 hlen
        have hnd : [a, b].Nodup := hsub.nodup List.nodup_range
        have hab : a ≠ b := by simpa using hnd
        have hx := hel.1
        simp only [List.mem_cons, List.not_mem_nil, or_false] at hx hyV
        rcases hx with rfl | rfl
        · rcases hyV with rfl | rfl
          · exact absurd rfl hyx
          · exact (rest_pair hab).1
        · rcases hyV with rfl | rfl
          · exact (rest_pair hab).2
          · exact absurd rfl hyx
      refine pair_soundG ho ht hP (hlt _ hel.1) (hlt _ hyV) hyx.symm ?_ (hdep y hyV hyx)
      rw [← hind, ← hv]
      unfold childVal
      rw [hrest]
      rfl

/-! ### Variables without hidden causes -/

theorem CleanAbove.anc {i j : Nat} (h : CleanAbove n gs i) (hj : GroupAncestor n gs j i) : CleanAbove n gs j := by
  intro g hg a ha
  refine h g hg a (Or.inr ?_)
  rcases ha with rfl | ha
  · exact hj
  · exact ha.trans hj

theorem cleanG_eq (ho : CommonOrder n gs) {g : Pop} (hg : g ∈ gs) {i : Nat} (hi : i < n)
    (hc : CleanAbove n gs i) {S : Finset Nat} (hS : ∀ s ∈ S, GroupAncestor n gs s i)
    (hpa : ∀ j, GroupEdge n gs j i → j ∈ S) : IsResidual g.m g.σ g.X S (g.X i) (fun k => if k = i then 1 else 0) := by
  have hX := (ho.valid g hg).1
  have hac := ho.acyc hg
  have him : i < g.m := hi.trans_le hX.1
  refine ⟨g.B i, ?_, ?_⟩
  · intro k hk
    have hsum : ∑ h ∈ S, g.B i h * g.X h k = ∑ h ∈ range n, g.B i h * g.X h k := by
      refine sum_subset (fun h hh => mem_range.2 (hS h hh).lt_left) ?_
      intro h hh hn
      by_cases h0 : g.B i h = 0
      · rw [h0, zero_mul]
      · exact absurd (hpa h ⟨g, hg, mem_range.1 hh, hi, abs_pos.2 h0⟩) hn
    rw [hsum, hX.2 i hi k hk]
    beta_reduce
    by_cases hkn : k < n
    · rw [if_pos hkn]; ring
    · rw [if_neg hkn, if_neg (by omega), hc g hg i (Or.inl rfl) k (by omega) hk]; ring
  · intro h hh
    rw [popCov_single him]
    have hs := hS h hh
    rw [ho.zero hg hs.lt_left hi (fun e => ho.acyclic i (e ▸ hs)) (fun h' => ho.acyclic i (h'.trans hs)), mul_zero]

theorem own_removedG (ho : CommonOrder n gs) {g : Pop} (hg : g ∈ gs) {i j : Nat} (hj : j < n)
    (hc : CleanAbove n gs j) {S : Finset Nat} (hpa : ∀ q, GroupEdge n gs q j → q ∈ S) {r : Nat → ℚ}
    (hr : IsResidual g.m g.σ g.X ({j} ∪ S) (g.X i) r) : r j = 0 := by
  obtain ⟨e, _, hoo⟩ := hr
  obtain ⟨hX, hσ⟩ := ho.valid g hg
  have hjm : j < g.m := hj.trans_le hX.1
  have h1 : ∀ k, k < g.m → (if k = j then (1 : ℚ) else 0) = g.X j k - ∑ q ∈ range n, g.B j q * g.X q k := by
    intro k hk
    rw [hX.2 j hj k hk]
    by_cases hkn : k < n
    · rw [if_pos hkn]; ring
    · rw [if_neg hkn, if_neg (by omega), hc g hg j (Or.inl rfl) k (by omega) hk]; ring
  have h2 : popCov g.m g.σ (fun k => if k = j then (1 : ℚ) else 0) r = 0 := by
    rw [popCov_congr h1 (fun _ _ => rfl), popCov_sub_left, popCov_sum_left, popCov_comm, hoo j (by simp), sum_eq_zero]
    · ring
    · intro q hq
      by_cases h0 : g.B j q = 0
      · rw [h0, zero_mul]
      · rw [popCov_comm, hoo q (mem_union_right _ (hpa q ⟨g, hg, mem_range.1 hq, hj, abs_pos.2 h0⟩)), mul_zero]
  rw [popCov_single hjm] at h2
  exact (mul_eq_zero.1 h2).resolve_left (hσ j hjm).ne'

theorem GroupAvoiding.anc {S : Finset Nat} {j i : Nat} (h : GroupAvoiding n gs S j i) : GroupAncestor n gs j i := by
  unfold GroupAvoiding at h
  exact Relation.TransGen.mono (fun _ _ h => h.1) j i h

theorem avoidingG_empty {j i : Nat} (h : GroupAncestor n gs j i) : GroupAvoiding n gs ∅ j i := by
  unfold GroupAncestor at h
  exact Relation.TransGen.mono (fun _ _ h => ⟨h, by simp⟩) j i h

/-- The end of the search: every parent of a variable without hidden causes has been recorded. -/
theorem clean_parents_foundG (ho : CommonOrder n gs) (ht : PooledRight n gs c)
    (hacc : ∀ i, i < n → CleanAbove n gs i → GroupFaithful n gs i)
    (hprior : ∀ i j, GroupAncestor n gs j i → ¬ Forbidden c j i) {P : Anc} (hP : SoundG n gs P)
    (hend : ∀ V ∈ combos 2 (List.range n), body c (neighborhoods c n) (P, false) V = (P, false)) :
    ∀ i, i < n → CleanAbove n gs i → ∀ j, GroupEdge n gs j i → j ∈ P i := by
  classical
  by_contra hcon
  push Not at hcon
  obtain ⟨i0, hi0, hc0, p0, hp0, hn0⟩ := hcon
  obtain ⟨i, hmem, hmin⟩ := exists_minimal ho.acyc_anc
    ((List.range n).filter (fun i => decide (CleanAbove n gs i ∧ ∃ j, GroupEdge n gs j i ∧ j ∉ P i)))
    (List.ne_nil_of_mem (List.mem_filter.2 ⟨List.mem_range.2 hi0, by
      rw [decide_eq_true_eq]; exact ⟨hc0, p0, hp0, hn0⟩⟩))
  simp only [List.mem_filter, List.mem_range, decide_eq_true_eq] at hmem hmin
  obtain ⟨hi, hc, p, hpe, hpn⟩ := hmem
  obtain ⟨j, hjm, hjmin⟩ := exists_minimal ho.acyclic
    ((List.range n).filter (fun j => decide (j ∉ P i ∧ GroupAvoiding n gs (P i) j i)))
    (List.ne_nil_of_mem (List.mem_filter.2 ⟨List.mem_range.2 hpe.lt.1, by
      rw [decide_eq_true_eq]; exact ⟨hpn, .single ⟨hpe, hpn⟩⟩⟩))
  simp only [List.mem_filter, List.mem_range, decide_eq_true_eq] at hjm hjmin
  obtain ⟨hj, hjP, hjav⟩ := hjm
  have hanc : GroupAncestor n gs j i := GroupAvoiding.anc hjav
  have hcj : CleanAbove n gs j := hc.anc hanc
  have hij : i ≠ j := by rintro rfl; exact ho.acyclic _ hanc
  have hpaS : ∀ q, GroupEdge n gs q j → q ∈ P i := by
    intro q hE
    by_contra hqn
    exact hjmin q ⟨hE.lt.1, hqn, .head ⟨hE, hqn⟩ hjav⟩ hE
  have hpaj : ∀ q, GroupEdge n gs q j → q ∈ P j := by
    intro q hE
    by_contra hqn
    exact hmin j ⟨hj, hcj, q, hE, hqn⟩ hanc
  have hyj := fun (g : Pop) (hg : g ∈ gs) => cleanG_eq ho hg hj hcj (fun s hs => hP j s hs) hpaj
  have hPi := soundG_range hP i
  have hPj := soundG_range hP j
  have hU : {j} ∪ P i ⊆ range n := union_subset (by simpa using hj) hPi
  have hind : isInd c (c.val i ({j} ∪ P i) [(j, P j)]) = true := by
    refine (ht.pair hi hj hU hPj).2 fun g hg => ?_
    obtain ⟨r, hr⟩ := exists_residual (ho.valid g hg).2 g.X ({j} ∪ P i) (g.X i)
    refine ⟨r, _, hr, hyj g hg, fun k hk => ?_⟩
    by_cases hkj : k = j
    · left; rw [hkj]; exact own_removedG ho hg hj hcj hpaS hr
    · right; simp [hkj]
  have hdep : isInd c (c.val i (P i) [(j, P j)]) = false := by
    rw [← Bool.not_eq_true, ht.pair hi hj hPi hPj]
    intro hall
    obtain ⟨g, hg, h1⟩ := hacc i hi hc (P i) j (fun s hs => hP i s hs) hjav
    obtain ⟨r, y, hr, hy, hs⟩ := hall g hg
    have hjm := hj.trans_le (ho.valid g hg).1.1
    rcases hs j hjm with h | h
    · exact h1 r hr h
    · rw [hy.unique (ho.valid g hg).2 (hyj g hg) j hjm] at h; simp at h
  have hnb : j ∈ neighborhoods c n i := by
    have hd : isInd c (c.val i ∅ [(j, ∅)]) = false := by
      rw [← Bool.not_eq_true, ht.pair hi hj (by simp) (by simp)]
      intro hall
      obtain ⟨g, hg, h1⟩ := hacc i hi hc ∅ j (by simp) (avoidingG_empty hanc)
      obtain ⟨hX, hσ⟩ := ho.valid g hg
      have hjm := hj.trans_le hX.1
      have hres : ∀ a, IsResidual g.m g.σ g.X ∅ (g.X a) (g.X a) := fun a => ⟨fun _ => 0, by simp, by simp⟩
      obtain ⟨r, y, hr, hy, hs⟩ := hall g hg
      rcases hs j hjm with h | h
      · exact h1 r hr h
      · rw [hy.unique hσ (hres j) j hjm, source_self hX (ho.acyc hg) hj] at h; exact one_ne_zero h
    rw [mem_neighborhoods]
    rcases lt_or_gt_of_ne hij with h | h
    · exact Or.inl ⟨h, hj, hd⟩
    · exact Or.inr ⟨h, hi, by rw [← hd, ht.symm hj hi (by simp) (by simp)]⟩
  have hiPj : i ∉ P j := fun h => ho.acyclic i ((hP j i h).trans hanc)
  have main : ∀ a b, [a, b] ∈ combos 2 (List.range n) → (a = i ∧ b = j ∨ a = j ∧ b = i) → False := by
    intro a b hab hor
    have hne : a ≠ b := by rcases hor with ⟨rfl, rfl⟩ | ⟨rfl, rfl⟩; exacts [hij, hij.symm]
    have hri : rest [a, b] i = [j] := by
      rcases hor with ⟨rfl, rfl⟩ | ⟨rfl, rfl⟩
      · exact (rest_pair hne).1
      · exact (rest_pair hne).2
    have hrj : rest [a, b] j = [i] := by
      rcases hor with ⟨rfl, rfl⟩ | ⟨rfl, rfl⟩
      · exact (rest_pair hne).2
      · exact (rest_pair hne).1
    have hmemi : ∀ x, x ∈ [a, b] → x = i ∨ x = j := by
      intro x hx
      simp only [List.mem_cons, List.not_mem_nil, or_false] at hx
      rcases hor with ⟨rfl, rfl⟩ | ⟨rfl, rfl⟩
      · exact hx
      · exact hx.symm
    have hel : Eligible c (neighborhoods c n) [a, b] i := by
      refine ⟨by rcases hor with ⟨rfl, rfl⟩ | ⟨rfl, rfl⟩ <;> simp, fun x hx hxi => ?_⟩
      rcases hmemi x hx with rfl | rfl
      · exact absurd rfl hxi
      · exact ⟨hprior i x hanc, hnb⟩
    have hcv : isInd c (childVal c P [a, b] i) = true := by
      unfold childVal
      rw [hri]
      exact hind
    have hun : unidentified P [a, b] = true := by
      have e : combos 2 [a, b] = [[a, b]] := by simp [combos]
      unfold unidentified
      rw [e]
      rcases hor with ⟨rfl, rfl⟩ | ⟨rfl, rfl⟩ <;> simp [hjP, hiPj]
    obtain ⟨x, hx⟩ := getChild_some ht.iter ht.alpha ht.corr hel hcv
    have hxm := (getChild_spec ht.iter hx).1.1
    have hb := hend [a, b] hab
    unfold body at hb
    simp only [hun, hx, Bool.not_true, Bool.false_eq_true, if_false] at hb
    have hdw : dependentWithout c P (rest [a, b] x) x = true := by
      unfold dependentWithout
      rcases hmemi x hxm with rfl | rfl
      · rw [hri]; simp [hdep]
      · rw [hrj]
        have := ht.symm (c := c) hj hi hPj hPi
        rw [hdep] at this
        simp [this]
    rw [hdw] at hb
    simp only [Bool.not_true, Bool.false_eq_true, if_false, Prod.mk.injEq, Bool.false_or, Bool.not_eq_false'] at hb
    have hem := hb.2
    rcases hmemi x hxm with rfl | rfl
    · rw [hri] at hem; simp at hem
    · rw [hrj] at hem; simp at hem
  rcases lt_or_gt_of_ne hij with h | h
  · exact main i j (mem_combos.2 ⟨pair_sublist_range.2 ⟨h, hj⟩, rfl⟩) (Or.inl ⟨rfl, rfl⟩)
  · exact main j i (mem_combos.2 ⟨pair_sublist_range.2 ⟨h, hi⟩, rfl⟩) (Or.inr ⟨rfl, rfl⟩)

/-- Pruning leaves exactly the parents of variables without hidden causes. -/
theorem clean_pruneG (ho : CommonOrder n gs) (ht : PooledRight n gs c)
    (hacc : ∀ i, i < n → CleanAbove n gs i → GroupFaithful n gs i) {P : Anc}
    (hP : SoundG n gs P) (hpa : ∀ i, i < n → CleanAbove n gs i → ∀ j, GroupEdge n gs j i → j ∈ P i) :
    ∀ i, i < n → CleanAbove n gs i → ∀ j, j ∈ prune c n P i ↔ GroupEdge n gs j i := by
  classical
  by_contra hcon
  push Not at hcon
  obtain ⟨i0, hi0, hc0, hn0⟩ := hcon
  obtain ⟨i, hmem, hmin⟩ := exists_minimal ho.acyc_anc
    ((List.range n).filter (fun i => decide (CleanAbove n gs i ∧ ¬ ∀ j, j ∈ prune c n P i ↔ GroupEdge n gs j i)))
    (List.ne_nil_of_mem (List.mem_filter.2 ⟨List.mem_range.2 hi0, by
      rw [decide_eq_true_eq]
      refine ⟨hc0, fun h => ?_⟩
      obtain ⟨j, hj⟩ := hn0
      have := h j
      tauto⟩))
  simp only [List.mem_filter, List.mem_range, decide_eq_true_eq] at hmem hmin
  obtain ⟨hi, hc, hnot⟩ := hmem
  apply hnot
  have hsub : ∀ k, prune c n P k ⊆ P k := foldl_prune_subset c _ _
  have key : ∀ j, j ∈ P i → (isInd c (c.val i (P i \ {j}) [(j, if j < i then prune c n P j else P j)]) = false ↔
      GroupEdge n gs j i) := by
    intro j hjP
    have hanc := hP i j hjP
    have hj := hanc.lt_left
    have hij : i ≠ j := by rintro rfl; exact ho.acyclic _ hanc
    have hcj : CleanAbove n gs j := hc.anc hanc
    have hprj : ∀ x, x ∈ prune c n P j ↔ GroupEdge n gs x j := by
      by_contra h
      exact hmin j ⟨hj, hcj, h⟩ hanc
    set T := if j < i then prune c n P j else P j with hT
    have hTs : T ⊆ P j := by rw [hT]; split; exacts [hsub j, Subset.refl _]
    have hTa : ∀ s ∈ T, GroupAncestor n gs s j := fun s hs => hP j s (hTs hs)
    have hTp : ∀ q, GroupEdge n gs q j → q ∈ T := by
      intro q hE
      rw [hT]
      split
      · exact (hprj q).2 hE
      · exact hpa j hj hcj q hE
    have hyj := fun (g : Pop) (hg : g ∈ gs) => cleanG_eq ho hg hj hcj hTa hTp
    have hSn : P i \ {j} ⊆ range n := sdiff_subset.trans (soundG_range hP i)
    have hTn : T ⊆ range n := hTs.trans (soundG_range hP j)
    have hSa : ∀ s ∈ P i \ {j}, GroupAncestor n gs s i := fun s hs => hP i s (mem_sdiff.1 hs).1
    rw [← Bool.not_eq_true, ht.pair hi hj hSn hTn]
    constructor
    · intro h
      by_contra hE
      apply h
      intro g hg
      refine ⟨_, _, cleanG_eq ho hg hi hc hSa ?_, hyj g hg, ?_⟩
      · intro q hq
        refine mem_sdiff.2 ⟨hpa i hi hc q hq, ?_⟩
        rw [mem_singleton]
        rintro rfl
        exact hE hq
      · intro k _
        by_cases hk : k = i
        · right; exact if_neg (by rw [hk]; exact hij)
        · left; exact if_neg hk
    · intro hE hall
      obtain ⟨g, hg, h1⟩ := hacc i hi hc _ j hSa (.single ⟨hE, by simp⟩)
      obtain ⟨r, y, hr, hy, hs⟩ := hall g hg
      have hjm := hj.trans_le (ho.valid g hg).1.1
      rcases hs j hjm with h | h
      · exact h1 r hr h
      · rw [hy.unique (ho.valid g hg).2 (hyj g hg) j hjm] at h; simp at h
  intro j
  by_cases hij : i = j
  · subst hij
    constructor
    · intro h; exact absurd (hP i i (hsub i h)) (ho.acyclic i)
    · intro h; exact absurd (.single h) (ho.acyclic i)
  · rw [mem_prune hi hij]
    constructor
    · rintro ⟨h1, h2⟩; exact (key j h1).1 h2
    · intro h
      have := hpa i hi hc j h
      exact ⟨this, (key j this).2 h⟩

end groups
end Verif.Camuv
