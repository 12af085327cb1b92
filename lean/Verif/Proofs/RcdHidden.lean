import Verif.Proofs.RcdPopulation

/-!
The search of RCD over pairs when some variables have hidden causes: what it finds out about the variables without a
hidden cause above them, and which pairs it marks.
-/
set_option linter.unusedSectionVars false
set_option autoImplicit false
namespace Verif.Rcd
open Finset

section hidden
variable {n m : Nat} {B L X : Nat → Nat → ℚ} {σ : Nat → ℚ} {t : Tests}

theorem NoHiddenAbove.anc {i j : Nat} (h : NoHiddenAbove n m B L i) (ha : TrueAncestor n B j i) :
    NoHiddenAbove n m B L j := by
  rintro k ⟨h1, h2, a, han, hL, hh⟩
  refine h k ⟨h1, h2, a, han, hL, Or.inr ?_⟩
  rcases hh with rfl | hh
  · exact ha
  · exact hh.trans ha

theorem HiddenAbove.desc {i j k : Nat} (h : HiddenAbove n m B L j k) (ha : TrueAncestor n B j i) :
    HiddenAbove n m B L i k := by
  obtain ⟨h1, h2, a, han, hL, hh⟩ := h
  refine ⟨h1, h2, a, han, hL, Or.inr ?_⟩
  rcases hh with rfl | hh
  · exact ha
  · exact hh.trans ha

/-- Only hidden causes above a variable occur in it. -/
theorem source_hidden (hX : SourceModel n m B L X) (hac : Acyclic (Edge n B 0)) {i k : Nat} (hi : i < n) (hnk : n ≤ k)
    (hk : k < m) (h : X i k ≠ 0) : HiddenAbove n m B L i k := by
  classical
  by_contra hcon
  obtain ⟨i', hi', hmin⟩ := exists_minimal hac
    ((List.range n).filter (fun i => decide (X i k ≠ 0 ∧ ¬ HiddenAbove n m B L i k)))
    (List.ne_nil_of_mem (List.mem_filter.2 ⟨List.mem_range.2 hi, by rw [decide_eq_true_eq]; exact ⟨h, hcon⟩⟩))
  simp only [List.mem_filter, List.mem_range, decide_eq_true_eq] at hi' hmin
  obtain ⟨hin, hne, hnot⟩ := hi'
  have hL : L i' k = 0 := by
    by_contra hL
    exact hnot ⟨hnk, hk, i', hin, hL, Or.inl rfl⟩
  rw [hX.2 i' hin k hk, if_neg (by omega), hL, add_zero] at hne
  obtain ⟨j, hj, hj0⟩ := exists_ne_zero_of_sum_ne_zero hne
  have hjn := mem_range.1 hj
  have hB : B i' j ≠ 0 := fun h => hj0 (by rw [h, zero_mul])
  have hXj : X j k ≠ 0 := fun h => hj0 (by rw [h, mul_zero])
  have hE : Edge n B 0 j i' := ⟨hjn, hin, abs_pos.2 hB⟩
  by_cases hc : HiddenAbove n m B L j k
  · exact hnot (HiddenAbove.desc hc (.single hE))
  · exact hmin j ⟨hjn, hXj, hc⟩ hE

/-- The sources of a variable without hidden causes above it. -/
theorem source_clean (hX : SourceModel n m B L X) (hac : Acyclic (Edge n B 0)) {i k : Nat} (hi : i < n)
    (hc : NoHiddenAbove n m B L i) (hk : k < m) (h : X i k ≠ 0) : k = i ∨ TrueAncestor n B k i := by
  rcases lt_or_ge k n with hkn | hkn
  · exact source_ancestor hX hac hi hkn h
  · exact absurd (source_hidden hX hac hi hkn hk h) (hc k)

/-- Closed under ancestors and without hidden causes. -/
def CleanSet (n m : Nat) (B L : Nat → Nat → ℚ) (H : Finset Nat) : Prop :=
  ClosedSet n B H ∧ ∀ h ∈ H, NoHiddenAbove n m B L h

theorem clean_span (hX : SourceModel n m B L X) {H : Finset Nat} (hH : CleanSet n m B L H) (v : Nat → ℚ) {k : Nat}
    (hk : k < m) : ∑ h ∈ H, (v h - ∑ j ∈ H, v j * B j h) * X h k = if k ∈ H then v k else 0 := by
  have hown : ∀ j ∈ H, X j k - ∑ h ∈ H, B j h * X h k = if k = j then 1 else 0 := by
    intro j hj
    have hjn := hH.1.1 j hj
    have hsub : ∑ h ∈ range n, B j h * X h k = ∑ h ∈ H, B j h * X h k := by
      symm
      refine sum_subset (fun h hh => mem_range.2 (hH.1.1 h hh)) fun h hh hnot => ?_
      by_contra hne
      have hB : B j h ≠ 0 := fun h0 => hne (by rw [h0, zero_mul])
      exact hnot (hH.1.2 j hj h (trueAncestor_of_edge (mem_range.1 hh) hjn hB))
    have h1 := hX.2 j hjn k hk
    rw [hsub] at h1
    have h2 : (if k < n then (if k = j then (1 : ℚ) else 0) else L j k) = if k = j then 1 else 0 := by
      split_ifs with h3 h4 h4
      · rfl
      · rfl
      · omega
      · by_contra hL
        exact hH.2 j hj k ⟨by omega, hk, j, hjn, hL, Or.inl rfl⟩
    rw [h1, h2]; ring
  calc ∑ h ∈ H, (v h - ∑ j ∈ H, v j * B j h) * X h k
      = ∑ h ∈ H, v h * X h k - ∑ h ∈ H, ∑ j ∈ H, v j * B j h * X h k := by
        rw [← sum_sub_distrib]
        exact sum_congr rfl fun h _ => by rw [sub_mul, sum_mul]
    _ = ∑ j ∈ H, v j * (X j k - ∑ h ∈ H, B j h * X h k) := by
        rw [sum_comm (s := H) (t := H), ← sum_sub_distrib]
        refine sum_congr rfl fun j _ => ?_
        rw [mul_sub, mul_sum]
        congr 1
        exact sum_congr rfl fun h _ => by ring
    _ = ∑ j ∈ H, if k = j then v j else 0 := by
        refine sum_congr rfl fun j hj => ?_
        rw [hown j hj]; split <;> ring
    _ = if k ∈ H then v k else 0 := by rw [sum_ite_eq]

/-- Regressing on such a set removes exactly the own errors of its members. -/
theorem clean_residual (hX : SourceModel n m B L X) (hac : Acyclic (Edge n B 0)) {H : Finset Nat}
    (hH : CleanSet n m B L H) (v : Nat → ℚ) : IsResidual m σ X H v (fun k => if k ∈ H then 0 else v k) := by
  refine ⟨fun h => v h - ∑ j ∈ H, v j * B j h, ?_, ?_⟩
  · intro k hk
    rw [clean_span hX hH v hk]
    by_cases hkH : k ∈ H
    · simp [hkH]
    · simp [hkH]
  · intro h hh
    refine popCov_disjoint fun k hk => ?_
    by_cases hkH : k ∈ H
    · left; rw [if_pos hkH]
    · right
      by_contra hne
      rcases source_clean hX hac (hH.1.1 h hh) (hH.2 h hh) hk hne with rfl | h'
      · exact hkH hh
      · exact hkH (hH.1.2 h hh k h')

theorem cleanSet_ancestors {H : Finset Nat} {j : Nat} (hc : NoHiddenAbove n m B L j)
    (hH : ∀ h, h ∈ H ↔ TrueAncestor n B h j) : CleanSet n m B L H :=
  ⟨⟨fun h hh => ((hH h).1 hh).lt_left, fun h hh a ha => (hH a).2 (ha.trans ((hH h).1 hh))⟩,
    fun h hh => NoHiddenAbove.anc hc ((hH h).1 hh)⟩

/-- Once all ancestors of `j` are regressed out, `j` is its own error. -/
theorem clean_own (hX : SourceModel n m B L X) (hac : Acyclic (Edge n B 0)) {j : Nat} (hj : j < n)
    (hc : NoHiddenAbove n m B L j) {H : Finset Nat} (hH : ∀ h, h ∈ H ↔ TrueAncestor n B h j) {k : Nat} (hk : k < m) :
    (if k ∈ H then 0 else X j k) = if k = j then (1 : ℚ) else 0 := by
  have hjH : j ∉ H := fun h => hac j ((hH j).1 h)
  by_cases hkj : k = j
  · rw [if_pos hkj, if_neg (by rw [hkj]; exact hjH), hkj, source_self hX hac hj]
  · rw [if_neg hkj]
    split
    · rfl
    · rename_i hkH
      by_contra hne
      rcases source_clean hX hac hj hc hk hne with h | h
      · exact hkj h
      · exact hkH ((hH k).2 h)

/-- Two variables in causal order, no hidden cause above the first, all its ancestors regressed out. -/
theorem clean_pair_tests (hX : SourceModel n m B L X) (hac : Acyclic (Edge n B 0)) (hσ : ∀ k, k < m → 0 < σ k)
    (ht : PerfectTests n m σ X t) {i j : Nat} (hc : NoHiddenAbove n m B L j) (hji : TrueAncestor n B j i)
    (hf : X i j ≠ 0) {H : Finset Nat} (hH : ∀ h, h ∈ H ↔ TrueAncestor n B h j) :
    t.corr H i H j = true ∧ t.corr H j H i = true ∧ t.indep H i [j] = true ∧ t.indep H j [i] = false := by
  have hi := hji.lt_right
  have hj := hji.lt_left
  have hjm : j < m := hj.trans_le hX.1
  have hij : i ≠ j := (hji.ne hac).symm
  have hcl := cleanSet_ancestors hc hH
  have hHn : H ⊆ range n := fun h hh => mem_range.2 (hcl.1.1 h hh)
  have hjH : j ∉ H := fun h => hac j ((hH j).1 h)
  have hRi := clean_residual (σ := σ) hX hac hcl (X i)
  have hRj := clean_residual (σ := σ) hX hac hcl (X j)
  have hyj : ∀ k, k < m → (if k ∈ H then 0 else X j k) = if k = j then (1 : ℚ) else 0 :=
    fun k hk => clean_own hX hac hj hc hH hk
  have hcor : t.corr H i H j = true := by
    rw [ht.corr H i H j hHn hHn hi hj]
    refine ⟨_, _, hRi, hRj, ?_⟩
    rw [popCov_comm, popCov_congr hyj (fun _ _ => rfl), popCov_single hjm, if_neg hjH]
    exact mul_ne_zero (hσ j hjm).ne' hf
  refine ⟨hcor, by rwa [corr_symm ht hHn hj hi], ?_, ?_⟩
  · rw [ht.indep H i [j] hHn hi (by simpa using hj)]
    have hdis : ShareNoSource m (fun k => (if k ∈ H then 0 else X i k) - X i j * (if k ∈ H then 0 else X j k))
        (fun k => if k ∈ H then 0 else X j k) := by
      intro k hk
      by_cases hkj : k = j
      · left
        subst hkj
        simp only [hjH, if_false, source_self hX hac hj]; ring
      · right
        show (if k ∈ H then 0 else X j k) = 0
        rw [hyj k hk, if_neg hkj]
    refine ⟨fun u k => if k ∈ H then 0 else X u k,
      fun k => (if k ∈ H then 0 else X i k) - X i j * (if k ∈ H then 0 else X j k), ?_, ⟨fun _ => X i j, ?_, ?_⟩, ?_⟩
    · intro u _
      exact clean_residual hX hac hcl (X u)
    · intro k _; simp
    · intro h hh
      simp only [List.toFinset_cons, List.toFinset_nil, insert_empty_eq, mem_singleton] at hh
      subst hh
      exact popCov_disjoint hdis
    · intro u hu
      simp only [List.mem_singleton] at hu
      subst hu
      exact hdis
  · by_contra hcc
    have hind : t.indep H j [i] = true := by simpa using hcc
    have := pair_sound hX hac hσ ht hj hi hij.symm (fun h hh => ((hH h).1 hh).trans hji)
      (by rwa [corr_symm ht hHn hj hi]) hind
    exact hji.asymm hac this

/-- Whatever is recorded is true, if one of the two variables has no hidden cause above it. -/
def WeakSound (n m : Nat) (B L : Nat → Nat → ℚ) (M : Anc) : Prop :=
  ∀ i j, j ∈ M i → NoHiddenAbove n m B L i ∨ NoHiddenAbove n m B L j → TrueAncestor n B j i

theorem SoundM.weak {M : Anc} (h : SoundM n B M) : WeakSound n m B L M := fun i j hj _ => h i j hj

/-- Common ancestors of a set of variables, one of which has no hidden cause above it, are ancestors. -/
theorem weak_common {M : Anc} (hs : WeakSound n m B L M) {U : List Nat} {u : Nat} (hu : u ∈ U)
    (hc : NoHiddenAbove n m B L u) {h : Nat} (hh : h ∈ commonAncestors M U) :
    NoHiddenAbove n m B L h ∧ ∀ x ∈ U, TrueAncestor n B h x := by
  have hm := (mem_commonAncestors (List.ne_nil_of_mem hu)).1 hh
  have hcl := NoHiddenAbove.anc hc (hs u h (hm u hu) (Or.inl hc))
  exact ⟨hcl, fun x hx => hs x h (hm x hx) (Or.inr hcl)⟩

theorem body_weak (hX : SourceModel n m B L X) (hac : Acyclic (Edge n B 0)) (hσ : ∀ k, k < m → 0 < σ k)
    (ht : PerfectTests n m σ X t) {s : St} (hs : WeakSound n m B L s.M) {U : List Nat}
    (hU : U ∈ combos 2 (List.range n)) : WeakSound n m B L (body t s U).M := by
  obtain ⟨a, b, rfl, hab, hbn⟩ := pair_of_sublist hU
  have han : a < n := hab.trans hbn
  rcases body_cases t s [a, b] with ⟨h, _⟩ | ⟨_, hcor, hM, _⟩
  · rw [h]; exact hs
  · rw [hM]
    intro i j hj hcl
    rcases mem_applySink.1 hj with h | ⟨hsk, hjU, hji⟩
    · exact hs i j h hcl
    · have hi : i ∈ sinkSet t s.M (commonAncestors s.M [a, b]) [a, b] := by rw [hsk]; simp
      obtain ⟨hiU, _, hind⟩ := mem_sinkSet.1 hi
      have hmem : ∀ h ∈ commonAncestors s.M [a, b], ∀ x ∈ [a, b], TrueAncestor n B h x := by
        intro h hh
        rcases hcl with hcl | hcl
        · exact (weak_common hs hiU hcl hh).2
        · exact (weak_common hs hjU hcl hh).2
      have hHn : commonAncestors s.M [a, b] ⊆ range n := fun h hh => mem_range.2 (hmem h hh a (by simp)).lt_left
      have hc : t.corr (commonAncestors s.M [a, b]) a (commonAncestors s.M [a, b]) b = true := by
        simpa [allCorrelated, combos] using hcor
      have ho := others_pair hab.ne
      simp only [List.mem_cons, List.not_mem_nil, or_false] at hiU hjU
      rcases hiU with rfl | rfl <;> rcases hjU with rfl | rfl
      · exact absurd rfl hji
      · rw [ho.1] at hind
        exact pair_sound hX hac hσ ht han hbn hab.ne (fun h hh => hmem h hh _ (by simp)) hc hind
      · rw [ho.2] at hind
        refine pair_sound hX hac hσ ht hbn han hab.ne' (fun h hh => hmem h hh _ (by simp)) ?_ hind
        rwa [corr_symm ht hHn hbn han]
      · exact absurd rfl hji

/-- Pairs visited with the right set of common ancestors have been recorded. -/
def HistClean (n m : Nat) (B L : Nat → Nat → ℚ) (s : St) : Prop := ∀ i j, NoHiddenAbove n m B L j → TrueAncestor n B j i →
  ∀ U H, (U, H) ∈ s.hist → U = [i, j] ∨ U = [j, i] → (∀ h, h ∈ H ↔ TrueAncestor n B h j) → j ∈ s.M i

/-- No total effect of a variable without hidden causes above it cancels. -/
def CleanFaithful (n m : Nat) (B L X : Nat → Nat → ℚ) : Prop :=
  ∀ i j, NoHiddenAbove n m B L j → TrueAncestor n B j i → X i j ≠ 0

theorem body_histClean (hX : SourceModel n m B L X) (hac : Acyclic (Edge n B 0)) (hσ : ∀ k, k < m → 0 < σ k)
    (hf : CleanFaithful n m B L X) (ht : PerfectTests n m σ X t) {s : St} (hs : WeakSound n m B L s.M)
    (hh : HistClean n m B L s) (U : List Nat) : HistClean n m B L (body t s U) := by
  intro i j hc hji V H hV hVU hH
  rcases body_cases t s U with ⟨h, _⟩ | ⟨hng, hcor, hM, hhist⟩
  · rw [h] at hV ⊢
    exact hh i j hc hji V H hV hVU hH
  · rw [hhist, List.mem_cons] at hV
    rcases hV with hV | hV
    · obtain ⟨rfl, rfl⟩ := Prod.mk.inj hV
      by_cases hl : s.lookup V = some (commonAncestors s.M V)
      · exact body_mono t s V i (hh i j hc hji V _ (lookup_mem hl) hVU hH)
      · exact visit_pair_of hac ht (fun h => hji.asymm hac (hs _ _ h (Or.inl hc))) hji hVU hH hl
          (clean_pair_tests hX hac hσ ht hc hji (hf i j hc hji) hH)
    · exact body_mono t s U i (hh i j hc hji V H hV hVU hH)

/-- Every ancestor without hidden causes above it is recorded. -/
def CompleteM (n m : Nat) (B L : Nat → Nat → ℚ) (M : Anc) : Prop :=
  ∀ i j, NoHiddenAbove n m B L j → TrueAncestor n B j i → j ∈ M i

theorem clean_complete_of_unchanged (hX : SourceModel n m B L X) (hac : Acyclic (Edge n B 0))
    (hσ : ∀ k, k < m → 0 < σ k) (hf : CleanFaithful n m B L X) (ht : PerfectTests n m σ X t) {maxNum : Nat}
    (hm : 1 ≤ maxNum) {s : St} (hg : Good t n maxNum s.M) (hs : WeakSound n m B L s.M) (hh : HistClean n m B L s)
    (hu : (pass t n 1 s).M = s.M) : CompleteM n m B L s.M := by
  classical
  have hvis := visits_of_unchanged (n := n) (t := t) (P := fun s => WeakSound n m B L s.M ∧ HistClean n m B L s) le_rfl hm
    (combos 2 (List.range n)) { s with changed := false } (fun _ h => h)
    (fun U hU s hs => ⟨body_weak hX hac hσ ht hs.1 hU, body_histClean hX hac hσ hf ht hs.1 hs.2 U⟩) hg ⟨hs, hh⟩ hu
  by_contra hcon
  have hcon : ∃ j i, NoHiddenAbove n m B L j ∧ TrueAncestor n B j i ∧ j ∉ s.M i := by
    by_contra hc
    push Not at hc
    exact hcon fun i j h1 h2 => hc j i h1 h2
  obtain ⟨j0, i0, hc0, h0, hn0⟩ := hcon
  obtain ⟨j, hj, hmin⟩ := exists_minimal (acyclic_ancestor hac)
    ((List.range n).filter (fun j => decide (∃ i, NoHiddenAbove n m B L j ∧ TrueAncestor n B j i ∧ j ∉ s.M i)))
    (List.ne_nil_of_mem
      (List.mem_filter.2 ⟨List.mem_range.2 h0.lt_left, by rw [decide_eq_true_eq]; exact ⟨i0, hc0, h0, hn0⟩⟩))
  simp only [List.mem_filter, List.mem_range, decide_eq_true_eq] at hj hmin
  obtain ⟨hjn, i, hc, hji, hni⟩ := hj
  have hrec : ∀ a, TrueAncestor n B a j → ∀ i, TrueAncestor n B a i → a ∈ s.M i := by
    intro a ha i hai
    by_contra hcc
    exact hmin a ⟨ha.lt_left, i, NoHiddenAbove.anc hc ha, hai, hcc⟩ ha
  have hin := hji.lt_right
  have hij : i ≠ j := (hji.ne hac).symm
  obtain ⟨U, hU, hUm⟩ : ∃ U, (U = [i, j] ∨ U = [j, i]) ∧ U ∈ combos 2 (List.range n) := by
    rcases lt_or_gt_of_ne hij with h | h
    · exact ⟨[i, j], Or.inl rfl, mem_combos.2 ⟨pair_sublist_range.2 ⟨h, hjn⟩, rfl⟩⟩
    · exact ⟨[j, i], Or.inr rfl, mem_combos.2 ⟨pair_sublist_range.2 ⟨h, hin⟩, rfl⟩⟩
  obtain ⟨s', ⟨hs', hh'⟩, hM, hb⟩ := hvis U hUm
  have hM : s'.M = s.M := hM
  have hH : ∀ h, h ∈ commonAncestors s'.M U ↔ TrueAncestor n B h j := by
    intro h
    rw [mem_commonAncestors (by rcases hU with rfl | rfl <;> simp), hM]
    constructor
    · intro ha
      exact hs j h (ha j (by rcases hU with rfl | rfl <;> simp)) (Or.inl hc)
    · intro ha x hx
      have : x = i ∨ x = j := by
        rcases hU with rfl | rfl
        · simpa using hx
        · simpa [or_comm] using hx
      rcases this with rfl | rfl
      · exact hrec h ha _ (ha.trans hji)
      · exact hrec h ha _ ha
  have hfin : j ∈ s'.M i := by
    by_cases hl : s'.lookup U = some (commonAncestors s'.M U)
    · exact hh' i j hc hji U _ (lookup_mem hl) hU hH
    · have := visit_pair_of hac ht (fun h => hji.asymm hac (hs' _ _ h (Or.inl hc))) hji hU hH hl
        (clean_pair_tests hX hac hσ ht hc hji (hf i j hc hji) hH)
      rw [hb] at this
      rw [hM]; exact this
  rw [hM] at hfin
  exact hni hfin

/-- Three variables, one of `i`, `j` without hidden causes above it: when `i` passes as a sink although `j` is not one of its
ancestors, `j` passes as well. -/
theorem clean_two_sinks (hX : SourceModel n m B L X) (hac : Acyclic (Edge n B 0)) (hσ : ∀ k, k < m → 0 < σ k)
    (ht : PerfectTests n m σ X t) {M : Anc} (hs : WeakSound n m B L M) (hcm : CompleteM n m B L M) {U : List Nat}
    {i j k : Nat} (hUn : ∀ x ∈ U, x < n)
    (hU : ∀ x, x ∈ U ↔ x = i ∨ x = j ∨ x = k) (hij : i ≠ j) (hik : i ≠ k) (hjk : j ≠ k)
    (hcor : ∀ x ∈ U, ∀ y ∈ U, x ≠ y → t.corr (commonAncestors M U) x (commonAncestors M U) y = true)
    (hi : i ∈ sinkSet t M (commonAncestors M U) U) (hcl : NoHiddenAbove n m B L i ∨ NoHiddenAbove n m B L j)
    (hj : ¬ TrueAncestor n B j i) : j ∈ sinkSet t M (commonAncestors M U) U := by
  have hnm := hX.1
  have hiU : i ∈ U := (hU i).2 (Or.inl rfl)
  have hjU : j ∈ U := (hU j).2 (Or.inr (Or.inl rfl))
  have hkU : k ∈ U := (hU k).2 (Or.inr (Or.inr rfl))
  have hne : U ≠ [] := List.ne_nil_of_mem hiU
  have hin := hUn i hiU
  have hjn := hUn j hjU
  have hkn := hUn k hkU
  have hHm : ∀ h, h ∈ commonAncestors M U ↔ TrueAncestor n B h i ∧ TrueAncestor n B h j ∧ TrueAncestor n B h k := by
    intro h
    constructor
    · intro hh
      have := (hcl.elim (fun c => weak_common hs hiU c hh) (fun c => weak_common hs hjU c hh)).2
      exact ⟨this i hiU, this j hjU, this k hkU⟩
    · rintro ⟨h1, h2, h3⟩
      have hc : NoHiddenAbove n m B L h := hcl.elim (fun c => NoHiddenAbove.anc c h1) (fun c => NoHiddenAbove.anc c h2)
      rw [mem_commonAncestors hne]
      intro x hx
      rcases (hU x).1 hx with rfl | rfl | rfl
      · exact hcm _ h hc h1
      · exact hcm _ h hc h2
      · exact hcm _ h hc h3
  have hclean : CleanSet n m B L (commonAncestors M U) := by
    refine ⟨⟨fun h hh => ((hHm h).1 hh).1.lt_left, fun h hh a ha => ?_⟩, fun h hh => ?_⟩
    · obtain ⟨h1, h2, h3⟩ := (hHm h).1 hh
      exact (hHm a).2 ⟨ha.trans h1, ha.trans h2, ha.trans h3⟩
    · obtain ⟨h1, h2, h3⟩ := (hHm h).1 hh
      exact hcl.elim (fun c => NoHiddenAbove.anc c h1) (fun c => NoHiddenAbove.anc c h2)
  generalize hHe : commonAncestors M U = H at *
  have hHn : H ⊆ range n := fun h hh => mem_range.2 (hclean.1.1 h hh)
  have hiH : i ∉ H := fun h => hac i ((hHm i).1 h).1
  have hjH : j ∉ H := fun h => hac j ((hHm j).1 h).2.1
  have hkH : k ∉ H := fun h => hac k ((hHm k).1 h).2.2
  obtain ⟨_, hea, hind⟩ := mem_sinkSet.1 hi
  obtain ⟨hno, _⟩ := existsAncestor_false hea
  have hnij : ¬ TrueAncestor n B i j := fun h => hno j (mem_others.2 ⟨hjU, hij.symm⟩)
    (hcm j i (hcl.elim id (fun c => NoHiddenAbove.anc c h)) h)
  obtain ⟨y, r, hy, hr, hdis⟩ := (ht.indep H i (others U i) hHn hin (fun u hu => hUn u (mem_others.1 hu).1)).1 hind
  have hoi : (others U i).toFinset = {j, k} := by
    ext x
    rw [List.mem_toFinset, mem_others, hU, mem_insert, mem_singleton]
    constructor
    · rintro ⟨rfl | h, h'⟩
      · exact absurd rfl h'
      · exact h
    · rintro (rfl | rfl)
      · exact ⟨Or.inr (Or.inl rfl), hij.symm⟩
      · exact ⟨Or.inr (Or.inr rfl), hik.symm⟩
  have hyv : ∀ u ∈ U, ∀ e, e < m → y u e = if e ∈ H then 0 else X u e := by
    intro u hu e he
    refine (IsResidual.unique hσ (hy u ?_) (clean_residual hX hac hclean (X u))) e he
    by_cases hui : u = i
    · exact Or.inl hui
    · exact Or.inr (mem_others.2 ⟨hu, hui⟩)
  obtain ⟨c, hc, _⟩ := hr
  have hrv : ∀ e, e < m → r e = y i e - (c j * y j e + c k * y k e) := by
    intro e he
    rw [hc e he, hoi, sum_pair hjk]
  have hjm := hjn.trans_le hnm
  have hkm := hkn.trans_le hnm
  have hdj := hdis j (mem_others.2 ⟨hjU, hij.symm⟩)
  have hdk := hdis k (mem_others.2 ⟨hkU, hik.symm⟩)
  have hyjj : y j j = 1 := by rw [hyv j hjU j hjm, if_neg hjH, source_self hX hac hjn]
  have hykk : y k k = 1 := by rw [hyv k hkU k hkm, if_neg hkH, source_self hX hac hkn]
  have hrj : r j = 0 := by
    rcases hdj j hjm with h | h
    · exact h
    · rw [hyjj] at h; exact absurd h one_ne_zero
  have hrk : r k = 0 := by
    rcases hdk k hkm with h | h
    · exact h
    · rw [hykk] at h; exact absurd h one_ne_zero
  have hXij : X i j = 0 := by
    by_contra h
    rcases source_ancestor hX hac hin hjn h with h | h
    · exact hij h.symm
    · exact hj h
  have hyij : y i j = 0 := by rw [hyv i hiU j hjm, if_neg hjH, hXij]
  have hyik : y i k = X i k := by rw [hyv i hiU k hkm, if_neg hkH]
  have hykj : y k j = X k j := by rw [hyv k hkU j hjm, if_neg hjH]
  have hyjk : y j k = X j k := by rw [hyv j hjU k hkm, if_neg hkH]
  have ej := hrv j hjm
  have ek := hrv k hkm
  rw [hrj, hyij, hyjj, hykj] at ej
  rw [hrk, hyik, hyjk, hykk] at ek
  -- covariances of the residuals
  have hcov : ∀ x ∈ U, ∀ z ∈ U, x ≠ z → popCov m σ (y x) (y z) ≠ 0 := by
    intro x hx z hz hxz
    have hyr : ∀ u ∈ U, IsResidual m σ X H (X u) (y u) := by
      intro u hu
      by_cases hui : u = i
      · exact hy u (Or.inl hui)
      · exact hy u (Or.inr (mem_others.2 ⟨hu, hui⟩))
    obtain ⟨a, b, ha, hb, hab⟩ := (ht.corr H x H z hHn hHn (hUn x hx) (hUn z hz)).1 (hcor x hx z hz hxz)
    rwa [popCov_congr (ha.unique hσ (hyr x hx)) (hb.unique hσ (hyr z hz))] at hab
  have hki : TrueAncestor n B k i := by
    by_contra hki
    have hXik : X i k = 0 := by
      by_contra h
      rcases source_ancestor hX hac hin hkn h with h | h
      · exact hik h.symm
      · exact hki h
    rw [hXik] at ek
    have hprod : X k j = 0 ∨ X j k = 0 := by
      by_contra h
      push Not at h
      rcases source_ancestor hX hac hkn hjn h.1 with h1 | h1
      · exact hjk h1
      · rcases source_ancestor hX hac hjn hkn h.2 with h2 | h2
        · exact hjk h2.symm
        · exact h1.asymm hac h2
    have hz : c j = 0 ∧ c k = 0 := by
      rcases hprod with h | h
      · rw [h] at ej
        have h1 : c j = 0 := by linarith
        rw [h1] at ek
        exact ⟨h1, by linarith⟩
      · rw [h] at ek
        have h1 : c k = 0 := by linarith
        rw [h1] at ej
        exact ⟨by linarith, h1⟩
    refine hcov i hiU j hjU hij (popCov_disjoint fun e he => ?_)
    rcases hdj e he with h | h
    · rw [hrv e he, hz.1, hz.2] at h
      exact Or.inl (by linarith)
    · exact Or.inr h
  have hXkj : X k j = 0 := by
    by_contra h
    rcases source_ancestor hX hac hkn hjn h with h | h
    · exact hjk h
    · exact hj (h.trans hki)
  have hcj : c j = 0 := by rw [hXkj] at ej; linarith
  have hkj : TrueAncestor n B k j := by
    obtain ⟨e, he, h1, h2⟩ := exists_common_source (hcov j hjU k hkU hjk)
    rw [hyv j hjU e he] at h1
    rw [hyv k hkU e he] at h2
    have heH : e ∉ H := fun h => h1 (if_pos h)
    rw [if_neg heH] at h1 h2
    have hen : e < n := by
      by_contra hen
      rcases hcl with hcl | hcl
      · exact NoHiddenAbove.anc hcl hki e (source_hidden hX hac hkn (by omega) he h2)
      · exact hcl e (source_hidden hX hac hjn (by omega) he h1)
    rcases source_ancestor hX hac hkn hen h2 with rfl | hek
    · rcases source_ancestor hX hac hjn hen h1 with h | h
      · exact absurd h.symm hjk
      · exact h
    · rcases source_ancestor hX hac hjn hen h1 with rfl | hej
      · exact absurd (hek.trans hki) hj
      · exact absurd ((hHm e).2 ⟨hek.trans hki, hej, hek⟩) heH
  have hkc : NoHiddenAbove n m B L k := hcl.elim (fun c => NoHiddenAbove.anc c hki) (fun c => NoHiddenAbove.anc c hkj)
  have hyk : ∀ e, e < m → y k e = if e = k then 1 else 0 := by
    intro e he
    by_cases hek : e = k
    · rw [if_pos hek, hek, hykk]
    · rw [if_neg hek, hyv k hkU e he]
      split
      · rfl
      · rename_i heH
        by_contra h
        rcases source_clean hX hac hkn hkc he h with h | h
        · exact hek h
        · exact heH ((hHm e).2 ⟨h.trans hki, h.trans hkj, h⟩)
  -- `j` passes
  have hoj : (others U j).toFinset = {i, k} := by
    ext x
    rw [List.mem_toFinset, mem_others, hU, mem_insert, mem_singleton]
    constructor
    · rintro ⟨rfl | rfl | h, h'⟩
      · exact Or.inl rfl
      · exact absurd rfl h'
      · exact Or.inr h
    · rintro (rfl | rfl)
      · exact ⟨Or.inl rfl, hij⟩
      · exact ⟨Or.inr (Or.inr rfl), hjk.symm⟩
  have hmo : ∀ u, u ∈ others U j → u = i ∨ u = k := by
    intro u hu
    have : u ∈ (others U j).toFinset := List.mem_toFinset.2 hu
    rw [hoj] at this
    simpa using this
  have hs1 : ShareNoSource m (fun e => y j e - X j k * y k e) (y k) := by
    intro e he
    by_cases hek : e = k
    · left
      subst hek
      show y j e - X j e * y e e = 0
      rw [hykk, hyjk]; ring
    · right
      rw [hyk e he, if_neg hek]
  have hs2 : ShareNoSource m (fun e => y j e - X j k * y k e) (y i) := by
    intro e he
    by_cases hek : e = k
    · left
      subst hek
      show y j e - X j e * y e e = 0
      rw [hykk, hyjk]; ring
    · rcases hdj e he with h | h
      · right
        rw [hrv e he, hcj, hyk e he, if_neg hek] at h
        linarith
      · left
        show y j e - X j k * y k e = 0
        rw [h, hyk e he, if_neg hek]; ring
  refine mem_sinkSet.2 ⟨hjU, ?_, ?_⟩
  · by_contra hc'
    rw [Bool.not_eq_false, existsAncestor_true] at hc'
    rcases hc' with ⟨x, hx, hxj⟩ | hall
    · rcases hmo x hx with rfl | rfl
      · exact hj (hs x j hxj hcl)
      · exact (hs x j hxj (Or.inl hkc)).asymm hac hkj
    · exact hnij (hs j i (hall i (mem_others.2 ⟨hiU, hij⟩)) hcl.symm)
  · rw [ht.indep H j (others U j) hHn hjn (fun u hu => hUn u (mem_others.1 hu).1)]
    refine ⟨y, fun e => y j e - X j k * y k e, ?_, ⟨fun h => if h = k then X j k else 0, ?_, ?_⟩, ?_⟩
    · intro u hu
      have huU : u ∈ U := by
        rcases hu with rfl | hu
        · exact hjU
        · exact (mem_others.1 hu).1
      by_cases hui : u = i
      · exact hy u (Or.inl hui)
      · exact hy u (Or.inr (mem_others.2 ⟨huU, hui⟩))
    · intro e _
      rw [hoj, sum_pair hik]
      simp only [hik, if_false, if_true]; ring
    · intro h hh
      rw [hoj] at hh
      rcases mem_insert.1 hh with rfl | hh
      · exact popCov_disjoint hs2
      · rw [mem_singleton] at hh
        subst hh
        exact popCov_disjoint hs1
    · intro u hu
      rcases hmo u hu with rfl | rfl
      · exact hs2
      · exact hs1

/-- Visiting three variables records nothing false about a variable without hidden causes above it. -/
theorem triple_weak (hX : SourceModel n m B L X) (hac : Acyclic (Edge n B 0)) (hσ : ∀ k, k < m → 0 < σ k)
    (ht : PerfectTests n m σ X t) {s : St} (hs : WeakSound n m B L s.M) (hcm : CompleteM n m B L s.M) {U : List Nat}
    (hU : U ∈ combos 3 (List.range n)) : WeakSound n m B L (body t s U).M := by
  obtain ⟨hsub, hlen⟩ := mem_combos.1 hU
  have hnd : U.Nodup := hsub.nodup List.nodup_range
  have hUn : ∀ x ∈ U, x < n := fun x hx => List.mem_range.1 (hsub.subset hx)
  rcases body_cases t s U with ⟨h, _⟩ | ⟨_, hcor, hb, _⟩
  · rw [h]; exact hs
  · rw [hb]
    intro i j hj hcl
    rcases mem_applySink.1 hj with h | ⟨hsk, hjU, hji⟩
    · exact hs i j h hcl
    · by_contra hnot
      have hi : i ∈ sinkSet t s.M (commonAncestors s.M U) U := by rw [hsk]; simp
      obtain ⟨hiU, _, _⟩ := mem_sinkSet.1 hi
      have hHn : commonAncestors s.M U ⊆ range n := fun h hh => mem_range.2
        ((hcl.elim (fun c => weak_common hs hiU c hh) (fun c => weak_common hs hjU c hh)).2 i hiU).lt_left
      have hcor' : ∀ x ∈ U, ∀ y ∈ U, x ≠ y →
          t.corr (commonAncestors s.M U) x (commonAncestors s.M U) y = true := by
        have hp : ∀ a b, [a, b].Sublist U → t.corr (commonAncestors s.M U) a (commonAncestors s.M U) b = true := by
          intro a b hab
          have := List.all_eq_true.1 hcor [a, b] (mem_combos.2 ⟨hab, rfl⟩)
          simpa using this
        obtain ⟨a, b, c, rfl⟩ := List.length_eq_three.1 hlen
        have hab := hp a b (by simp)
        have hac' := hp a c ((List.Sublist.cons b (List.Sublist.refl [c])).cons_cons a)
        have hbc := hp b c ((List.Sublist.refl [b, c]).cons a)
        have hn : a < n ∧ b < n ∧ c < n := ⟨hUn a (by simp), hUn b (by simp), hUn c (by simp)⟩
        intro x hx y hy hxy
        simp only [List.mem_cons, List.not_mem_nil, or_false] at hx hy
        rcases hx with rfl | rfl | rfl <;> rcases hy with rfl | rfl | rfl <;>
          first
            | exact absurd rfl hxy
            | assumption
            | (rw [corr_symm ht hHn (by omega) (by omega)]; assumption)
      obtain ⟨k, hk, hik, hjk⟩ : ∃ k, (∀ x, x ∈ U ↔ x = i ∨ x = j ∨ x = k) ∧ i ≠ k ∧ j ≠ k := by
        obtain ⟨a, b, c, rfl⟩ := List.length_eq_three.1 hlen
        simp only [List.nodup_cons, List.mem_cons, List.not_mem_nil, or_false, not_or, not_false_eq_true,
          List.nodup_nil, and_true] at hnd
        simp only [List.mem_cons, List.not_mem_nil, or_false] at hiU hjU ⊢
        rcases hiU with rfl | rfl | rfl <;> rcases hjU with rfl | rfl | rfl
        · exact absurd rfl hji
        · exact ⟨c, fun x => Iff.rfl, by omega, by omega⟩
        · exact ⟨b, fun x => by omega, by omega, by omega⟩
        · exact ⟨c, fun x => by omega, by omega, by omega⟩
        · exact absurd rfl hji
        · exact ⟨a, fun x => by omega, by omega, by omega⟩
        · exact ⟨b, fun x => by omega, by omega, by omega⟩
        · exact ⟨a, fun x => by omega, by omega, by omega⟩
        · exact absurd rfl hji
      have := clean_two_sinks hX hac hσ ht hs hcm hUn hk hji.symm hik hjk hcor' hi hcl hnot
      rw [hsk] at this
      exact hji (by simpa using this)

theorem CompleteM.mono {M M' : Anc} (h : CompleteM n m B L M) (hMM : ∀ i, M i ⊆ M' i) : CompleteM n m B L M' :=
  fun i j hc ha => hMM i (h i j hc ha)

/-- The search with at most two explanatory variables: nothing false about a variable without hidden causes above it, and
every ancestor without hidden causes above it is found. -/
theorem loop_clean (hX : SourceModel n m B L X) (hac : Acyclic (Edge n B 0)) (hσ : ∀ k, k < m → 0 < σ k)
    (hf : CleanFaithful n m B L X) (ht : PerfectTests n m σ X t) {maxNum : Nat} (hm1 : 1 ≤ maxNum) (hm2 : maxNum ≤ 2) :
    ∀ {fuel l : Nat} {s : St} {M : Anc}, Good t n maxNum s.M → WeakSound n m B L s.M → HistClean n m B L s →
      l = 1 ∨ (l = 2 ∧ maxNum = 2 ∧ CompleteM n m B L s.M) → loop t n maxNum fuel l s = some M →
      WeakSound n m B L M ∧ CompleteM n m B L M
  | 0, _, _, _, _, _, _, _, h => by simp [loop] at h
  | fuel + 1, l, s, M, hg, hs, hh, hl, h => by
    unfold loop at h
    simp only at h
    rcases hl with rfl | ⟨rfl, rfl, hcm⟩
    · obtain ⟨hg', hflag⟩ := pass_step (t := t) (n := n) (maxNum := maxNum) le_rfl hm1 hg
      have hinv' := foldl_inv (t := t) (P := fun s => WeakSound n m B L s.M ∧ HistClean n m B L s)
        (Us := combos 2 (List.range n))
        (fun U hU s hs => ⟨body_weak hX hac hσ ht hs.1 hU, body_histClean hX hac hσ hf ht hs.1 hs.2 U⟩)
        { s with changed := false } ⟨hs, hh⟩
      rcases hflag with ⟨hc, hMe⟩ | ⟨hc, _⟩
      · have hex := clean_complete_of_unchanged hX hac hσ hf ht hm1 hg hs hh hMe
        rw [hc] at h
        simp only [Bool.false_eq_true, if_false] at h
        split at h
        · rename_i hlt
          have : maxNum = 2 := by omega
          subst this
          exact loop_clean hX hac hσ hf ht hm1 hm2 hg' hinv'.1 hinv'.2 (Or.inr ⟨rfl, rfl, by rw [hMe]; exact hex⟩) h
        · simp only [Option.some.injEq] at h
          rw [← h]
          exact ⟨hinv'.1, by rw [hMe]; exact hex⟩
      · rw [hc, if_pos rfl] at h
        exact loop_clean hX hac hσ hf ht hm1 hm2 hg' hinv'.1 hinv'.2 (Or.inl rfl) h
    · obtain ⟨hg', _⟩ := pass_step (t := t) (n := n) (l := 2) (by omega) le_rfl hg
      have hinv' := foldl_inv (t := t)
        (P := fun s => WeakSound n m B L s.M ∧ HistClean n m B L s ∧ CompleteM n m B L s.M)
        (Us := combos 3 (List.range n))
        (fun U hU s hs => ⟨triple_weak hX hac hσ ht hs.1 hs.2.2 hU, body_histClean hX hac hσ hf ht hs.1 hs.2.1 U,
          CompleteM.mono hs.2.2 (body_mono t s U)⟩)
        { s with changed := false } ⟨hs, hh, hcm⟩
      split at h
      · exact loop_clean hX hac hσ hf ht hm1 hm2 hg' hinv'.1 hinv'.2.1 (Or.inl rfl) h
      · simp only [lt_irrefl, if_false, Option.some.injEq] at h
        rw [← h]
        exact ⟨hinv'.1, hinv'.2.2⟩

/-! ### The parents kept are the support of the regression on the recorded ancestors -/

/-- Least squares coefficients are unique. -/
theorem coef_unique (hX : SourceModel n m B L X) (hac : Acyclic (Edge n B 0)) (hσ : ∀ k, k < m → 0 < σ k)
    {S : Finset Nat} (hS : ∀ h ∈ S, h < n) {v c c' r r' : Nat → ℚ} (h : IsRegression m σ X S v c r)
    (h' : IsRegression m σ X S v c' r') : ∀ a ∈ S, c a = c' a := by
  have hr := IsResidual.unique hσ ⟨c, h⟩ ⟨c', h'⟩
  have := sources_independent hX hac hS (c := fun a => c a - c' a) (by
    intro k hk
    have hkm := hk.trans_le hX.1
    have e1 := h.1 k hkm
    have e2 := h'.1 k hkm
    have e3 := hr k hkm
    simp only [sub_mul, sum_sub_distrib]
    linarith)
  exact fun a ha => sub_eq_zero.1 (this a ha)

/-- A recorded ancestor is kept as a parent iff its coefficient is not zero when `i` is regressed on all recorded
ancestors. -/
theorem isParent_coef (hX : SourceModel n m B L X) (hac : Acyclic (Edge n B 0)) (hσ : ∀ k, k < m → 0 < σ k)
    (ht : PerfectTests n m σ X t) {M : Anc} (hMn : ∀ a, ∀ h ∈ M a, h < n) (hirr : ∀ a, a ∉ M a) {i j : Nat} (hi : i < n)
    (hj : j ∈ M i) {c r : Nat → ℚ} (hreg : IsRegression m σ X (M i) (X i) c r) :
    isParent t M j i = true ↔ c j ≠ 0 := by
  have hjn := hMn i j hj
  have hMi : M i ⊆ range n := fun h hh => mem_range.2 (hMn i h hh)
  have hsd : M i \ {j} ⊆ range n := fun h hh => hMi (mem_sdiff.1 hh).1
  have hin : M i ∩ M j ⊆ range n := fun h hh => hMi (mem_inter.1 hh).1
  obtain ⟨w, d, hw⟩ := exists_residual hσ X (M i ∩ M j) (X j)
  obtain ⟨z, e, hz⟩ := exists_residual hσ X (M i \ {j}) (X i)
  -- the test looks at the covariance of `x_j` and `z`
  have hcov : popCov m σ w z = popCov m σ (X j) z := by
    rw [popCov_congr hw.1 (fun _ _ => rfl), popCov_sub_left, popCov_sum_left, sum_eq_zero, sub_zero]
    intro h hh
    have : h ∈ M i \ {j} := by
      rw [mem_sdiff, mem_singleton]
      refine ⟨(mem_inter.1 hh).1, ?_⟩
      rintro rfl
      exact hirr _ (mem_inter.1 hh).2
    rw [popCov_comm, hz.2 h this, mul_zero]
  have hiff : isParent t M j i = true ↔ popCov m σ (X j) z ≠ 0 := by
    unfold isParent
    rw [ht.corr _ _ _ _ hin hsd hjn hi]
    constructor
    · rintro ⟨r', s', hr', hs', hne⟩
      rwa [popCov_congr (hr'.unique hσ ⟨_, hw⟩) (hs'.unique hσ ⟨_, hz⟩), hcov] at hne
    · intro h
      exact ⟨w, z, ⟨_, hw⟩, ⟨_, hz⟩, by rwa [hcov]⟩
  rw [hiff, not_iff_not]
  have hsum : ∀ (f : Nat → ℚ) (k : Nat), ∑ h ∈ M i, (if h = j then 0 else f h) * X h k = ∑ h ∈ M i \ {j}, f h * X h k := by
    intro f k
    rw [← sum_sdiff (singleton_subset_iff.2 hj), sum_singleton]
    simp only [if_true, zero_mul, add_zero]
    refine sum_congr rfl fun h hh => ?_
    have : h ≠ j := by rw [mem_sdiff, mem_singleton] at hh; exact hh.2
    rw [if_neg this]
  constructor
  · intro h0
    -- `z` is the residual on all recorded ancestors as well
    have hz' : IsRegression m σ X (M i) (X i) (fun h => if h = j then 0 else e h) z := by
      refine ⟨fun k hk => by rw [hsum]; exact hz.1 k hk, fun h hh => ?_⟩
      by_cases hhj : h = j
      · rw [hhj, popCov_comm]; exact h0
      · exact hz.2 h (mem_sdiff.2 ⟨hh, by simpa using hhj⟩)
    have := coef_unique hX hac hσ (fun h hh => hMn i h hh) hreg hz' j hj
    simpa using this
  · intro hc0
    have hr' : IsResidual m σ X (M i \ {j}) (X i) r := by
      refine ⟨c, fun k hk => ?_, fun h hh => hreg.2 h (mem_sdiff.1 hh).1⟩
      rw [hreg.1 k hk, ← hsum]
      congr 1
      refine sum_congr rfl fun h _ => ?_
      split_ifs with hhj
      · rw [hhj, hc0]
      · rfl
    rw [popCov_congr (fun _ _ => rfl) (IsResidual.unique hσ ⟨_, hz⟩ hr'), popCov_comm]
    exact hreg.2 j hj

/-- So the residual on the parents kept is the residual on all recorded ancestors. -/
theorem parents_residual (hX : SourceModel n m B L X) (hac : Acyclic (Edge n B 0)) (hσ : ∀ k, k < m → 0 < σ k)
    (ht : PerfectTests n m σ X t) {M : Anc} (hMn : ∀ a, ∀ h ∈ M a, h < n) (hirr : ∀ a, a ∉ M a) {i : Nat} (hi : i < n)
    {c r : Nat → ℚ} (hreg : IsRegression m σ X (M i) (X i) c r) :
    IsRegression m σ X (extractParents t n M i) (X i) c r := by
  have hmem : ∀ j, j ∈ extractParents t n M i ↔ j ∈ M i ∧ c j ≠ 0 := by
    intro j
    unfold extractParents
    rw [if_pos hi, mem_filter]
    constructor
    · rintro ⟨h1, h2⟩
      exact ⟨h1, (isParent_coef hX hac hσ ht hMn hirr hi h1 hreg).1 h2⟩
    · rintro ⟨h1, h2⟩
      exact ⟨h1, (isParent_coef hX hac hσ ht hMn hirr hi h1 hreg).2 h2⟩
  refine ⟨fun k hk => ?_, fun h hh => hreg.2 h ((hmem h).1 hh).1⟩
  rw [hreg.1 k hk]
  congr 1
  symm
  refine sum_subset (fun h hh => ((hmem h).1 hh).1) fun h hh hnot => ?_
  have : c h = 0 := by
    by_contra h0
    exact hnot ((hmem h).2 ⟨hh, h0⟩)
  rw [this, zero_mul]

/-- The residual of a variable on its recorded ancestors contains no own error of an ancestor without hidden causes. -/
theorem resid_no_clean (hX : SourceModel n m B L X) (hσ : ∀ k, k < m → 0 < σ k)
    {M : Anc} (hcm : CompleteM n m B L M) {i k : Nat} (hk : NoHiddenAbove n m B L k) (hki : TrueAncestor n B k i)
    {c r : Nat → ℚ} (hreg : IsRegression m σ X (M i) (X i) c r) : r k = 0 := by
  classical
  have hkn := hki.lt_left
  have hkm := hkn.trans_le hX.1
  -- the own error of `k` is a combination of `k` and its ancestors
  have hS : CleanSet n m B L ((range n).filter (fun h => h = k ∨ TrueAncestor n B h k)) := by
    refine ⟨⟨fun h hh => mem_range.1 (mem_filter.1 hh).1, fun h hh a ha => ?_⟩, fun h hh => ?_⟩
    · rw [mem_filter] at hh ⊢
      refine ⟨mem_range.2 ha.lt_left, Or.inr ?_⟩
      rcases hh.2 with rfl | h'
      · exact ha
      · exact ha.trans h'
    · rcases (mem_filter.1 hh).2 with rfl | h'
      · exact hk
      · exact NoHiddenAbove.anc hk h'
  set S := (range n).filter (fun h => h = k ∨ TrueAncestor n B h k) with hSd
  have hkS : k ∈ S := mem_filter.2 ⟨mem_range.2 hkn, Or.inl rfl⟩
  have hSM : S ⊆ M i := by
    intro h hh
    rcases (mem_filter.1 hh).2 with rfl | h'
    · exact hcm i _ hk hki
    · exact hcm i h (NoHiddenAbove.anc hk h') (h'.trans hki)
  have hspan := fun k' (hk' : k' < m) => clean_span hX hS (fun h => if h = k then (1 : ℚ) else 0) hk'
  have hz : popCov m σ (fun k' => if k' = k then (1 : ℚ) else 0) r = 0 := by
    have : ∀ k', k' < m → (if k' = k then (1 : ℚ) else 0) =
        ∑ h ∈ S, ((if h = k then (1 : ℚ) else 0) - ∑ j ∈ S, (if j = k then (1 : ℚ) else 0) * B j h) * X h k' := by
      intro k' hk'
      rw [hspan k' hk']
      by_cases h : k' = k
      · rw [if_pos h, if_pos (by rw [h]; exact hkS)]
      · rw [if_neg h]; simp
    rw [popCov_congr this (fun _ _ => rfl), popCov_sum_left]
    refine sum_eq_zero fun h hh => ?_
    rw [popCov_comm, hreg.2 h (hSM hh), mul_zero]
  rw [popCov_single hkm] at hz
  rcases mul_eq_zero.1 hz with h | h
  · exact absurd h (hσ k hkm).ne'
  · exact h

/-- The sources of a residual on true ancestors come from the variable itself and its ancestors. -/
theorem resid_source (hX : SourceModel n m B L X) (hac : Acyclic (Edge n B 0)) {M : Anc} (hs : SoundM n B M) {i k : Nat}
    (hi : i < n) (hk : k < m) {c r : Nat → ℚ} (hreg : IsRegression m σ X (M i) (X i) c r) (h : r k ≠ 0) :
    (k < n ∧ (k = i ∨ TrueAncestor n B k i)) ∨ HiddenAbove n m B L i k := by
  have hex : ∃ a, a < n ∧ (a = i ∨ TrueAncestor n B a i) ∧ X a k ≠ 0 := by
    by_contra hcon
    push Not at hcon
    apply h
    rw [hreg.1 k hk, hcon i hi (Or.inl rfl), sum_eq_zero, sub_zero]
    intro a ha
    rw [hcon a (hs i a ha).lt_left (Or.inr (hs i a ha)), mul_zero]
  obtain ⟨a, han, hai, hX0⟩ := hex
  rcases lt_or_ge k n with hkn | hkn
  · left
    refine ⟨hkn, ?_⟩
    rcases source_ancestor hX hac han hkn hX0 with rfl | h'
    · exact hai
    · rcases hai with rfl | hai
      · exact Or.inr h'
      · exact Or.inr (h'.trans hai)
  · right
    have := source_hidden hX hac han hkn hk hX0
    rcases hai with rfl | hai
    · exact this
    · exact HiddenAbove.desc this hai

/-- When no hidden cause acts on a proper ancestor, the own error and the direct hidden causes are left. -/
theorem clean_regression (hX : SourceModel n m B L X) (hac : Acyclic (Edge n B 0)) {M : Anc} {i : Nat}
    (hs : ∀ h ∈ M i, TrueAncestor n B h i) (hcm : CompleteM n m B L M) (hi : i < n) (hc : ∀ a, TrueAncestor n B a i → NoHiddenAbove n m B L a) :
    IsRegression m σ X (M i) (X i) (fun h => B i h) (fun k => if k < n then (if k = i then 1 else 0) else L i k) := by
  have hP : ∀ h, h < n → B i h ≠ 0 → h ∈ M i := fun h hh hB =>
    hcm i h (hc h (trueAncestor_of_edge hh hi hB)) (trueAncestor_of_edge hh hi hB)
  constructor
  · intro k hk
    have hsub : ∑ h ∈ range n, B i h * X h k = ∑ h ∈ M i, B i h * X h k := by
      symm
      refine sum_subset (fun h hh => mem_range.2 (hs h hh).lt_left) fun h hh hnot => ?_
      by_contra hne
      exact hnot (hP h (mem_range.1 hh) (fun h0 => hne (by rw [h0, zero_mul])))
    have h1 := hX.2 i hi k hk
    rw [hsub] at h1
    rw [h1]; ring
  · intro h hh
    have hhi := hs h hh
    refine popCov_disjoint fun k hk => ?_
    by_cases hX0 : X h k = 0
    · exact Or.inr hX0
    · left
      rcases source_clean hX hac hhi.lt_left (hc h hhi) hk hX0 with rfl | h'
      · rw [if_pos hhi.lt_left, if_neg (hhi.ne hac)]
      · rw [if_pos h'.lt_left, if_neg ((h'.trans hhi).ne hac)]

/-- A marked pair shares a hidden cause. -/
theorem conf_hidden (hX : SourceModel n m B L X) (hac : Acyclic (Edge n B 0)) (hσ : ∀ k, k < m → 0 < σ k)
    (ht : PerfectTests n m σ X t) {M : Anc} (hs : SoundM n B M) (hcm : CompleteM n m B L M) {i j : Nat} (hi : i < n)
    (hj : j < n) (hij : i ≠ j) (h : Conf t (extractParents t n M) i j) :
    ∃ k, HiddenAbove n m B L i k ∧ HiddenAbove n m B L j k := by
  have hMn : ∀ a, ∀ h ∈ M a, h < n := fun a h hh => (hs a h hh).lt_left
  have hirr : ∀ a, a ∉ M a := fun a h => hac a (hs a a h)
  have hPn : ∀ a, extractParents t n M a ⊆ range n := by
    intro a b hb
    unfold extractParents at hb
    split at hb
    · exact mem_range.2 (hMn a b (mem_filter.1 hb).1)
    · simp at hb
  obtain ⟨_, _, hcor⟩ := h
  obtain ⟨r', s', hr', hs', hne⟩ := (ht.corr _ _ _ _ (hPn i) (hPn j) hi hj).1 hcor
  obtain ⟨r, c, hr⟩ := exists_residual hσ X (M i) (X i)
  obtain ⟨s, d, hd⟩ := exists_residual hσ X (M j) (X j)
  rw [popCov_congr (hr'.unique hσ ⟨_, parents_residual hX hac hσ ht hMn hirr hi hr⟩)
    (hs'.unique hσ ⟨_, parents_residual hX hac hσ ht hMn hirr hj hd⟩)] at hne
  obtain ⟨k, hk, hrk, hsk⟩ := exists_common_source hne
  have hdirty : ∀ a, a < n → ∀ {c r : Nat → ℚ}, IsRegression m σ X (M a) (X a) c r → k < n → r k ≠ 0 →
      TrueAncestor n B k a → ¬ NoHiddenAbove n m B L k :=
    fun a _ _ _ hreg _ h0 hka hcl => h0 (resid_no_clean hX hσ hcm hcl hka hreg)
  rcases resid_source hX hac hs hi hk hr hrk with ⟨hkn, hki⟩ | h1
  · rcases resid_source hX hac hs hj hk hd hsk with ⟨_, hkj⟩ | h2
    · have hnc : ¬ NoHiddenAbove n m B L k := by
        rcases hki with rfl | hki
        · rcases hkj with rfl | hkj
          · exact absurd rfl hij
          · exact hdirty j hj hd hkn hsk hkj
        · exact hdirty i hi hr hkn hrk hki
      unfold NoHiddenAbove at hnc
      push Not at hnc
      obtain ⟨q, hq⟩ := hnc
      refine ⟨q, ?_, ?_⟩
      · rcases hki with rfl | hki
        · exact hq
        · exact HiddenAbove.desc hq hki
      · rcases hkj with rfl | hkj
        · exact hq
        · exact HiddenAbove.desc hq hkj
    · exact absurd h2.1 (by omega)
  · rcases resid_source hX hac hs hj hk hd hsk with ⟨hkn, _⟩ | h2
    · exact absurd h1.1 (by omega)
    · exact ⟨k, h1, h2⟩

end hidden

end Verif.Rcd
