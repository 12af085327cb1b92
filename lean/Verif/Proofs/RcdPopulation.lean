import Verif.Spec.PerfectTests
import Verif.Proofs.Population
import Verif.Proofs.Rcd

set_option linter.unusedSectionVars false
set_option autoImplicit false
namespace Verif.Rcd
open Finset

/-! ### Perfect tests exist -/

/-- The members of `H` in increasing order. -/
def listOf (n : Nat) (H : Finset Nat) : List Nat := (List.range n).filter (fun h => decide (h ∈ H))

theorem listOf_toFinset {n : Nat} {H : Finset Nat} (h : H ⊆ range n) : (listOf n H).toFinset = H := by
  ext x
  simp only [listOf, List.mem_toFinset, List.mem_filter, List.mem_range, decide_eq_true_eq]
  exact ⟨fun h => h.2, fun hx => ⟨mem_range.1 (h hx), hx⟩⟩

/-- The tests computed from the coefficients. -/
def popTests (n m : Nat) (σ : Nat → ℚ) (X : Nat → Nat → ℚ) : Tests where
  nonGauss _ _ := true
  corr P a Q b := decide (popCov m σ (residual m σ X (listOf n P) (X a)) (residual m σ X (listOf n Q) (X b)) ≠ 0)
  indep H x l :=
    let y := fun u => residual m σ X (listOf n H) (X u)
    let r := residual m σ y l (y x)
    l.all (fun u => (List.range m).all (fun k => decide (r k = 0 ∨ y u k = 0)))

theorem popTests_perfect {m : Nat} {σ : Nat → ℚ} (hσ : ∀ k, k < m → 0 < σ k) (n : Nat) (X : Nat → Nat → ℚ) :
    PerfectTests n m σ X (popTests n m σ X) := by
  refine ⟨fun _ _ _ _ _ => rfl, ?_, ?_⟩
  · intro P a Q b hP hQ _ _
    have h1 := residual_spec hσ X (listOf n P) (X a)
    have h2 := residual_spec hσ X (listOf n Q) (X b)
    rw [listOf_toFinset hP] at h1
    rw [listOf_toFinset hQ] at h2
    simp only [popTests, decide_eq_true_eq]
    constructor
    · exact fun h => ⟨_, _, h1, h2, h⟩
    · rintro ⟨r, s, hr, hs, h⟩
      rwa [popCov_congr (hr.unique hσ h1) (hs.unique hσ h2)] at h
  · intro H x l hH _ _
    have hy : ∀ u, IsResidual m σ X H (X u) (residual m σ X (listOf n H) (X u)) := by
      intro u
      have h1 := residual_spec hσ X (listOf n H) (X u)
      rwa [listOf_toFinset hH] at h1
    simp only [popTests, List.all_eq_true, List.mem_range, decide_eq_true_eq]
    constructor
    · exact fun h => ⟨_, _, fun u _ => hy u, residual_spec hσ _ l _, h⟩
    · rintro ⟨y, r, h1, h2, h3⟩ u hu k hk
      have hyu : ∀ u, u = x ∨ u ∈ l → ∀ k, k < m → y u k = residual m σ X (listOf n H) (X u) k :=
        fun u hu => (h1 u hu).unique hσ (hy u)
      have h4 : IsResidual m σ (fun u => residual m σ X (listOf n H) (X u)) l.toFinset
          (residual m σ X (listOf n H) (X x)) r := by
        obtain ⟨c, hc, ho⟩ := h2
        refine ⟨c, ?_, ?_⟩
        · intro k hk
          rw [hc k hk, hyu x (Or.inl rfl) k hk]
          congr 1
          exact sum_congr rfl fun h hh => by rw [hyu h (Or.inr (List.mem_toFinset.1 hh)) k hk]
        · intro h hh
          rw [← ho h hh]
          exact popCov_congr (fun _ _ => rfl) fun k hk => (hyu h (Or.inr (List.mem_toFinset.1 hh)) k hk).symm
      have h5 := h4.unique hσ (residual_spec hσ _ l _) k hk
      rw [← h5, ← hyu u (Or.inr hu) k hk]
      exact h3 u hu k hk

/-! ### The search -/

/-- What one visit of `U` does. -/
theorem body_cases (t : Tests) (s : St) (U : List Nat) :
    (body t s U = s ∧ (s.lookup U = some (commonAncestors s.M U) ∨
      (∃ x ∈ U, t.nonGauss (commonAncestors s.M U) x = false) ∨ allCorrelated t (commonAncestors s.M U) U = false)) ∨
    ((∀ x ∈ U, t.nonGauss (commonAncestors s.M U) x = true) ∧ allCorrelated t (commonAncestors s.M U) U = true ∧
      (body t s U).M = (applySink s U (sinkSet t s.M (commonAncestors s.M U) U)).M ∧
      (body t s U).hist = (U, commonAncestors s.M U) :: s.hist) := by
  have hh : ∀ l, (applySink s U l).hist = s.hist := by
    intro l
    unfold applySink
    split
    · split <;> rfl
    · rfl
  unfold body
  simp only
  split
  · rename_i h; exact Or.inl ⟨rfl, Or.inl h⟩
  split
  · rename_i h
    obtain ⟨x, hx, hx'⟩ := List.any_eq_true.1 h
    exact Or.inl ⟨rfl, Or.inr (Or.inl ⟨x, hx, by simpa using hx'⟩)⟩
  split
  · rename_i h; exact Or.inl ⟨rfl, Or.inr (Or.inr (by simpa using h))⟩
  · rename_i h1 h2
    refine Or.inr ⟨?_, by simpa using h2, rfl, by rw [hh]⟩
    intro x hx
    by_contra hc
    exact h1 (List.any_eq_true.2 ⟨x, hx, by simpa using hc⟩)

/-- An update records the rest of `U` for the only sink. -/
theorem mem_applySink {s : St} {U S : List Nat} {i j : Nat} :
    j ∈ (applySink s U S).M i ↔ j ∈ s.M i ∨ (S = [i] ∧ j ∈ U ∧ j ≠ i) := by
  unfold applySink
  split
  · rename_i xi
    split
    · rename_i he
      constructor
      · exact Or.inl
      · rintro (h | ⟨h, h1, h2⟩)
        · exact h
        · simp only [List.cons.injEq, and_true] at h
          subst h
          rw [he]
          exact mem_union_right _ (List.mem_toFinset.2 (mem_others.2 ⟨h1, h2⟩))
    · simp only [addAncestors]
      split
      · rename_i he
        subst he
        rw [mem_union, List.mem_toFinset, mem_others]
        simp
      · rename_i he
        simp only [List.cons.injEq, and_true]
        constructor
        · exact Or.inl
        · rintro (h | ⟨h, _⟩)
          · exact h
          · exact absurd h.symm he
  · rename_i h
    constructor
    · exact Or.inl
    · rintro (h' | ⟨h', _⟩)
      · exact h'
      · exact absurd h' (h i)

theorem lookup_mem {s : St} {U : List Nat} {H : Finset Nat} (h : s.lookup U = some H) : (U, H) ∈ s.hist := by
  unfold St.lookup at h
  cases hf : s.hist.find? (fun e => decide (e.1 = U)) with
  | none => simp [hf] at h
  | some e =>
    rw [hf] at h
    simp only [Option.map_some, Option.some.injEq] at h
    have h1 := List.mem_of_find?_eq_some hf
    have h2 := List.find?_some hf
    simp only [decide_eq_true_eq] at h2
    rw [← h, ← h2]
    exact h1

/-! ### What the tests say about a pair -/

section pop
variable {n m : Nat} {B L X : Nat → Nat → ℚ} {σ : Nat → ℚ} {t : Tests}

theorem corr_symm (ht : PerfectTests n m σ X t) {H : Finset Nat} (hH : H ⊆ range n) {a b : Nat} (ha : a < n) (hb : b < n) :
    t.corr H a H b = t.corr H b H a := by
  rw [Bool.eq_iff_iff, ht.corr H a H b hH hH ha hb, ht.corr H b H a hH hH hb ha]
  constructor <;>
  · rintro ⟨r, s, h1, h2, h3⟩
    exact ⟨s, r, h2, h1, by rwa [popCov_comm]⟩

/-- Regressing out ancestors of `j` leaves the own error of `j` in `j` and changes its share in no variable. -/
theorem resid_own (hX : SourceModel n m B L X) (hac : Acyclic (Edge n B 0)) {H : Finset Nat} {i j : Nat}
    (hj : j < n) (hH : ∀ h ∈ H, TrueAncestor n B h j) {y : Nat → ℚ} (hy : IsResidual m σ X H (X i) y) :
    y j = X i j := by
  obtain ⟨c, hc, _⟩ := hy
  rw [hc j (hj.trans_le hX.1), sum_eq_zero, sub_zero]
  intro h hh
  have hhj := hH h hh
  by_contra hne
  have hXh : X h j ≠ 0 := fun h0 => hne (by rw [h0, mul_zero])
  rcases source_ancestor hX hac hhj.lt_left hj hXh with rfl | h'
  · exact hac _ hhj
  · exact hac _ (h'.trans hhj)

/-- A pair with an independent residual and correlation is in causal order, hidden causes or not. -/
theorem pair_sound (hX : SourceModel n m B L X) (hac : Acyclic (Edge n B 0)) (hσ : ∀ k, k < m → 0 < σ k)
    (ht : PerfectTests n m σ X t) {H : Finset Nat} {i j : Nat} (hi : i < n) (hj : j < n) (hij : i ≠ j)
    (hH : ∀ h ∈ H, TrueAncestor n B h j) (hcor : t.corr H i H j = true) (hind : t.indep H i [j] = true) :
    TrueAncestor n B j i := by
  have hHn : H ⊆ range n := fun h hh => mem_range.2 (hH h hh).lt_left
  obtain ⟨r', s', hr', hs', hne⟩ := (ht.corr H i H j hHn hHn hi hj).1 hcor
  obtain ⟨y, r, hy, hr, hdis⟩ := (ht.indep H i [j] hHn hi (by simpa using hj)).1 hind
  have hyi := hy i (Or.inl rfl)
  have hyj := hy j (Or.inr (by simp))
  have hjj : y j j = 1 := by rw [resid_own hX hac hj hH hyj, source_self hX hac hj]
  have hij' : y i j = X i j := resid_own hX hac hj hH hyi
  have hrj : r j = 0 := by
    rcases hdis j (by simp) j (hj.trans_le hX.1) with h | h
    · exact h
    · rw [hjj] at h; exact absurd h one_ne_zero
  obtain ⟨c, hc, _⟩ := hr
  have hrc : ∀ k, k < m → r k = y i k - c j * y j k := by
    intro k hk
    rw [hc k hk]; simp
  by_cases hXij : X i j = 0
  · have hcj : c j = 0 := by
      have := hrc j (hj.trans_le hX.1)
      rw [hrj, hjj, hij', hXij] at this
      linarith
    exfalso
    apply hne
    rw [popCov_congr (hr'.unique hσ hyi) (hs'.unique hσ hyj)]
    refine popCov_disjoint fun k hk => ?_
    rcases hdis j (by simp) k hk with h | h
    · rw [hrc k hk, hcj, zero_mul, sub_zero] at h
      exact Or.inl h
    · exact Or.inr h
  · rcases source_ancestor hX hac hi hj hXij with h | h
    · exact absurd h.symm hij
    · exact h

/-- Everything recorded is true. -/
def SoundM (n : Nat) (B : Nat → Nat → ℚ) (M : Anc) : Prop := ∀ i j, j ∈ M i → TrueAncestor n B j i

theorem pair_of_sublist {U : List Nat} (hU : U ∈ combos 2 (List.range n)) : ∃ a b, U = [a, b] ∧ a < b ∧ b < n := by
  obtain ⟨h1, h2⟩ := mem_combos.1 hU
  obtain ⟨a, b, rfl⟩ := List.length_eq_two.1 h2
  exact ⟨a, b, rfl, pair_sublist_range.1 h1⟩

theorem others_pair {a b : Nat} (h : a ≠ b) : others [a, b] a = [b] ∧ others [a, b] b = [a] := by
  unfold others
  simp [h, h.symm]

theorem body_sound (hX : SourceModel n m B L X) (hac : Acyclic (Edge n B 0)) (hσ : ∀ k, k < m → 0 < σ k)
    (ht : PerfectTests n m σ X t) {s : St} (hs : SoundM n B s.M) {U : List Nat} (hU : U ∈ combos 2 (List.range n)) :
    SoundM n B (body t s U).M := by
  obtain ⟨a, b, rfl, hab, hbn⟩ := pair_of_sublist hU
  have han : a < n := hab.trans hbn
  rcases body_cases t s [a, b] with ⟨h, _⟩ | ⟨_, hcor, hM, _⟩
  · rw [h]; exact hs
  · rw [hM]
    intro i j hj
    rcases mem_applySink.1 hj with h | ⟨hsk, hjU, hji⟩
    · exact hs i j h
    · have hi : i ∈ sinkSet t s.M (commonAncestors s.M [a, b]) [a, b] := by rw [hsk]; simp
      obtain ⟨hiU, _, hind⟩ := mem_sinkSet.1 hi
      have hmem : ∀ h ∈ commonAncestors s.M [a, b], ∀ x ∈ [a, b], TrueAncestor n B h x := by
        intro h hh x hx
        exact hs x h ((mem_commonAncestors (by simp)).1 hh x hx)
      have hHn : commonAncestors s.M [a, b] ⊆ range n := fun h hh => mem_range.2 (hmem h hh a (by simp)).lt_left
      have hc : t.corr (commonAncestors s.M [a, b]) a (commonAncestors s.M [a, b]) b = true := by
        simpa [allCorrelated, combos] using hcor
      have ho := others_pair hab.ne
      simp only [List.mem_cons, List.not_mem_nil, or_false] at hiU hjU
      rcases hiU with rfl | rfl <;> rcases hjU with rfl | rfl
      · exact absurd rfl hji
      · rw [ho.1] at hind
        exact pair_sound hX hac hσ ht han hbn hab.ne (fun h hh => hmem h hh _ (by simp)) hc hind
      · rw [ho.2] at hind
        refine pair_sound hX hac hσ ht hbn han hab.ne' (fun h hh => hmem h hh _ (by simp)) ?_ hind
        rwa [corr_symm ht hHn hbn han]
      · exact absurd rfl hji

theorem foldl_inv {P : St → Prop} {Us : List (List Nat)} (h : ∀ U ∈ Us, ∀ s, P s → P (body t s U)) :
    ∀ s, P s → P (Us.foldl (body t) s) := by
  induction Us with
  | nil => exact fun s hs => hs
  | cons U Us ih =>
    intro s hs
    exact ih (fun V hV => h V (by simp [hV])) _ (h U (by simp) s hs)

/-- The search over pairs only is sound, hidden causes or not. -/
theorem loop_sound_one (hX : SourceModel n m B L X) (hac : Acyclic (Edge n B 0)) (hσ : ∀ k, k < m → 0 < σ k)
    (ht : PerfectTests n m σ X t) : ∀ {fuel : Nat} {s : St} {M : Anc}, SoundM n B s.M → loop t n 1 fuel 1 s = some M →
      SoundM n B M
  | 0, _, _, _, h => by simp [loop] at h
  | fuel + 1, s, M, hs, h => by
    have hp : SoundM n B (pass t n 1 s).M :=
      foldl_inv (P := fun s => SoundM n B s.M) (fun U hU s hs => body_sound hX hac hσ ht hs hU) _ hs
    unfold loop at h
    simp only at h
    split at h
    · exact loop_sound_one hX hac hσ ht hp h
    · rw [if_neg (lt_irrefl 1)] at h
      simp only [Option.some.injEq] at h
      rw [← h]; exact hp

end pop

/-! ### No hidden causes -/

section exact
variable {n : Nat} {B L X : Nat → Nat → ℚ} {σ : Nat → ℚ} {t : Tests}

/-- Closed under ancestors. -/
def ClosedSet (n : Nat) (B : Nat → Nat → ℚ) (H : Finset Nat) : Prop :=
  (∀ h ∈ H, h < n) ∧ ∀ h ∈ H, ∀ a, TrueAncestor n B a h → a ∈ H

/-- The own errors of the members of a closed set are combinations of its variables. -/
theorem closed_span (hX : SourceModel n n B L X) {H : Finset Nat} (hH : ClosedSet n B H) (v : Nat → ℚ) {k : Nat}
    (hk : k < n) : ∑ h ∈ H, (v h - ∑ j ∈ H, v j * B j h) * X h k = if k ∈ H then v k else 0 := by
  have hown : ∀ j ∈ H, X j k - ∑ h ∈ H, B j h * X h k = if k = j then 1 else 0 := by
    intro j hj
    have hjn := hH.1 j hj
    have hsub : ∑ h ∈ range n, B j h * X h k = ∑ h ∈ H, B j h * X h k := by
      symm
      refine sum_subset (fun h hh => mem_range.2 (hH.1 h hh)) fun h hh hnot => ?_
      by_contra hne
      have hB : B j h ≠ 0 := fun h0 => hne (by rw [h0, zero_mul])
      exact hnot (hH.2 j hj h (trueAncestor_of_edge (mem_range.1 hh) hjn hB))
    have := hX.2 j hjn k hk
    rw [if_pos hk, hsub] at this
    rw [this]; ring
  calc ∑ h ∈ H, (v h - ∑ j ∈ H, v j * B j h) * X h k
      = ∑ h ∈ H, v h * X h k - ∑ h ∈ H, ∑ j ∈ H, v j * B j h * X h k := by
        rw [← sum_sub_distrib]
        exact sum_congr rfl fun h _ => by rw [sub_mul, sum_mul]
    _ = ∑ j ∈ H, v j * (X j k - ∑ h ∈ H, B j h * X h k) := by
        rw [sum_comm (s := H) (t := H), ← sum_sub_distrib]
        refine sum_congr rfl fun j _ => ?_
        rw [mul_sub, mul_sum]
        congr 1
        exact sum_congr rfl fun h _ => by ring
    _ = ∑ j ∈ H, if k = j then v j else 0 := by
        refine sum_congr rfl fun j hj => ?_
        rw [hown j hj]; split <;> ring
    _ = if k ∈ H then v k else 0 := by rw [sum_ite_eq]

/-- Regressing on a closed set removes exactly the own errors of its members. -/
theorem closed_residual (hX : SourceModel n n B L X) (hac : Acyclic (Edge n B 0)) {H : Finset Nat} (hH : ClosedSet n B H)
    (v : Nat → ℚ) : IsResidual n σ X H v (fun k => if k ∈ H then 0 else v k) := by
  refine ⟨fun h => v h - ∑ j ∈ H, v j * B j h, ?_, ?_⟩
  · intro k hk
    rw [closed_span hX hH v hk]
    by_cases hkH : k ∈ H
    · simp [hkH]
    · simp [hkH]
  · intro h hh
    refine popCov_disjoint fun k hk => ?_
    by_cases hkH : k ∈ H
    · left; rw [if_pos hkH]
    · right
      by_contra hne
      rcases source_ancestor hX hac (hH.1 h hh) hk hne with rfl | h'
      · exact hkH hh
      · exact hkH (hH.2 h hh k h')

theorem resid_closed (hX : SourceModel n n B L X) (hac : Acyclic (Edge n B 0)) (hσ : ∀ k, k < n → 0 < σ k)
    {H : Finset Nat} (hH : ClosedSet n B H) {v y : Nat → ℚ} (hy : IsResidual n σ X H v y) {k : Nat} (hk : k < n) :
    y k = if k ∈ H then 0 else v k :=
  hy.unique hσ (closed_residual hX hac hH v) k hk

/-- Two visited variables in causal order, with all ancestors of the cause regressed out. -/
theorem pair_tests (hX : SourceModel n n B L X) (hac : Acyclic (Edge n B 0)) (hσ : ∀ k, k < n → 0 < σ k)
    (hf : ∀ i j, TrueAncestor n B j i → X i j ≠ 0) (ht : PerfectTests n n σ X t) {i j : Nat}
    (hji : TrueAncestor n B j i) {H : Finset Nat} (hH : ∀ h, h ∈ H ↔ TrueAncestor n B h j) :
    t.corr H i H j = true ∧ t.corr H j H i = true ∧ t.indep H i [j] = true ∧ t.indep H j [i] = false := by
  have hi := hji.lt_right
  have hj := hji.lt_left
  have hij : i ≠ j := (hji.ne hac).symm
  have hcl : ClosedSet n B H := ⟨fun h hh => ((hH h).1 hh).lt_left, fun h hh a ha => (hH a).2 (ha.trans ((hH h).1 hh))⟩
  have hHn : H ⊆ range n := fun h hh => mem_range.2 (hcl.1 h hh)
  have hjH : j ∉ H := fun h => hac j ((hH j).1 h)
  have hiH : i ∉ H := fun h => hac i (((hH i).1 h).trans hji)
  have hRi := closed_residual (σ := σ) hX hac hcl (X i)
  have hRj := closed_residual (σ := σ) hX hac hcl (X j)
  have hyj : ∀ k, k < n → (if k ∈ H then 0 else X j k) = if k = j then (1 : ℚ) else 0 := by
    intro k hk
    by_cases hkj : k = j
    · rw [if_pos hkj, if_neg (by rw [hkj]; exact hjH), hkj, source_self hX hac hj]
    · rw [if_neg hkj]
      split
      · rfl
      · rename_i hkH
        by_contra hne
        rcases source_ancestor hX hac hj hk hne with h | h
        · exact hkj h
        · exact hkH ((hH k).2 h)
  have hcor : t.corr H i H j = true := by
    rw [ht.corr H i H j hHn hHn hi hj]
    refine ⟨_, _, hRi, hRj, ?_⟩
    rw [popCov_comm, popCov_congr hyj (fun _ _ => rfl), popCov_single hj, if_neg hjH]
    exact mul_ne_zero (hσ j hj).ne' (hf i j hji)
  refine ⟨hcor, by rwa [corr_symm ht hHn hj hi], ?_, ?_⟩
  · rw [ht.indep H i [j] hHn hi (by simpa using hj)]
    have hdis : ShareNoSource n (fun k => (if k ∈ H then 0 else X i k) - X i j * (if k ∈ H then 0 else X j k))
        (fun k => if k ∈ H then 0 else X j k) := by
      intro k hk
      by_cases hkj : k = j
      · left
        subst hkj
        simp only [hjH, if_false, source_self hX hac hj]; ring
      · right
        show (if k ∈ H then 0 else X j k) = 0
        rw [hyj k hk, if_neg hkj]
    refine ⟨fun u k => if k ∈ H then 0 else X u k,
      fun k => (if k ∈ H then 0 else X i k) - X i j * (if k ∈ H then 0 else X j k), ?_, ⟨fun _ => X i j, ?_, ?_⟩, ?_⟩
    · intro u _
      exact closed_residual hX hac hcl (X u)
    · intro k _; simp
    · intro h hh
      simp only [List.toFinset_cons, List.toFinset_nil, insert_empty_eq, mem_singleton] at hh
      subst hh
      exact popCov_disjoint hdis
    · intro u hu
      simp only [List.mem_singleton] at hu
      subst hu
      exact hdis
  · by_contra hc
    have hind : t.indep H j [i] = true := by simpa using hc
    have := pair_sound hX hac hσ ht hj hi hij.symm (fun h hh => ((hH h).1 hh).trans hji)
      (by rwa [corr_symm ht hHn hj hi]) hind
    exact hji.asymm hac this

/-- Pairs visited with the right set of common ancestors have been recorded. -/
def HistOk (n : Nat) (B : Nat → Nat → ℚ) (s : St) : Prop := ∀ i j, TrueAncestor n B j i → ∀ U H, (U, H) ∈ s.hist →
  U = [i, j] ∨ U = [j, i] → (∀ h, h ∈ H ↔ TrueAncestor n B h j) → j ∈ s.M i

theorem body_mono (t : Tests) (s : St) (U : List Nat) (i : Nat) : s.M i ⊆ (body t s U).M i := by
  rcases body_cases t s U with ⟨h, _⟩ | ⟨_, _, hM, _⟩
  · rw [h]
  · rw [hM]
    exact fun j hj => mem_applySink.2 (Or.inl hj)

/-- Visiting a pair on which the tests give the right answers records it. -/
theorem visit_pair_of {m : Nat} (hac : Acyclic (Edge n B 0)) (ht : PerfectTests n m σ X t) {s : St}
    {i j : Nat} (hs : i ∉ s.M j) (hji : TrueAncestor n B j i) {U : List Nat} (hU : U = [i, j] ∨ U = [j, i])
    (hH : ∀ h, h ∈ commonAncestors s.M U ↔ TrueAncestor n B h j)
    (hl : s.lookup U ≠ some (commonAncestors s.M U))
    (hpt : t.corr (commonAncestors s.M U) i (commonAncestors s.M U) j = true ∧
      t.corr (commonAncestors s.M U) j (commonAncestors s.M U) i = true ∧
      t.indep (commonAncestors s.M U) i [j] = true ∧ t.indep (commonAncestors s.M U) j [i] = false) :
    j ∈ (body t s U).M i := by
  have hij : i ≠ j := (hji.ne hac).symm
  obtain ⟨h1, h2, h3, h4⟩ := hpt
  have hUm : ∀ x, x ∈ U ↔ x = i ∨ x = j := by
    intro x
    rcases hU with rfl | rfl
    · simp
    · simp [or_comm]
  have hcl : commonAncestors s.M U ⊆ range n := fun h hh => mem_range.2 ((hH h).1 hh).lt_left
  rcases body_cases t s U with ⟨_, h | ⟨x, hx, hg⟩ | hc⟩ | ⟨_, _, hM, _⟩
  · exact absurd h hl
  · exfalso
    have hxn : x < n := by
      rcases (hUm x).1 hx with rfl | rfl
      · exact hji.lt_right
      · exact hji.lt_left
    rw [ht.nonGauss _ _ hcl hxn] at hg
    · cases hg
    · intro hxH
      have := (hH x).1 hxH
      rcases (hUm x).1 hx with rfl | rfl
      · exact this.asymm hac hji
      · exact hac _ this
  · exfalso
    rcases hU with rfl | rfl
    · simp [allCorrelated, combos, h1] at hc
    · simp [allCorrelated, combos, h2] at hc
  · rw [hM, mem_applySink]
    by_cases hrec : j ∈ s.M i
    · exact Or.inl hrec
    · right
      refine ⟨?_, (hUm j).2 (Or.inr rfl), hij.symm⟩
      have hoi : others U i = [j] := by
        rcases hU with rfl | rfl
        · exact (others_pair hij).1
        · exact (others_pair hij.symm).2
      have hoj : others U j = [i] := by
        rcases hU with rfl | rfl
        · exact (others_pair hij).2
        · exact (others_pair hij.symm).1
      have hea : existsAncestor s.M i [j] = false := by
        by_contra hne
        rw [Bool.not_eq_false, existsAncestor_true] at hne
        rcases hne with ⟨x, hx, hxi⟩ | hall
        · simp only [List.mem_singleton] at hx
          subst hx
          exact hs hxi
        · exact hrec (hall j (by simp))
      unfold sinkSet
      have hfi : (!existsAncestor s.M i (others U i) && t.indep (commonAncestors s.M U) i (others U i)) = true := by
        rw [hoi, hea, h3]; rfl
      have hfj : (!existsAncestor s.M j (others U j) && t.indep (commonAncestors s.M U) j (others U j)) = false := by
        rw [hoj, h4, Bool.and_false]
      rcases hU with rfl | rfl
      · simp only [List.filter_cons, List.filter_nil, hfi, hfj]; rfl
      · simp only [List.filter_cons, List.filter_nil, hfi, hfj]; rfl

/-- Visiting a pair whose common ancestors are complete records it. -/
theorem visit_pair (hX : SourceModel n n B L X) (hac : Acyclic (Edge n B 0)) (hσ : ∀ k, k < n → 0 < σ k)
    (hf : ∀ i j, TrueAncestor n B j i → X i j ≠ 0) (ht : PerfectTests n n σ X t) {s : St} (hs : SoundM n B s.M)
    {i j : Nat} (hji : TrueAncestor n B j i) {U : List Nat} (hU : U = [i, j] ∨ U = [j, i])
    (hH : ∀ h, h ∈ commonAncestors s.M U ↔ TrueAncestor n B h j)
    (hl : s.lookup U ≠ some (commonAncestors s.M U)) : j ∈ (body t s U).M i :=
  visit_pair_of hac ht (fun h => hji.asymm hac (hs _ _ h)) hji hU hH hl (pair_tests hX hac hσ hf ht hji hH)

theorem body_histOk (hX : SourceModel n n B L X) (hac : Acyclic (Edge n B 0)) (hσ : ∀ k, k < n → 0 < σ k)
    (hf : ∀ i j, TrueAncestor n B j i → X i j ≠ 0) (ht : PerfectTests n n σ X t) {s : St} (hs : SoundM n B s.M)
    (hh : HistOk n B s) (U : List Nat) : HistOk n B (body t s U) := by
  intro i j hji V H hV hVU hH
  rcases body_cases t s U with ⟨h, _⟩ | ⟨hng, hcor, hM, hhist⟩
  · rw [h] at hV ⊢
    exact hh i j hji V H hV hVU hH
  · rw [hhist, List.mem_cons] at hV
    rcases hV with hV | hV
    · obtain ⟨rfl, rfl⟩ := Prod.mk.inj hV
      by_cases hl : s.lookup V = some (commonAncestors s.M V)
      · exact body_mono t s V i (hh i j hji V _ (lookup_mem hl) hVU hH)
      · exact visit_pair hX hac hσ hf ht hs hji hVU hH hl
    · exact body_mono t s U i (hh i j hji V H hV hVU hH)

/-- In a pass that changes nothing every visited set leaves the ancestors as they are. -/
theorem visits_of_unchanged {P : St → Prop} {maxNum l : Nat} (hl1 : 1 ≤ l) (hl2 : l ≤ maxNum) :
    ∀ (Us : List (List Nat)) (s : St), (∀ U ∈ Us, U ∈ combos (l + 1) (List.range n)) →
      (∀ U ∈ Us, ∀ s, P s → P (body t s U)) → Good t n maxNum s.M → P s → (Us.foldl (body t) s).M = s.M →
      ∀ U ∈ Us, ∃ s', P s' ∧ s'.M = s.M ∧ (body t s' U).M = s.M
  | [], _, _, _, _, _, _ => by simp
  | V :: Us, s, hUs, hP, hg, hs, he => by
    obtain ⟨h1, h2⟩ := body_step hg (hUs V (by simp)) hl1 hl2
    obtain ⟨_, h4⟩ := foldl_step hl1 hl2 Us (body t s V) (fun W hW => hUs W (by simp [hW])) h1
    have hV : (body t s V).M = s.M := by
      funext i
      refine Subset.antisymm ?_ (h2.mono i)
      have := h4.mono i
      rw [List.foldl_cons] at he
      rwa [he] at this
    intro U hU
    rcases List.mem_cons.1 hU with rfl | hU
    · exact ⟨s, hs, rfl, hV⟩
    · obtain ⟨s', a, b, c⟩ := visits_of_unchanged hl1 hl2 Us (body t s V) (fun W hW => hUs W (by simp [hW]))
        (fun W hW => hP W (by simp [hW])) h1 (hP V (by simp) s hs) (by rw [hV]; exact he) U hU
      exact ⟨s', a, b.trans hV, c.trans hV⟩

/-- Exactly the ancestors are recorded. -/
def ExactM (n : Nat) (B : Nat → Nat → ℚ) (M : Anc) : Prop := ∀ i j, j ∈ M i ↔ TrueAncestor n B j i

theorem complete_of_unchanged (hX : SourceModel n n B L X) (hac : Acyclic (Edge n B 0)) (hσ : ∀ k, k < n → 0 < σ k)
    (hf : ∀ i j, TrueAncestor n B j i → X i j ≠ 0) (ht : PerfectTests n n σ X t) {maxNum : Nat} (hm : 1 ≤ maxNum) {s : St}
    (hg : Good t n maxNum s.M) (hs : SoundM n B s.M) (hh : HistOk n B s) (hu : (pass t n 1 s).M = s.M) :
    ExactM n B s.M := by
  classical
  have hvis := visits_of_unchanged (n := n) (t := t) (P := fun s => SoundM n B s.M ∧ HistOk n B s) le_rfl hm
    (combos 2 (List.range n)) { s with changed := false } (fun _ h => h)
    (fun U hU s hs => ⟨body_sound hX hac hσ ht hs.1 hU, body_histOk hX hac hσ hf ht hs.1 hs.2 U⟩) hg ⟨hs, hh⟩ hu
  refine fun i j => ⟨hs i j, ?_⟩
  by_contra hcon
  have hcon : ∃ j i, TrueAncestor n B j i ∧ j ∉ s.M i := by
    by_contra hc
    push Not at hc hcon
    exact hcon.2 (hc j i hcon.1)
  obtain ⟨j0, i0, h0, hn0⟩ := hcon
  obtain ⟨j, hj, hmin⟩ := exists_minimal (acyclic_ancestor hac)
    ((List.range n).filter (fun j => decide (∃ i, TrueAncestor n B j i ∧ j ∉ s.M i)))
    (List.ne_nil_of_mem (List.mem_filter.2 ⟨List.mem_range.2 h0.lt_left, by rw [decide_eq_true_eq]; exact ⟨i0, h0, hn0⟩⟩))
  simp only [List.mem_filter, List.mem_range, decide_eq_true_eq] at hj hmin
  obtain ⟨hjn, i, hji, hni⟩ := hj
  have hrec : ∀ a, TrueAncestor n B a j → ∀ i, TrueAncestor n B a i → a ∈ s.M i := by
    intro a ha i hai
    by_contra hc
    exact hmin a ⟨ha.lt_left, i, hai, hc⟩ ha
  have hin := hji.lt_right
  have hij : i ≠ j := (hji.ne hac).symm
  obtain ⟨U, hU, hUm⟩ : ∃ U, (U = [i, j] ∨ U = [j, i]) ∧ U ∈ combos 2 (List.range n) := by
    rcases lt_or_gt_of_ne hij with h | h
    · exact ⟨[i, j], Or.inl rfl, mem_combos.2 ⟨pair_sublist_range.2 ⟨h, hjn⟩, rfl⟩⟩
    · exact ⟨[j, i], Or.inr rfl, mem_combos.2 ⟨pair_sublist_range.2 ⟨h, hin⟩, rfl⟩⟩
  obtain ⟨s', ⟨hs', hh'⟩, hM, hb⟩ := hvis U hUm
  have hM : s'.M = s.M := hM
  have hH : ∀ h, h ∈ commonAncestors s'.M U ↔ TrueAncestor n B h j := by
    intro h
    rw [mem_commonAncestors (by rcases hU with rfl | rfl <;> simp), hM]
    constructor
    · intro ha
      exact hs j h (ha j (by rcases hU with rfl | rfl <;> simp))
    · intro ha x hx
      have : x = i ∨ x = j := by
        rcases hU with rfl | rfl
        · simpa using hx
        · simpa [or_comm] using hx
      rcases this with rfl | rfl
      · exact hrec h ha _ (ha.trans hji)
      · exact hrec h ha _ ha
  have hfin : j ∈ s'.M i := by
    by_cases hl : s'.lookup U = some (commonAncestors s'.M U)
    · exact hh' i j hji U _ (lookup_mem hl) hU hH
    · have := visit_pair hX hac hσ hf ht hs' hji hU hH hl
      rw [hb] at this
      rw [hM]; exact this
  rw [hM] at hfin
  exact hni hfin

theorem exact_closed {M : Anc} (hM : ExactM n B M) {U : List Nat} (hU : U ≠ []) : ClosedSet n B (commonAncestors M U) := by
  constructor
  · intro h hh
    obtain ⟨a, l, rfl⟩ := List.exists_cons_of_ne_nil hU
    exact ((hM a h).1 ((mem_commonAncestors hU).1 hh a (by simp))).lt_left
  · intro h hh a ha
    rw [mem_commonAncestors hU] at hh ⊢
    exact fun x hx => (hM x a).2 (ha.trans ((hM x h).1 (hh x hx)))

/-- Three variables and exact ancestors: when `i` passes as a sink although `j` is not one of its ancestors, `j` passes
as well. -/
theorem triple_two_sinks (hX : SourceModel n n B L X) (hac : Acyclic (Edge n B 0)) (hσ : ∀ k, k < n → 0 < σ k)
    (ht : PerfectTests n n σ X t) {M : Anc} (hM : ExactM n B M) {U : List Nat} {i j k : Nat} (hUn : ∀ x ∈ U, x < n)
    (hU : ∀ x, x ∈ U ↔ x = i ∨ x = j ∨ x = k) (hij : i ≠ j) (hik : i ≠ k) (hjk : j ≠ k)
    (hcor : ∀ x ∈ U, ∀ y ∈ U, x ≠ y → t.corr (commonAncestors M U) x (commonAncestors M U) y = true)
    (hi : i ∈ sinkSet t M (commonAncestors M U) U) (hj : ¬ TrueAncestor n B j i) :
    j ∈ sinkSet t M (commonAncestors M U) U := by
  have hiU : i ∈ U := (hU i).2 (Or.inl rfl)
  have hjU : j ∈ U := (hU j).2 (Or.inr (Or.inl rfl))
  have hkU : k ∈ U := (hU k).2 (Or.inr (Or.inr rfl))
  have hne : U ≠ [] := List.ne_nil_of_mem hiU
  have hin := hUn i hiU
  have hjn := hUn j hjU
  have hkn := hUn k hkU
  have hcl := exact_closed hM hne
  have hHm : ∀ h, h ∈ commonAncestors M U ↔ TrueAncestor n B h i ∧ TrueAncestor n B h j ∧ TrueAncestor n B h k := by
    intro h
    rw [mem_commonAncestors hne]
    constructor
    · exact fun hh => ⟨(hM i h).1 (hh i hiU), (hM j h).1 (hh j hjU), (hM k h).1 (hh k hkU)⟩
    · rintro ⟨h1, h2, h3⟩ x hx
      rcases (hU x).1 hx with rfl | rfl | rfl
      · exact (hM _ h).2 h1
      · exact (hM _ h).2 h2
      · exact (hM _ h).2 h3
  generalize hHe : commonAncestors M U = H at *
  have hHn : H ⊆ range n := fun h hh => mem_range.2 (hcl.1 h hh)
  have hiH : i ∉ H := fun h => hac i ((hHm i).1 h).1
  have hjH : j ∉ H := fun h => hac j ((hHm j).1 h).2.1
  have hkH : k ∉ H := fun h => hac k ((hHm k).1 h).2.2
  obtain ⟨_, hea, hind⟩ := mem_sinkSet.1 hi
  obtain ⟨hno, _⟩ := existsAncestor_false hea
  have hnij : ¬ TrueAncestor n B i j := fun h => hno j (mem_others.2 ⟨hjU, hij.symm⟩) ((hM j i).2 h)
  have hnik : ¬ TrueAncestor n B i k := fun h => hno k (mem_others.2 ⟨hkU, hik.symm⟩) ((hM k i).2 h)
  obtain ⟨y, r, hy, hr, hdis⟩ := (ht.indep H i (others U i) hHn hin (fun u hu => hUn u (mem_others.1 hu).1)).1 hind
  have hoi : (others U i).toFinset = {j, k} := by
    ext x
    rw [List.mem_toFinset, mem_others, hU, mem_insert, mem_singleton]
    constructor
    · rintro ⟨rfl | h, h'⟩
      · exact absurd rfl h'
      · exact h
    · rintro (rfl | rfl)
      · exact ⟨Or.inr (Or.inl rfl), hij.symm⟩
      · exact ⟨Or.inr (Or.inr rfl), hik.symm⟩
  have hyv : ∀ u ∈ U, ∀ e, e < n → y u e = if e ∈ H then 0 else X u e := by
    intro u hu e he
    refine resid_closed hX hac hσ hcl (hy u ?_) he
    by_cases hui : u = i
    · exact Or.inl hui
    · exact Or.inr (mem_others.2 ⟨hu, hui⟩)
  obtain ⟨c, hc, _⟩ := hr
  have hrv : ∀ e, e < n → r e = y i e - (c j * y j e + c k * y k e) := by
    intro e he
    rw [hc e he, hoi, sum_pair hjk]
  have hdj := hdis j (mem_others.2 ⟨hjU, hij.symm⟩)
  have hdk := hdis k (mem_others.2 ⟨hkU, hik.symm⟩)
  have hyjj : y j j = 1 := by rw [hyv j hjU j hjn, if_neg hjH, source_self hX hac hjn]
  have hykk : y k k = 1 := by rw [hyv k hkU k hkn, if_neg hkH, source_self hX hac hkn]
  have hrj : r j = 0 := by
    rcases hdj j hjn with h | h
    · exact h
    · rw [hyjj] at h; exact absurd h one_ne_zero
  have hrk : r k = 0 := by
    rcases hdk k hkn with h | h
    · exact h
    · rw [hykk] at h; exact absurd h one_ne_zero
  have hXij : X i j = 0 := by
    by_contra h
    rcases source_ancestor hX hac hin hjn h with h | h
    · exact hij h.symm
    · exact hj h
  have hyij : y i j = 0 := by rw [hyv i hiU j hjn, if_neg hjH, hXij]
  have hyik : y i k = X i k := by rw [hyv i hiU k hkn, if_neg hkH]
  have hykj : y k j = X k j := by rw [hyv k hkU j hjn, if_neg hjH]
  have hyjk : y j k = X j k := by rw [hyv j hjU k hkn, if_neg hkH]
  have ej := hrv j hjn
  have ek := hrv k hkn
  rw [hrj, hyij, hyjj, hykj] at ej
  rw [hrk, hyik, hyjk, hykk] at ek
  -- covariances of the residuals
  have hcov : ∀ x ∈ U, ∀ z ∈ U, x ≠ z → popCov n σ (y x) (y z) ≠ 0 := by
    intro x hx z hz hxz
    have hyr : ∀ u ∈ U, IsResidual n σ X H (X u) (y u) := by
      intro u hu
      by_cases hui : u = i
      · exact hy u (Or.inl hui)
      · exact hy u (Or.inr (mem_others.2 ⟨hu, hui⟩))
    obtain ⟨a, b, ha, hb, hab⟩ := (ht.corr H x H z hHn hHn (hUn x hx) (hUn z hz)).1 (hcor x hx z hz hxz)
    rwa [popCov_congr (ha.unique hσ (hyr x hx)) (hb.unique hσ (hyr z hz))] at hab
  have hki : TrueAncestor n B k i := by
    by_contra hki
    have hXik : X i k = 0 := by
      by_contra h
      rcases source_ancestor hX hac hin hkn h with h | h
      · exact hik h.symm
      · exact hki h
    rw [hXik] at ek
    have hprod : X k j = 0 ∨ X j k = 0 := by
      by_contra h
      push Not at h
      rcases source_ancestor hX hac hkn hjn h.1 with h1 | h1
      · exact hjk h1
      · rcases source_ancestor hX hac hjn hkn h.2 with h2 | h2
        · exact hjk h2.symm
        · exact h1.asymm hac h2
    have hz : c j = 0 ∧ c k = 0 := by
      rcases hprod with h | h
      · rw [h] at ej
        have h1 : c j = 0 := by linarith
        rw [h1] at ek
        exact ⟨h1, by linarith⟩
      · rw [h] at ek
        have h1 : c k = 0 := by linarith
        rw [h1] at ej
        exact ⟨by linarith, h1⟩
    refine hcov i hiU j hjU hij (popCov_disjoint fun e he => ?_)
    rcases hdj e he with h | h
    · rw [hrv e he, hz.1, hz.2] at h
      exact Or.inl (by linarith)
    · exact Or.inr h
  have hXkj : X k j = 0 := by
    by_contra h
    rcases source_ancestor hX hac hkn hjn h with h | h
    · exact hjk h
    · exact hj (h.trans hki)
  have hcj : c j = 0 := by rw [hXkj] at ej; linarith
  have hck : c k = X i k := by rw [hcj] at ek; linarith
  have hkj : TrueAncestor n B k j := by
    obtain ⟨e, he, h1, h2⟩ := exists_common_source (hcov j hjU k hkU hjk)
    rw [hyv j hjU e he] at h1
    rw [hyv k hkU e he] at h2
    have heH : e ∉ H := fun h => h1 (if_pos h)
    rw [if_neg heH] at h1 h2
    rcases source_ancestor hX hac hkn he h2 with rfl | hek
    · rcases source_ancestor hX hac hjn he h1 with h | h
      · exact absurd h.symm hjk
      · exact h
    · rcases source_ancestor hX hac hjn he h1 with rfl | hej
      · exact absurd (hek.trans hki) hj
      · exact absurd ((hHm e).2 ⟨hek.trans hki, hej, hek⟩) heH
  have hyk : ∀ e, e < n → y k e = if e = k then 1 else 0 := by
    intro e he
    by_cases hek : e = k
    · rw [if_pos hek, hek, hykk]
    · rw [if_neg hek, hyv k hkU e he]
      split
      · rfl
      · rename_i heH
        by_contra h
        rcases source_ancestor hX hac hkn he h with h | h
        · exact hek h
        · exact heH ((hHm e).2 ⟨h.trans hki, h.trans hkj, h⟩)
  -- `j` passes
  have hoj : (others U j).toFinset = {i, k} := by
    ext x
    rw [List.mem_toFinset, mem_others, hU, mem_insert, mem_singleton]
    constructor
    · rintro ⟨rfl | rfl | h, h'⟩
      · exact Or.inl rfl
      · exact absurd rfl h'
      · exact Or.inr h
    · rintro (rfl | rfl)
      · exact ⟨Or.inl rfl, hij⟩
      · exact ⟨Or.inr (Or.inr rfl), hjk.symm⟩
  have hmo : ∀ u, u ∈ others U j → u = i ∨ u = k := by
    intro u hu
    have : u ∈ (others U j).toFinset := List.mem_toFinset.2 hu
    rw [hoj] at this
    simpa using this
  have hs1 : ShareNoSource n (fun e => y j e - X j k * y k e) (y k) := by
    intro e he
    by_cases hek : e = k
    · left
      subst hek
      show y j e - X j e * y e e = 0
      rw [hykk, hyjk]; ring
    · right
      rw [hyk e he, if_neg hek]
  have hs2 : ShareNoSource n (fun e => y j e - X j k * y k e) (y i) := by
    intro e he
    by_cases hek : e = k
    · left
      subst hek
      show y j e - X j e * y e e = 0
      rw [hykk, hyjk]; ring
    · rcases hdj e he with h | h
      · right
        rw [hrv e he, hcj, hyk e he, if_neg hek] at h
        linarith
      · left
        show y j e - X j k * y k e = 0
        rw [h, hyk e he, if_neg hek]; ring
  refine mem_sinkSet.2 ⟨hjU, ?_, ?_⟩
  · by_contra hc'
    rw [Bool.not_eq_false, existsAncestor_true] at hc'
    rcases hc' with ⟨x, hx, hxj⟩ | hall
    · have := (hM x j).1 hxj
      rcases hmo x hx with rfl | rfl
      · exact hj this
      · exact this.asymm hac hkj
    · exact hnij ((hM j i).1 (hall i (mem_others.2 ⟨hiU, hij⟩)))
  · rw [ht.indep H j (others U j) hHn hjn (fun u hu => hUn u (mem_others.1 hu).1)]
    refine ⟨y, fun e => y j e - X j k * y k e, ?_, ⟨fun h => if h = k then X j k else 0, ?_, ?_⟩, ?_⟩
    · intro u hu
      have huU : u ∈ U := by
        rcases hu with rfl | hu
        · exact hjU
        · exact (mem_others.1 hu).1
      by_cases hui : u = i
      · exact hy u (Or.inl hui)
      · exact hy u (Or.inr (mem_others.2 ⟨huU, hui⟩))
    · intro e _
      rw [hoj, sum_pair hik]
      simp only [hik, if_false, if_true]; ring
    · intro h hh
      rw [hoj] at hh
      rcases mem_insert.1 hh with rfl | hh
      · exact popCov_disjoint hs2
      · rw [mem_singleton] at hh
        subst hh
        exact popCov_disjoint hs1
    · intro u hu
      rcases hmo u hu with rfl | rfl
      · exact hs2
      · exact hs1

/-- With exact ancestors, visiting three variables changes nothing. -/
theorem triple_unchanged (hX : SourceModel n n B L X) (hac : Acyclic (Edge n B 0)) (hσ : ∀ k, k < n → 0 < σ k)
    (ht : PerfectTests n n σ X t) {s : St} (hM : ExactM n B s.M) {U : List Nat} (hU : U ∈ combos 3 (List.range n)) :
    (body t s U).M = s.M := by
  obtain ⟨hsub, hlen⟩ := mem_combos.1 hU
  have hnd : U.Nodup := hsub.nodup List.nodup_range
  have hUn : ∀ x ∈ U, x < n := fun x hx => List.mem_range.1 (hsub.subset hx)
  have hne : U ≠ [] := by rintro rfl; simp at hlen
  rcases body_cases t s U with ⟨h, _⟩ | ⟨_, hcor, hb, _⟩
  · rw [h]
  · rw [hb]
    have hHn : commonAncestors s.M U ⊆ range n := fun h hh => mem_range.2 ((exact_closed hM hne).1 h hh)
    have hcor' : ∀ x ∈ U, ∀ y ∈ U, x ≠ y →
        t.corr (commonAncestors s.M U) x (commonAncestors s.M U) y = true := by
      have hp : ∀ a b, [a, b].Sublist U → t.corr (commonAncestors s.M U) a (commonAncestors s.M U) b = true := by
        intro a b hab
        have := List.all_eq_true.1 hcor [a, b] (mem_combos.2 ⟨hab, rfl⟩)
        simpa using this
      obtain ⟨a, b, c, rfl⟩ := List.length_eq_three.1 hlen
      have hab := hp a b (by simp)
      have hac' := hp a c ((List.Sublist.cons b (List.Sublist.refl [c])).cons_cons a)
      have hbc := hp b c ((List.Sublist.refl [b, c]).cons a)
      have hn : a < n ∧ b < n ∧ c < n := ⟨hUn a (by simp), hUn b (by simp), hUn c (by simp)⟩
      intro x hx y hy hxy
      simp only [List.mem_cons, List.not_mem_nil, or_false] at hx hy
      rcases hx with rfl | rfl | rfl <;> rcases hy with rfl | rfl | rfl <;>
        first
          | exact absurd rfl hxy
          | assumption
          | (rw [corr_symm ht hHn (by omega) (by omega)]; assumption)
    funext i
    refine Subset.antisymm ?_ fun j hj => mem_applySink.2 (Or.inl hj)
    intro j hj
    rcases mem_applySink.1 hj with h | ⟨hsk, _, _⟩
    · exact h
    · exfalso
      have hi : i ∈ sinkSet t s.M (commonAncestors s.M U) U := by rw [hsk]; simp
      obtain ⟨hiU, hea, _⟩ := mem_sinkSet.1 hi
      obtain ⟨_, j', hj', hjM⟩ := existsAncestor_false hea
      obtain ⟨hjU, hji⟩ := mem_others.1 hj'
      obtain ⟨k, hk, hik, hjk⟩ : ∃ k, (∀ x, x ∈ U ↔ x = i ∨ x = j' ∨ x = k) ∧ i ≠ k ∧ j' ≠ k := by
        obtain ⟨a, b, c, rfl⟩ := List.length_eq_three.1 hlen
        simp only [List.nodup_cons, List.mem_cons, List.not_mem_nil, or_false, not_or, not_false_eq_true,
          List.nodup_nil, and_true] at hnd
        simp only [List.mem_cons, List.not_mem_nil, or_false] at hiU hjU ⊢
        rcases hiU with rfl | rfl | rfl <;> rcases hjU with rfl | rfl | rfl
        · exact absurd rfl hji
        · exact ⟨c, fun x => Iff.rfl, by omega, by omega⟩
        · exact ⟨b, fun x => by omega, by omega, by omega⟩
        · exact ⟨c, fun x => by omega, by omega, by omega⟩
        · exact absurd rfl hji
        · exact ⟨a, fun x => by omega, by omega, by omega⟩
        · exact ⟨b, fun x => by omega, by omega, by omega⟩
        · exact ⟨a, fun x => by omega, by omega, by omega⟩
        · exact absurd rfl hji
      have := triple_two_sinks hX hac hσ ht hM hUn hk hji.symm hik hjk hcor' hi (fun h => hjM ((hM i j').2 h))
      rw [hsk] at this
      exact hji (by simpa using this)

theorem triples_unchanged (hX : SourceModel n n B L X) (hac : Acyclic (Edge n B 0)) (hσ : ∀ k, k < n → 0 < σ k)
    (ht : PerfectTests n n σ X t) : ∀ (Us : List (List Nat)), (∀ U ∈ Us, U ∈ combos 3 (List.range n)) → ∀ s : St,
      ExactM n B s.M → (Us.foldl (body t) s).M = s.M
  | [], _, _, _ => rfl
  | U :: Us, h, s, hs => by
    have h1 := triple_unchanged hX hac hσ ht hs (h U (by simp))
    rw [List.foldl_cons, triples_unchanged hX hac hσ ht Us (fun V hV => h V (by simp [hV])) _ (by rw [h1]; exact hs), h1]

/-- The search with at most two explanatory variables finds exactly the ancestors. -/
theorem loop_exact (hX : SourceModel n n B L X) (hac : Acyclic (Edge n B 0)) (hσ : ∀ k, k < n → 0 < σ k)
    (hf : ∀ i j, TrueAncestor n B j i → X i j ≠ 0) (ht : PerfectTests n n σ X t) {maxNum : Nat} (hm1 : 1 ≤ maxNum)
    (hm2 : maxNum ≤ 2) : ∀ {fuel l : Nat} {s : St} {M : Anc}, Good t n maxNum s.M →
      (l = 1 ∧ SoundM n B s.M ∧ HistOk n B s) ∨ (l = 2 ∧ maxNum = 2 ∧ ExactM n B s.M) →
      loop t n maxNum fuel l s = some M → ExactM n B M
  | 0, _, _, _, _, _, h => by simp [loop] at h
  | fuel + 1, l, s, M, hg, hinv, h => by
    unfold loop at h
    simp only at h
    rcases hinv with ⟨rfl, hs, hh⟩ | ⟨rfl, rfl, he⟩
    · obtain ⟨hg', hflag⟩ := pass_step (t := t) (n := n) le_rfl hm1 hg
      have hinv' := foldl_inv (t := t) (P := fun s => SoundM n B s.M ∧ HistOk n B s) (Us := combos 2 (List.range n))
        (fun U hU s hs => ⟨body_sound hX hac hσ ht hs.1 hU, body_histOk hX hac hσ hf ht hs.1 hs.2 U⟩)
        { s with changed := false } ⟨hs, hh⟩
      rcases hflag with ⟨hc, hMe⟩ | ⟨hc, _⟩
      · have hex := complete_of_unchanged hX hac hσ hf ht hm1 hg hs hh hMe
        rw [hc] at h
        simp only [Bool.false_eq_true, if_false] at h
        split at h
        · rename_i hlt
          have : maxNum = 2 := by omega
          subst this
          exact loop_exact hX hac hσ hf ht hm1 hm2 hg' (Or.inr ⟨rfl, rfl, by rw [hMe]; exact hex⟩) h
        · simp only [Option.some.injEq] at h
          rw [← h, hMe]; exact hex
      · rw [hc, if_pos rfl] at h
        exact loop_exact hX hac hσ hf ht hm1 hm2 hg' (Or.inl ⟨rfl, hinv'⟩) h
    · obtain ⟨hg', hflag⟩ := pass_step (t := t) (n := n) (l := 2) (by omega) le_rfl hg
      have hMe : (pass t n 2 s).M = s.M :=
        triples_unchanged hX hac hσ ht (combos 3 (List.range n)) (fun _ h => h) { s with changed := false } he
      rcases hflag with ⟨hc, _⟩ | ⟨_, hlt⟩
      · rw [hc] at h
        simp only [Bool.false_eq_true, if_false, lt_irrefl] at h
        simp only [Option.some.injEq] at h
        rw [← h, hMe]; exact he
      · rw [hMe] at hlt
        exact absurd hlt (lt_irrefl _)

/-! ### Parents, confounders and coefficients -/

/-- Regressing a variable on a set of proper ancestors that contains all parents leaves its own error. -/
theorem residual_of_parents (hX : SourceModel n n B L X) (hac : Acyclic (Edge n B 0)) {i : Nat} (hi : i < n)
    {S : Finset Nat} (hS : ∀ h ∈ S, TrueAncestor n B h i) (hP : ∀ h, h < n → B i h ≠ 0 → h ∈ S) :
    IsRegression n σ X S (X i) (fun h => B i h) (fun k => if k = i then 1 else 0) := by
  constructor
  · intro k hk
    have hsub : ∑ h ∈ range n, B i h * X h k = ∑ h ∈ S, B i h * X h k := by
      symm
      refine sum_subset (fun h hh => mem_range.2 (hS h hh).lt_left) fun h hh hnot => ?_
      by_contra hne
      exact hnot (hP h (mem_range.1 hh) (fun h0 => hne (by rw [h0, zero_mul])))
    have := hX.2 i hi k hk
    rw [if_pos hk, hsub] at this
    show (if k = i then (1 : ℚ) else 0) = _
    rw [this]; ring
  · intro h hh
    refine popCov_disjoint fun k hk => ?_
    by_cases hki : k = i
    · right
      subst hki
      by_contra hne
      rcases source_ancestor hX hac (hS h hh).lt_left hk hne with rfl | h'
      · exact hac _ (hS _ hh)
      · exact h'.asymm hac (hS h hh)
    · exact Or.inl (if_neg hki)

/-- With exact ancestors the parent test is right. -/
theorem isParent_iff (hX : SourceModel n n B L X) (hac : Acyclic (Edge n B 0)) (hσ : ∀ k, k < n → 0 < σ k)
    (ht : PerfectTests n n σ X t) {M : Anc} (hM : ExactM n B M) {i j : Nat} (hji : TrueAncestor n B j i) :
    isParent t M j i = true ↔ B i j ≠ 0 := by
  have hi := hji.lt_right
  have hj := hji.lt_left
  have hMi : M i ⊆ range n := fun h hh => mem_range.2 ((hM i h).1 hh).lt_left
  have hsd : M i \ {j} ⊆ range n := fun h hh => hMi (mem_sdiff.1 hh).1
  have hin : M i ∩ M j ⊆ range n := fun h hh => hMi (mem_inter.1 hh).1
  have hcl : ClosedSet n B (M i ∩ M j) := by
    constructor
    · exact fun h hh => mem_range.1 (hin hh)
    · intro h hh a ha
      rw [mem_inter] at hh ⊢
      exact ⟨(hM i a).2 (ha.trans ((hM i h).1 hh.1)), (hM j a).2 (ha.trans ((hM j h).1 hh.2))⟩
  have hw := closed_residual (σ := σ) hX hac hcl (X j)
  have hwv : ∀ k, k < n → (if k ∈ M i ∩ M j then 0 else X j k) = if k = j then (1 : ℚ) else 0 := by
    intro k hk
    by_cases hkj : k = j
    · rw [if_pos hkj, if_neg, hkj, source_self hX hac hj]
      rw [hkj, mem_inter]
      exact fun h => hac j ((hM j j).1 h.2)
    · rw [if_neg hkj]
      split
      · rfl
      · rename_i hkM
        by_contra hne
        rcases source_ancestor hX hac hj hk hne with h | h
        · exact hkj h
        · exact hkM (mem_inter.2 ⟨(hM i k).2 (h.trans hji), (hM j k).2 h⟩)
  obtain ⟨z, hz⟩ := exists_residual hσ X (M i \ {j}) (X i)
  have hiff : isParent t M j i = true ↔ z j ≠ 0 := by
    unfold isParent
    rw [ht.corr _ _ _ _ hin hsd hj hi]
    have hval : popCov n σ (fun k => if k ∈ M i ∩ M j then 0 else X j k) z = σ j * z j := by
      rw [popCov_congr hwv (fun _ _ => rfl), popCov_single hj]
    constructor
    · rintro ⟨r, s, hr, hs, hne⟩ h0
      apply hne
      rw [popCov_congr (hr.unique hσ hw) (hs.unique hσ hz), hval, h0, mul_zero]
    · intro h
      refine ⟨_, _, hw, hz, ?_⟩
      rw [hval]
      exact mul_ne_zero (hσ j hj).ne' h
  rw [hiff]
  constructor
  · -- no direct effect: the own error of `i` is the residual
    intro hzj hB
    apply hzj
    have hreg := residual_of_parents (σ := σ) hX hac hi (S := M i \ {j})
      (fun h hh => (hM i h).1 (mem_sdiff.1 hh).1)
      (fun h hh hB' => by
        rw [mem_sdiff, mem_singleton]
        refine ⟨(hM i h).2 (trueAncestor_of_edge hh hi hB'), ?_⟩
        rintro rfl
        exact hB' hB)
    rw [hz.unique hσ ⟨_, hreg⟩ j hj]
    exact if_neg (hji.ne hac)
  · intro hB hzj
    obtain ⟨c, hc, ho⟩ := hz
    -- `z` is uncorrelated with `x_j` as well
    have hpj : ∀ h, h < n → B j h ≠ 0 → popCov n σ z (X h) = 0 := by
      intro h hh hBh
      have hhj := trueAncestor_of_edge hh hj hBh
      refine ho h ?_
      rw [mem_sdiff, mem_singleton]
      exact ⟨(hM i h).2 (hhj.trans hji), hhj.ne hac⟩
    have hXj : popCov n σ z (X j) = 0 := by
      have hv : ∀ k, k < n → X j k = (if k = j then 1 else 0) - (-1) * ∑ h ∈ range n, B j h * X h k := by
        intro k hk
        rw [hX.2 j hj k hk, if_pos hk]; ring
      rw [popCov_congr (fun _ _ => rfl) hv, popCov_comm, popCov_sub_left, popCov_smul_left, popCov_sum_left,
        popCov_single hj, hzj, sum_eq_zero]
      · ring
      · intro h hh
        by_cases hBh : B j h = 0
        · rw [hBh, zero_mul]
        · rw [popCov_comm, hpj h (mem_range.1 hh) hBh, mul_zero]
    have hjM : j ∈ M i := (hM i j).2 hji
    have hz' : IsResidual n σ X (M i) (X i) z := by
      refine ⟨fun h => if h = j then 0 else c h, ?_, ?_⟩
      · intro k hk
        rw [hc k hk]
        congr 1
        rw [← sum_sdiff (singleton_subset_iff.2 hjM), sum_singleton]
        simp only [if_true, zero_mul, add_zero]
        refine sum_congr rfl fun h hh => ?_
        have : h ≠ j := by rw [mem_sdiff, mem_singleton] at hh; exact hh.2
        rw [if_neg this]
      · intro h hh
        by_cases hhj : h = j
        · rw [hhj]; exact hXj
        · exact ho h (mem_sdiff.2 ⟨hh, by simpa using hhj⟩)
    have hreg := residual_of_parents (σ := σ) hX hac hi (S := M i) (fun h hh => (hM i h).1 hh)
      (fun h hh hB' => (hM i h).2 (trueAncestor_of_edge hh hi hB'))
    have hzv := hz'.unique hσ ⟨_, hreg⟩
    have hlin := sources_independent hX hac (S := M i) (fun h hh => mem_range.1 (hMi hh))
      (c := fun h => (if h = j then 0 else c h) - B i h) (by
        intro k hk
        have e1 := hzv k hk
        have e2 := hreg.1 k hk
        rw [hc k hk] at e1
        have e3 : ∑ h ∈ M i, (if h = j then 0 else c h) * X h k = ∑ h ∈ M i \ {j}, c h * X h k := by
          rw [← sum_sdiff (singleton_subset_iff.2 hjM), sum_singleton]
          simp only [if_true, zero_mul, add_zero]
          refine sum_congr rfl fun h hh => ?_
          have : h ≠ j := by rw [mem_sdiff, mem_singleton] at hh; exact hh.2
          rw [if_neg this]
        simp only [sub_mul, sum_sub_distrib]
        rw [e3]
        linarith)
    have := hlin j hjM
    simp only [if_true] at this
    exact hB (by linarith)

/-- With exact ancestors the whole result is the true matrix. -/
theorem adjacency_exact (hX : SourceModel n n B L X) (hac : Acyclic (Edge n B 0)) (hσ : ∀ k, k < n → 0 < σ k)
    (ht : PerfectTests n n σ X t) {coef : Coef} (hcoef : PerfectCoef n n σ X coef) {M : Anc} (hM : ExactM n B M)
    {i j : Nat} (hi : i < n) (hj : j < n) :
    adjacency coef n (extractParents t n M) (extractConfounded t n (extractParents t n M)) i j = some (B i j) := by
  have hP : ∀ a b, a < n → b < n → (b ∈ extractParents t n M a ↔ B a b ≠ 0) := by
    intro a b ha hb
    unfold extractParents
    rw [if_pos ha, mem_filter]
    constructor
    · rintro ⟨h1, h2⟩
      exact (isParent_iff hX hac hσ ht hM ((hM a b).1 h1)).1 h2
    · intro h
      have hanc := trueAncestor_of_edge hb ha h
      exact ⟨(hM a b).2 hanc, (isParent_iff hX hac hσ ht hM hanc).2 h⟩
  have hPr : ∀ a b, b ∈ extractParents t n M a → TrueAncestor n B b a := by
    intro a b h
    unfold extractParents at h
    split at h
    · exact (hM a b).1 (mem_filter.1 h).1
    · simp at h
  have hPn : ∀ a, extractParents t n M a ⊆ range n := fun a b h => mem_range.2 (hPr a b h).lt_left
  have hreg : ∀ a, a < n → IsRegression n σ X (extractParents t n M a) (X a) (fun h => B a h)
      (fun k => if k = a then 1 else 0) := fun a ha =>
    residual_of_parents hX hac ha (hPr a) (fun h hh hB => (hP a h ha hh).2 hB)
  have hC : ∀ a b, a < n → b < n → a ≠ b → ¬ Conf t (extractParents t n M) a b := by
    rintro a b ha hb hab ⟨_, _, h⟩
    obtain ⟨r, s, hr, hs, hne⟩ := (ht.corr _ _ _ _ (hPn a) (hPn b) ha hb).1 h
    apply hne
    rw [popCov_congr (hr.unique hσ ⟨_, hreg a ha⟩) (hs.unique hσ ⟨_, hreg b hb⟩), popCov_single ha, if_neg hab, mul_zero]
  unfold adjacency
  rw [if_pos hi, if_neg]
  · split
    · rename_i hjP
      have hf : (List.range n).filter (fun k => decide (k ∈ extractParents t n M i)) =
          listOf n (extractParents t n M i) := rfl
      obtain ⟨r, hr⟩ := hcoef ((List.range n).filter (fun k => decide (k ∈ extractParents t n M i))) i
        List.filter_sublist hi
      have htf : ((List.range n).filter (fun k => decide (k ∈ extractParents t n M i))).toFinset =
          extractParents t n M i := by rw [hf, listOf_toFinset (hPn i)]
      generalize coef ((List.range n).filter (fun k => decide (k ∈ extractParents t n M i))) i = cf at hr ⊢
      rw [htf] at hr
      have hrv := IsResidual.unique hσ ⟨_, hr⟩ ⟨_, hreg i hi⟩
      have hlin := sources_independent hX hac (S := extractParents t n M i) (fun h hh => mem_range.1 (hPn i hh))
        (c := fun h => cf h - B i h) (by
          intro k hk
          have e1 := hr.1 k hk
          have e2 := (hreg i hi).1 k hk
          have e3 := hrv k hk
          simp only [sub_mul, sum_sub_distrib]
          linarith)
      have := hlin j hjP
      rw [sub_eq_zero.1 this]
    · rename_i hjP
      rw [hP i j hi hj, not_not] at hjP
      rw [hjP]
  · rw [mem_extractConfounded]
    rintro (⟨h1, _, h⟩ | ⟨h1, _, h⟩)
    · exact hC i j hi hj h1.ne h
    · exact hC j i hj hi h1.ne h

end exact

end Verif.Rcd
