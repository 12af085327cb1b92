import Verif.Spec.CamTests
import Verif.Proofs.Camuv
import Verif.Proofs.RcdHidden

set_option linter.unusedSectionVars false
set_option autoImplicit false
namespace Verif.Camuv
open Finset
open Rcd (Anc combos addAncestors mem_combos pair_sublist_range listOf listOf_toFinset resid_own SoundM)

/-! ### Right tests exist -/

/-- The values computed from the coefficients: 1 for independent, 0 for dependent. -/
def popCfg (n m : Nat) (σ : Nat → ℚ) (X : Nat → Nat → ℚ) (prior : Option (List (Nat × Nat))) : Cfg where
  hsic := true
  alpha := 1 / 100
  indCorr := 1 / 2
  prior := prior
  val a A l :=
    let r := residual m σ X (listOf n A) (X a)
    if l.all (fun q => let y := residual m σ X (listOf n q.2) (X q.1)
      (List.range m).all (fun k => decide (r k = 0 ∨ y k = 0))) then some 1 else some 0
  iter l := l

theorem popCfg_right {m : Nat} {σ : Nat → ℚ} (hσ : ∀ k, k < m → 0 < σ k) (n : Nat) (X : Nat → Nat → ℚ)
    (prior : Option (List (Nat × Nat))) : RightTests n m σ X (popCfg n m σ X prior) := by
  refine ⟨fun l => List.Perm.refl l, fun _ => by norm_num [popCfg], fun h => by simp [popCfg] at h, ?_⟩
  intro a A l _ hA hl
  have hr := residual_spec hσ X (listOf n A) (X a)
  rw [listOf_toFinset hA] at hr
  have hy : ∀ q ∈ l, IsResidual m σ X q.2 (X q.1) (residual m σ X (listOf n q.2) (X q.1)) := by
    intro q hq
    have h1 := residual_spec hσ X (listOf n q.2) (X q.1)
    rwa [listOf_toFinset (hl q hq).2] at h1
  have key : isInd (popCfg n m σ X prior) ((popCfg n m σ X prior).val a A l) = true ↔
      ∀ q ∈ l, ShareNoSource m (residual m σ X (listOf n A) (X a)) (residual m σ X (listOf n q.2) (X q.1)) := by
    simp only [isInd, isIndBy, popCfg]
    by_cases hh : (l.all (fun q => (List.range m).all (fun k => decide (residual m σ X (listOf n A) (X a) k = 0 ∨
        residual m σ X (listOf n q.2) (X q.1) k = 0)))) = true
    · rw [if_pos hh]
      simp only [List.all_eq_true, List.mem_range, decide_eq_true_eq] at hh
      exact ⟨fun _ => hh, fun _ => by norm_num⟩
    · rw [if_neg hh]
      simp only [List.all_eq_true, List.mem_range, decide_eq_true_eq] at hh
      constructor
      · intro h; norm_num at h
      · intro h; exact absurd h hh
  rw [key]
  constructor
  · exact fun h => ⟨_, hr, fun q hq => ⟨_, hy q hq, h q hq⟩⟩
  · rintro ⟨r, h1, h2⟩ q hq k hk
    obtain ⟨y, h3, h4⟩ := h2 q hq
    rw [← h1.unique hσ hr k hk, ← h3.unique hσ (hy q hq) k hk]
    exact h4 k hk

/-! ### One visit of a pair -/

/-- What one visit does. -/
theorem body_cases {c : Cfg} (hiter : ∀ l, (c.iter l).Perm l) (N : Anc) (s : Anc × Bool) (V : List Nat) :
    body c N s V = s ∨ ∃ i v, unidentified s.1 V = true ∧ Eligible c N V i ∧ childVal c s.1 V i = some v ∧
      isInd c (some v) = true ∧ (∀ p ∈ V, p ≠ i → isInd c (c.val i (s.1 i) [(p, s.1 p)]) = false) ∧
      (body c N s V).1 = addAncestors s.1 i (rest V i) := by
  unfold body
  split
  · exact Or.inl rfl
  rename_i hun
  cases hg : getChild c s.1 N V with
  | mk ch ok =>
    cases ch with
    | none => exact Or.inl rfl
    | some i =>
      simp only
      split
      · exact Or.inl rfl
      rename_i hok
      split
      · exact Or.inl rfl
      rename_i hdep
      obtain ⟨hel, v, hv, hokv, _⟩ := getChild_spec hiter hg
      refine Or.inr ⟨i, v, by simpa using hun, hel, hv, by rw [← hokv]; simpa using hok, ?_, rfl⟩
      intro p hp hne
      have := List.all_eq_true.1 (by simpa using hdep : dependentWithout c s.1 (rest V i) i = true) p
        (mem_rest.2 ⟨hp, hne⟩)
      simpa using this

/-- The search for a child succeeds if some admissible child passes the test. -/
theorem getChild_some {c : Cfg} (hiter : ∀ l, (c.iter l).Perm l) (hα : c.hsic = true → 0 ≤ c.alpha)
    (hcor : c.hsic = false → c.indCorr ≤ 1) {P N : Anc} {V : List Nat} {i : Nat} (hel : Eligible c N V i)
    (hind : isInd c (childVal c P V i) = true) : ∃ x, getChild c P N V = (some x, true) := by
  have hsub : ∀ x ∈ c.iter V, x ∈ V := fun x hx => (hiter V).mem_iff.1 hx
  have h2 := (foldl_childStep c P N V (c.iter V) (if c.hsic then 0 else 1, none) hsub).2 i ((hiter V).mem_iff.2 hel.1) hel
  have hst : ∀ (l : List Nat) (st : ℚ × Option Nat), (∀ x ∈ l, x ∈ V) →
      l.foldl (childStep c P N V) st = st ∨ ∃ x, (l.foldl (childStep c P N V) st).2 = some x := by
    intro l
    induction l with
    | nil => intro st _; exact Or.inl rfl
    | cons a l ih =>
      intro st hl
      rw [List.foldl_cons]
      rcases childStep_cases c P N V st (hl a (by simp)) with ⟨he, _⟩ | ⟨_, v, _, _, he⟩
      · rw [he]; exact ih st (fun x hx => hl x (by simp [hx]))
      · rw [he]
        rcases ih (v, some a) (fun x hx => hl x (by simp [hx])) with h | h
        · exact Or.inr ⟨a, by rw [h]⟩
        · exact Or.inr h
  have h3 := hst (c.iter V) (if c.hsic then 0 else 1, none) hsub
  unfold getChild
  dsimp only
  generalize (c.iter V).foldl (childStep c P N V) (if c.hsic then 0 else 1, none) = R at h2 h3 ⊢
  cases hv : childVal c P V i with
  | none => rw [hv] at hind; simp [isInd, isIndBy] at hind
  | some v =>
    rw [hv] at hind h2
    unfold isInd at hind
    unfold isIndBy at hind h2
    cases hh : c.hsic with
    | true =>
      simp only [hh, if_true, decide_eq_true_eq, decide_eq_false_iff_not, not_lt] at hind h2 h3 ⊢
      have hα' := hα hh
      rcases h3 with h | ⟨x, hx⟩
      · rw [h] at h2; dsimp only at h2; linarith
      · exact ⟨x, by rw [hx]; simp; linarith⟩
    | false =>
      simp only [hh, Bool.false_eq_true, if_false, decide_eq_true_eq, decide_eq_false_iff_not, not_lt] at hind h2 h3 ⊢
      have hα' := hcor hh
      rcases h3 with h | ⟨x, hx⟩
      · rw [h] at h2; dsimp only at h2; linarith
      · exact ⟨x, by rw [hx]; simp; linarith⟩

theorem rest_pair {a b : Nat} (h : a ≠ b) : rest [a, b] a = [b] ∧ rest [a, b] b = [a] := by
  constructor
  · simp [rest, h.symm]
  · simp [rest, h]

/-- A pass that reports no change did nothing at any set. -/
theorem foldl_unchanged {c : Cfg} (hiter : ∀ l, (c.iter l).Perm l) {N : Anc} {d : Nat} :
    ∀ (Vs : List (List Nat)) (P : Anc), (∀ V ∈ Vs, V ∈ combos 2 (List.range d)) →
      Good c N d 2 P → (Vs.foldl (body c N) (P, false)).2 = false → ∀ V ∈ Vs, body c N (P, false) V = (P, false)
  | [], _, _, _, _ => by simp
  | V :: Vs, P, hV, hs, h => by
    obtain ⟨h1, h2⟩ := body_step hiter (s := (P, false)) hs (hV V (by simp)) le_rfl (by simp)
    obtain ⟨_, h4⟩ := foldl_step hiter le_rfl (by simp) Vs (body c N (P, false) V) (fun W hW => hV W (by simp [hW])) h1
    rw [List.foldl_cons] at h
    have he : body c N (P, false) V = (P, false) := by
      rcases h2 with h2 | ⟨h2, _⟩
      · exact h2
      · rcases h4 with h4 | ⟨h4, _⟩
        · rw [h4, h2] at h; cases h
        · rw [h4] at h; cases h
    intro W hW
    rcases List.mem_cons.1 hW with rfl | hW
    · exact he
    · rw [he] at h
      exact foldl_unchanged hiter Vs P (fun W hW => hV W (by simp [hW])) hs h W hW

/-- With sets of two variables the search ends in a state where no pair changes anything. -/
theorem loop_pairs {c : Cfg} (hiter : ∀ l, (c.iter l).Perm l) {N : Anc} {d maxnum : Nat} (hm : maxnum ≤ 2)
    (I : Anc → Prop) (hI : ∀ P V b, Good c N d 2 P → V ∈ combos 2 (List.range d) → I P → I (body c N (P, b) V).1) :
    ∀ {fuel : Nat} {P P' : Anc}, Good c N d 2 P → I P → loop c N d maxnum fuel 2 P = some P' →
      Good c N d 2 P' ∧ I P' ∧ ∀ V ∈ combos 2 (List.range d), body c N (P', false) V = (P', false)
  | 0, _, _, _, _, h => by simp [loop] at h
  | fuel + 1, P, P', hs, hi, h => by
    have key : ∀ (Vs : List (List Nat)) (s : Anc × Bool), (∀ V ∈ Vs, V ∈ combos 2 (List.range d)) → Good c N d 2 s.1 →
        I s.1 → I (Vs.foldl (body c N) s).1 := by
      intro Vs
      induction Vs with
      | nil => intro s _ _ h; exact h
      | cons V Vs ih =>
        intro s hV hg h
        rw [List.foldl_cons]
        exact ih _ (fun W hW => hV W (by simp [hW])) (body_step hiter hg (hV V (by simp)) le_rfl (by simp)).1
          (hI s.1 V s.2 hg (hV V (by simp)) h)
    obtain ⟨hg, hf⟩ := foldl_step hiter le_rfl (by simp) (combos 2 (List.range d)) (P, false) (fun _ h => h) hs
    have hi' := key (combos 2 (List.range d)) (P, false) (fun _ h => h) hs hi
    unfold loop at h
    dsimp only at h
    change Good c N d 2 (pass c N d 2 P).1 at hg
    change Step d (P, false) (pass c N d 2 P) at hf
    change I (pass c N d 2 P).1 at hi'
    by_cases hc : (pass c N d 2 P).2 = true
    · rw [if_pos hc] at h
      exact loop_pairs hiter hm I hI hg hi' h
    · rw [if_neg hc, if_pos (by omega)] at h
      rcases hf with hf | ⟨hf, _⟩
      · rw [hf] at h
        simp only [Option.some.injEq] at h
        subst h
        exact ⟨hs, hi, foldl_unchanged hiter _ _ (fun _ h => h) hs (by rw [Bool.not_eq_true] at hc; exact hc)⟩
      · exact absurd hf hc

section pop
variable {n m : Nat} {B L X : Nat → Nat → ℚ} {σ : Nat → ℚ} {c : Cfg}

theorem RightTests.pair (ht : RightTests n m σ X c) {a b : Nat} {A S : Finset Nat} (ha : a < n) (hb : b < n)
    (hA : A ⊆ range n) (hS : S ⊆ range n) : isInd c (c.val a A [(b, S)]) = true ↔
      ∃ r y, IsResidual m σ X A (X a) r ∧ IsResidual m σ X S (X b) y ∧ ShareNoSource m r y := by
  rw [ht.indep a A [(b, S)] ha hA (by simpa using ⟨hb, hS⟩)]
  constructor
  · rintro ⟨r, h1, h2⟩
    obtain ⟨y, h3, h4⟩ := h2 (b, S) (by simp)
    exact ⟨r, y, h1, h3, h4⟩
  · rintro ⟨r, y, h1, h2, h3⟩
    refine ⟨r, h1, fun q hq => ?_⟩
    rw [List.mem_singleton] at hq
    subst hq
    exact ⟨y, h2, h3⟩

theorem RightTests.symm (ht : RightTests n m σ X c) {a b : Nat} {A S : Finset Nat} (ha : a < n) (hb : b < n)
    (hA : A ⊆ range n) (hS : S ⊆ range n) : isInd c (c.val a A [(b, S)]) = isInd c (c.val b S [(a, A)]) := by
  rw [Bool.eq_iff_iff, ht.pair ha hb hA hS, ht.pair hb ha hS hA]
  constructor <;>
  · rintro ⟨r, y, h1, h2, h3⟩
    exact ⟨y, r, h2, h1, fun k hk => (h3 k hk).symm⟩

theorem sound_range {P : Anc} (hP : SoundM n B P) (i : Nat) : P i ⊆ range n :=
  fun j hj => mem_range.2 (hP i j hj).lt_left

/-- A pair that passes both tests is in causal order, hidden causes or not. -/
theorem pair_sound (hX : SourceModel n m B L X) (hac : Acyclic (Edge n B 0)) (ht : RightTests n m σ X c) {P : Anc}
    (hP : SoundM n B P) {i j : Nat} (hi : i < n) (hj : j < n) (hij : i ≠ j)
    (hind : isInd c (c.val i ({j} ∪ P i) [(j, P j)]) = true) (hdep : isInd c (c.val i (P i) [(j, P j)]) = false) :
    TrueAncestor n B j i := by
  by_contra hna
  have hjP : j ∉ P i := fun h => hna (hP i j h)
  have hU : {j} ∪ P i ⊆ range n := union_subset (by simpa using hj) (sound_range hP i)
  obtain ⟨r, y, ⟨e, he, ho⟩, hy, hs⟩ := (ht.pair hi hj hU (sound_range hP j)).1 hind
  have hjm : j < m := hj.trans_le hX.1
  have hyj : y j = 1 := by rw [resid_own hX hac hj (fun h hh => hP j h hh) hy, source_self hX hac hj]
  have hrj : r j = 0 := by
    rcases hs j hjm with h | h
    · exact h
    · rw [hyj] at h; exact absurd h one_ne_zero
  have hXij : X i j = 0 := by
    by_contra h
    rcases source_ancestor hX hac hi hj h with h | h
    · exact hij h.symm
    · exact hna h
  have hXh : ∀ h ∈ P i, X h j = 0 := by
    intro h hh
    by_contra h0
    rcases source_ancestor hX hac (hP i h hh).lt_left hj h0 with rfl | h'
    · exact hjP hh
    · exact hna (h'.trans (hP i h hh))
  have hsplit : ∀ k, ∑ h ∈ {j} ∪ P i, e h * X h k = e j * X j k + ∑ h ∈ P i, e h * X h k := by
    intro k
    rw [← insert_eq, sum_insert hjP]
  have hej : e j = 0 := by
    have := he j hjm
    rw [hrj, hXij, hsplit, source_self hX hac hj, sum_eq_zero (fun h hh => by rw [hXh h hh, mul_zero])] at this
    linarith
  have hr : IsResidual m σ X (P i) (X i) r := by
    refine ⟨e, fun k hk => ?_, fun h hh => ho h (mem_union_right _ hh)⟩
    rw [he k hk, hsplit, hej, zero_mul, zero_add]
  have := (ht.pair hi hj (sound_range hP i) (sound_range hP j)).2 ⟨r, y, hr, hy, hs⟩
  rw [hdep] at this
  cases this

theorem body_sound (hX : SourceModel n m B L X) (hac : Acyclic (Edge n B 0)) (ht : RightTests n m σ X c) {N P : Anc}
    {V : List Nat} (b : Bool) (hV : V ∈ combos 2 (List.range n)) (hP : SoundM n B P) : SoundM n B (body c N (P, b) V).1 := by
  rcases body_cases ht.iter N (P, b) V with h | ⟨i, v, _, hel, hv, hind, hdep, hb⟩
  · rw [h]; exact hP
  · rw [hb]
    intro x y hy
    rcases mem_addAncestors.1 hy with h | ⟨rfl, h⟩
    · exact hP x y h
    · obtain ⟨hyV, hyx⟩ := mem_rest.1 h
      obtain ⟨hsub, hlen⟩ := mem_combos.1 hV
      have hlt : ∀ x ∈ V, x < n := fun x hx => List.mem_range.1 (hsub.subset hx)
      have hrest : rest V x = [y] := by
        obtain ⟨a, b, rfl⟩ := List.length_eq_two.1 hlen
        have hnd : [a, b].Nodup := hsub.nodup List.nodup_range
        have hab : a ≠ b := by simpa using hnd
        have hx := hel.1
        simp only [List.mem_cons, List.not_mem_nil, or_false] at hx hyV
        rcases hx with rfl | rfl
        · rcases hyV with rfl | rfl
          · exact absurd rfl hyx
          · exact (rest_pair hab).1
        · rcases hyV with rfl | rfl
          · exact (rest_pair hab).2
          · exact absurd rfl hyx
      refine pair_sound hX hac ht hP (hlt _ hel.1) (hlt _ hyV) hyx.symm ?_ (hdep y hyV hyx)
      rw [← hind, ← hv]
      unfold childVal
      rw [hrest]
      rfl

/-! ### Variables without hidden causes -/

/-- The residual of a variable without hidden causes on a set of ancestors containing its parents is its own error. -/
theorem clean_eq (hX : SourceModel n m B L X) (hac : Acyclic (Edge n B 0)) {i : Nat} (hi : i < n)
    (hc : NoHiddenAbove n m B L i) {S : Finset Nat} (hS : ∀ s ∈ S, TrueAncestor n B s i)
    (hpa : ∀ j, j < n → B i j ≠ 0 → j ∈ S) : IsResidual m σ X S (X i) (fun k => if k = i then 1 else 0) := by
  have him : i < m := hi.trans_le hX.1
  refine ⟨B i, ?_, ?_⟩
  · intro k hk
    have hsum : ∑ h ∈ S, B i h * X h k = ∑ h ∈ range n, B i h * X h k := by
      refine sum_subset (fun h hh => mem_range.2 (hS h hh).lt_left) ?_
      intro h hh hn
      by_cases h0 : B i h = 0
      · rw [h0, zero_mul]
      · exact absurd (hpa h (mem_range.1 hh) h0) hn
    rw [hsum, hX.2 i hi k hk]
    beta_reduce
    by_cases hkn : k < n
    · rw [if_pos hkn]; ring
    · rw [if_neg hkn, if_neg (by omega)]
      have : L i k = 0 := by
        by_contra h0
        exact hc k ⟨by omega, hk, i, hi, h0, Or.inl rfl⟩
      rw [this]; ring
  · intro h hh
    rw [popCov_single him]
    have : X h i = 0 := by
      by_contra h0
      rcases source_ancestor hX hac (hS h hh).lt_left hi h0 with rfl | h'
      · exact hac _ (hS _ hh)
      · exact hac _ (h'.trans (hS h hh))
    rw [this, mul_zero]

theorem AvoidingPath.anc {S : Finset Nat} {j i : Nat} (h : AvoidingPath n B S j i) : TrueAncestor n B j i := by
  unfold AvoidingPath at h
  exact Relation.TransGen.mono (fun _ _ h => h.1) j i h

theorem avoiding_empty {j i : Nat} (h : TrueAncestor n B j i) : AvoidingPath n B ∅ j i := by
  unfold TrueAncestor at h
  exact Relation.TransGen.mono (fun _ _ h => ⟨h, by simp⟩) j i h

/-- A variable with no parent outside `S`, regressed out together with `S`: its own error disappears. -/
theorem own_removed (hX : SourceModel n m B L X) (hσ : ∀ k, k < m → 0 < σ k) {i j : Nat} (hj : j < n)
    (hc : NoHiddenAbove n m B L j) {S : Finset Nat} (hpa : ∀ q, q < n → B j q ≠ 0 → q ∈ S) {r : Nat → ℚ}
    (hr : IsResidual m σ X ({j} ∪ S) (X i) r) : r j = 0 := by
  obtain ⟨e, _, ho⟩ := hr
  have hjm : j < m := hj.trans_le hX.1
  have h1 : ∀ k, k < m → (if k = j then (1 : ℚ) else 0) = X j k - ∑ q ∈ range n, B j q * X q k := by
    intro k hk
    rw [hX.2 j hj k hk]
    by_cases hkn : k < n
    · rw [if_pos hkn]; ring
    · rw [if_neg hkn, if_neg (by omega)]
      have : L j k = 0 := by
        by_contra h0
        exact hc k ⟨by omega, hk, j, hj, h0, Or.inl rfl⟩
      rw [this]; ring
  have h2 : popCov m σ (fun k => if k = j then (1 : ℚ) else 0) r = 0 := by
    rw [popCov_congr h1 (fun _ _ => rfl), popCov_sub_left, popCov_sum_left, popCov_comm, ho j (by simp), sum_eq_zero]
    · ring
    · intro q hq
      by_cases h0 : B j q = 0
      · rw [h0, zero_mul]
      · rw [popCov_comm, ho q (mem_union_right _ (hpa q (mem_range.1 hq) h0)), mul_zero]
  rw [popCov_single hjm] at h2
  exact (mul_eq_zero.1 h2).resolve_left (hσ j hjm).ne'

/-- The end of the search: every parent of a variable without hidden causes has been recorded. -/
theorem clean_parents_found (hX : SourceModel n m B L X) (hac : Acyclic (Edge n B 0)) (hσ : ∀ k, k < m → 0 < σ k)
    (ht : RightTests n m σ X c) (hacc : ∀ i, i < n → NoHiddenAbove n m B L i → NoAccident n m σ B X i)
    (hprior : ∀ i j, TrueAncestor n B j i → ¬ Forbidden c j i) {P : Anc} (hP : SoundM n B P)
    (hend : ∀ V ∈ combos 2 (List.range n), body c (neighborhoods c n) (P, false) V = (P, false)) :
    ∀ i, i < n → NoHiddenAbove n m B L i → ∀ j, j < n → B i j ≠ 0 → j ∈ P i := by
  classical
  by_contra hcon
  push Not at hcon
  obtain ⟨i0, hi0, hc0, p0, hp0, hB0, hn0⟩ := hcon
  obtain ⟨i, hmem, hmin⟩ := exists_minimal (acyclic_ancestor hac)
    ((List.range n).filter (fun i => decide (NoHiddenAbove n m B L i ∧ ∃ j, j < n ∧ B i j ≠ 0 ∧ j ∉ P i)))
    (List.ne_nil_of_mem (List.mem_filter.2 ⟨List.mem_range.2 hi0, by
      rw [decide_eq_true_eq]; exact ⟨hc0, p0, hp0, hB0, hn0⟩⟩))
  simp only [List.mem_filter, List.mem_range, decide_eq_true_eq] at hmem hmin
  obtain ⟨hi, hc, p, hp, hB, hpn⟩ := hmem
  -- the earliest variable outside `P i` with a path avoiding `P i`
  obtain ⟨j, hjm, hjmin⟩ := exists_minimal hac
    ((List.range n).filter (fun j => decide (j ∉ P i ∧ AvoidingPath n B (P i) j i)))
    (List.ne_nil_of_mem (List.mem_filter.2 ⟨List.mem_range.2 hp, by
      rw [decide_eq_true_eq]; exact ⟨hpn, .single ⟨⟨hp, hi, abs_pos.2 hB⟩, hpn⟩⟩⟩))
  simp only [List.mem_filter, List.mem_range, decide_eq_true_eq] at hjm hjmin
  obtain ⟨hj, hjP, hjav⟩ := hjm
  have hanc : TrueAncestor n B j i := AvoidingPath.anc hjav
  have hcj : NoHiddenAbove n m B L j := Rcd.NoHiddenAbove.anc hc hanc
  have hij : i ≠ j := (hanc.ne hac).symm
  have hpaS : ∀ q, q < n → B j q ≠ 0 → q ∈ P i := by
    intro q hq hBq
    by_contra hqn
    have hE : Edge n B 0 q j := ⟨hq, hj, abs_pos.2 hBq⟩
    exact hjmin q ⟨hq, hqn, .head ⟨hE, hqn⟩ hjav⟩ hE
  have hpaj : ∀ q, q < n → B j q ≠ 0 → q ∈ P j := by
    intro q hq hBq
    by_contra hqn
    exact hmin j ⟨hj, hcj, q, hq, hBq, hqn⟩ hanc
  have hyj := clean_eq (σ := σ) hX hac hj hcj (fun s hs => hP j s hs) hpaj
  have hPi := sound_range hP i
  have hPj := sound_range hP j
  have hU : {j} ∪ P i ⊆ range n := union_subset (by simpa using hj) hPi
  have hjm : j < m := hj.trans_le hX.1
  -- the tests of the pair
  have hind : isInd c (c.val i ({j} ∪ P i) [(j, P j)]) = true := by
    obtain ⟨r, hr⟩ := exists_residual hσ X ({j} ∪ P i) (X i)
    refine (ht.pair hi hj hU hPj).2 ⟨r, _, hr, hyj, fun k hk => ?_⟩
    by_cases hkj : k = j
    · left; rw [hkj]; exact own_removed hX hσ hj hcj hpaS hr
    · right; simp [hkj]
  have hdep : isInd c (c.val i (P i) [(j, P j)]) = false := by
    rw [← Bool.not_eq_true, ht.pair hi hj hPi hPj]
    rintro ⟨r, y, hr, hy, hs⟩
    have h1 := hacc i hi hc (P i) j r (fun s hs => hP i s hs) hjav hr
    rcases hs j hjm with h | h
    · exact h1 h
    · rw [hy.unique hσ hyj j hjm] at h; simp at h
  have hnb : j ∈ neighborhoods c n i := by
    have hXij : X i j ≠ 0 := hacc i hi hc ∅ j (X i) (by simp) (avoiding_empty hanc) ⟨fun _ => 0, by simp, by simp⟩
    have hres : ∀ a, IsResidual m σ X ∅ (X a) (X a) := fun a => ⟨fun _ => 0, by simp, by simp⟩
    have hd : isInd c (c.val i ∅ [(j, ∅)]) = false := by
      rw [← Bool.not_eq_true, ht.pair hi hj (by simp) (by simp)]
      rintro ⟨r, y, hr, hy, hs⟩
      rcases hs j hjm with h | h
      · rw [hr.unique hσ (hres i) j hjm] at h; exact hXij h
      · rw [hy.unique hσ (hres j) j hjm, source_self hX hac hj] at h; exact one_ne_zero h
    rw [mem_neighborhoods]
    rcases lt_or_gt_of_ne hij with h | h
    · exact Or.inl ⟨h, hj, hd⟩
    · exact Or.inr ⟨h, hi, by rw [← hd, ht.symm hj hi (by simp) (by simp)]⟩
  have hiPj : i ∉ P j := fun h => hanc.asymm hac (hP j i h)
  -- the pair as a list
  have main : ∀ a b, [a, b] ∈ combos 2 (List.range n) → (a = i ∧ b = j ∨ a = j ∧ b = i) → False := by
    intro a b hab hor
    have hne : a ≠ b := by rcases hor with ⟨rfl, rfl⟩ | ⟨rfl, rfl⟩; exacts [hij, hij.symm]
    have hri : rest [a, b] i = [j] := by
      rcases hor with ⟨rfl, rfl⟩ | ⟨rfl, rfl⟩
      · exact (rest_pair hne).1
      · exact (rest_pair hne).2
    have hrj : rest [a, b] j = [i] := by
      rcases hor with ⟨rfl, rfl⟩ | ⟨rfl, rfl⟩
      · exact (rest_pair hne).2
      · exact (rest_pair hne).1
    have hmemi : ∀ x, x ∈ [a, b] → x = i ∨ x = j := by
      intro x hx
      simp only [List.mem_cons, List.not_mem_nil, or_false] at hx
      rcases hor with ⟨rfl, rfl⟩ | ⟨rfl, rfl⟩
      · exact hx
      · exact hx.symm
    have hel : Eligible c (neighborhoods c n) [a, b] i := by
      refine ⟨by rcases hor with ⟨rfl, rfl⟩ | ⟨rfl, rfl⟩ <;> simp, fun x hx hxi => ?_⟩
      rcases hmemi x hx with rfl | rfl
      · exact absurd rfl hxi
      · exact ⟨hprior i x hanc, hnb⟩
    have hcv : isInd c (childVal c P [a, b] i) = true := by
      unfold childVal
      rw [hri]
      exact hind
    have hun : unidentified P [a, b] = true := by
      have e : combos 2 [a, b] = [[a, b]] := by simp [combos]
      unfold unidentified
      rw [e]
      rcases hor with ⟨rfl, rfl⟩ | ⟨rfl, rfl⟩ <;> simp [hjP, hiPj]
    obtain ⟨x, hx⟩ := getChild_some ht.iter ht.alpha ht.corr hel hcv
    have hxm := (getChild_spec ht.iter hx).1.1
    have hb := hend [a, b] hab
    unfold body at hb
    simp only [hun, hx, Bool.not_true, Bool.false_eq_true, if_false] at hb
    have hdw : dependentWithout c P (rest [a, b] x) x = true := by
      unfold dependentWithout
      rcases hmemi x hxm with rfl | rfl
      · rw [hri]; simp [hdep]
      · rw [hrj]
        have := ht.symm (c := c) hj hi hPj hPi
        rw [hdep] at this
        simp [this]
    rw [hdw] at hb
    simp only [Bool.not_true, Bool.false_eq_true, if_false, Prod.mk.injEq, Bool.false_or, Bool.not_eq_false'] at hb
    have hem := hb.2
    rcases hmemi x hxm with rfl | rfl
    · rw [hri] at hem; simp at hem
    · rw [hrj] at hem; simp at hem
  rcases lt_or_gt_of_ne hij with h | h
  · exact main i j (mem_combos.2 ⟨pair_sublist_range.2 ⟨h, hj⟩, rfl⟩) (Or.inl ⟨rfl, rfl⟩)
  · exact main j i (mem_combos.2 ⟨pair_sublist_range.2 ⟨h, hi⟩, rfl⟩) (Or.inr ⟨rfl, rfl⟩)

/-- Pruning leaves exactly the parents of variables without hidden causes. -/
theorem clean_prune (hX : SourceModel n m B L X) (hac : Acyclic (Edge n B 0)) (hσ : ∀ k, k < m → 0 < σ k)
    (ht : RightTests n m σ X c) (hacc : ∀ i, i < n → NoHiddenAbove n m B L i → NoAccident n m σ B X i) {P : Anc}
    (hP : SoundM n B P) (hpa : ∀ i, i < n → NoHiddenAbove n m B L i → ∀ j, j < n → B i j ≠ 0 → j ∈ P i) :
    ∀ i, i < n → NoHiddenAbove n m B L i → ∀ j, j ∈ prune c n P i ↔ j < n ∧ B i j ≠ 0 := by
  classical
  by_contra hcon
  push Not at hcon
  obtain ⟨i0, hi0, hc0, hn0⟩ := hcon
  obtain ⟨i, hmem, hmin⟩ := exists_minimal (acyclic_ancestor hac)
    ((List.range n).filter (fun i => decide (NoHiddenAbove n m B L i ∧ ¬ ∀ j, j ∈ prune c n P i ↔ j < n ∧ B i j ≠ 0)))
    (List.ne_nil_of_mem (List.mem_filter.2 ⟨List.mem_range.2 hi0, by
      rw [decide_eq_true_eq]
      refine ⟨hc0, fun h => ?_⟩
      obtain ⟨j, hj⟩ := hn0
      have := h j
      tauto⟩))
  simp only [List.mem_filter, List.mem_range, decide_eq_true_eq] at hmem hmin
  obtain ⟨hi, hc, hnot⟩ := hmem
  apply hnot
  have hsub : ∀ k, prune c n P k ⊆ P k := foldl_prune_subset c _ _
  have key : ∀ j, j ∈ P i → (isInd c (c.val i (P i \ {j}) [(j, if j < i then prune c n P j else P j)]) = false ↔
      B i j ≠ 0) := by
    intro j hjP
    have hanc := hP i j hjP
    have hj := hanc.lt_left
    have hjm : j < m := hj.trans_le hX.1
    have hij : i ≠ j := (hanc.ne hac).symm
    have hcj : NoHiddenAbove n m B L j := Rcd.NoHiddenAbove.anc hc hanc
    have hprj : ∀ x, x ∈ prune c n P j ↔ x < n ∧ B j x ≠ 0 := by
      by_contra h
      exact hmin j ⟨hj, hcj, h⟩ hanc
    set T := if j < i then prune c n P j else P j with hT
    have hTs : T ⊆ P j := by rw [hT]; split; exacts [hsub j, Subset.refl _]
    have hTa : ∀ s ∈ T, TrueAncestor n B s j := fun s hs => hP j s (hTs hs)
    have hTp : ∀ q, q < n → B j q ≠ 0 → q ∈ T := by
      intro q hq hBq
      rw [hT]
      split
      · exact (hprj q).2 ⟨hq, hBq⟩
      · exact hpa j hj hcj q hq hBq
    have hyj := clean_eq (σ := σ) hX hac hj hcj hTa hTp
    have hSn : P i \ {j} ⊆ range n := sdiff_subset.trans (sound_range hP i)
    have hTn : T ⊆ range n := hTs.trans (sound_range hP j)
    have hSa : ∀ s ∈ P i \ {j}, TrueAncestor n B s i := fun s hs => hP i s (mem_sdiff.1 hs).1
    rw [← Bool.not_eq_true, ht.pair hi hj hSn hTn]
    constructor
    · intro h hB
      apply h
      refine ⟨_, _, clean_eq (σ := σ) hX hac hi hc hSa ?_, hyj, ?_⟩
      · intro q hq hBq
        refine mem_sdiff.2 ⟨hpa i hi hc q hq hBq, ?_⟩
        rw [mem_singleton]
        rintro rfl
        exact hBq hB
      · intro k _
        by_cases hk : k = i
        · right; exact if_neg (by rw [hk]; exact hij)
        · left; exact if_neg hk
    · rintro hB ⟨r, y, hr, hy, hs⟩
      have h1 := hacc i hi hc _ j r hSa (.single ⟨⟨hj, hi, abs_pos.2 hB⟩, by simp⟩) hr
      rcases hs j hjm with h | h
      · exact h1 h
      · rw [hy.unique hσ hyj j hjm] at h; simp at h
  intro j
  by_cases hij : i = j
  · subst hij
    constructor
    · intro h; exact absurd (hP i i (hsub i h)) (hac i)
    · rintro ⟨_, h⟩; exact absurd (trueAncestor_of_edge hi hi h) (hac i)
  · rw [mem_prune hi hij]
    constructor
    · rintro ⟨h1, h2⟩; exact ⟨(hP i j h1).lt_left, (key j h1).1 h2⟩
    · rintro ⟨h1, h2⟩
      have := hpa i hi hc j h1 h2
      exact ⟨this, (key j this).2 h2⟩

end pop
end Verif.Camuv
