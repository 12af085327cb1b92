import Verif.Model.Rcd
import Verif.Proofs.Order
import Mathlib.Algebra.Order.BigOperators.Group.Finset
import Mathlib.Algebra.BigOperators.Group.Finset.Basic
import Mathlib.Tactic.Ring
import Mathlib.Tactic.Linarith
import Mathlib.Data.List.Sublists

set_option linter.unusedSectionVars false
set_option autoImplicit false
namespace Verif.Rcd

theorem mem_combos : ∀ {k : Nat} {l c : List Nat}, c ∈ combos k l ↔ c.Sublist l ∧ c.length = k
  | 0, l, c => by
    simp only [combos, List.mem_singleton, List.length_eq_zero_iff]
    constructor
    · rintro rfl; exact ⟨List.nil_sublist _, rfl⟩
    · exact fun h => h.2
  | k + 1, [], c => by
    simp only [combos, List.not_mem_nil, List.sublist_nil, false_iff]
    rintro ⟨rfl, h⟩; simp at h
  | k + 1, a :: l, c => by
    rw [combos, List.mem_append, List.mem_map, mem_combos]
    constructor
    · rintro (⟨d, hd, rfl⟩ | ⟨h1, h2⟩)
      · obtain ⟨h1, h2⟩ := mem_combos.1 hd
        exact ⟨h1.cons_cons a, by simp [h2]⟩
      · exact ⟨h1.cons a, h2⟩
    · rintro ⟨h1, h2⟩
      cases h1 with
      | cons _ h => exact Or.inr ⟨h, h2⟩
      | cons_cons _ h => exact Or.inl ⟨_, mem_combos.2 ⟨h, by simpa using h2⟩, rfl⟩

theorem mem_foldl_inter (M : Anc) (x : Nat) : ∀ (l : List Nat) (s : Finset Nat),
    x ∈ l.foldl (fun s y => s ∩ M y) s ↔ x ∈ s ∧ ∀ a ∈ l, x ∈ M a
  | [], s => by simp
  | b :: l, s => by
    rw [List.foldl_cons, mem_foldl_inter M x l, Finset.mem_inter, List.forall_mem_cons, and_assoc]

theorem mem_commonAncestors {M : Anc} {U : List Nat} (hU : U ≠ []) {x : Nat} :
    x ∈ commonAncestors M U ↔ ∀ a ∈ U, x ∈ M a := by
  cases U with
  | nil => exact absurd rfl hU
  | cons a l => rw [commonAncestors, mem_foldl_inter, List.forall_mem_cons]

theorem existsAncestor_false {M : Anc} {xi : Nat} {xjs : List Nat} (h : existsAncestor M xi xjs = false) :
    (∀ xj ∈ xjs, xi ∉ M xj) ∧ ∃ xj ∈ xjs, xj ∉ M xi := by
  simp only [existsAncestor, Bool.or_eq_false_iff, List.any_eq_false, decide_eq_true_eq, decide_eq_false_iff_not] at h
  refine ⟨h.1, ?_⟩
  by_contra hc
  push Not at hc
  refine h.2 (Finset.Subset.antisymm ?_ Finset.inter_subset_left)
  intro x hx
  exact Finset.mem_inter.2 ⟨hx, hc x (List.mem_toFinset.1 hx)⟩

theorem existsAncestor_true {M : Anc} {xi : Nat} {xjs : List Nat} :
    existsAncestor M xi xjs = true ↔ (∃ xj ∈ xjs, xi ∈ M xj) ∨ ∀ xj ∈ xjs, xj ∈ M xi := by
  simp only [existsAncestor, Bool.or_eq_true, List.any_eq_true, decide_eq_true_eq]
  apply or_congr Iff.rfl
  constructor
  · intro h x hx
    have : x ∈ xjs.toFinset ∩ M xi := h ▸ List.mem_toFinset.2 hx
    exact (Finset.mem_inter.1 this).2
  · intro h
    refine Finset.Subset.antisymm ?_ Finset.inter_subset_left
    intro x hx
    exact Finset.mem_inter.2 ⟨hx, h x (List.mem_toFinset.1 hx)⟩

theorem mem_others {U : List Nat} {a x : Nat} : x ∈ others U a ↔ x ∈ U ∧ x ≠ a := by
  simp [others, List.mem_filter]

theorem mem_sinkSet {t : Tests} {M : Anc} {H : Finset Nat} {U : List Nat} {x : Nat} :
    x ∈ sinkSet t M H U ↔ x ∈ U ∧ existsAncestor M x (others U x) = false ∧ t.indep H x (others U x) = true := by
  simp only [sinkSet, List.mem_filter, Bool.and_eq_true, Bool.not_eq_true']

/-- Why `j` was recorded as an ancestor of `i`, in terms of the tests and of the recorded ancestors `M`. -/
def Justified (t : Tests) (n maxNum : Nat) (M : Anc) (i j : Nat) : Prop :=
  ∃ (U : List Nat) (H : Finset Nat), U.Sublist (List.range n) ∧ 2 ≤ U.length ∧ U.length ≤ maxNum + 1 ∧ i ∈ U ∧ j ∈ U ∧
    j ≠ i ∧ (∀ h ∈ H, ∀ x ∈ U, h ∈ M x) ∧ (∀ x ∈ U, t.nonGauss H x = true) ∧
    (∀ a b, [a, b].Sublist U → t.corr H a H b = true) ∧ t.indep H i (others U i) = true ∧
    ∀ x ∈ U, x ≠ i → t.indep H x (others U x) = false ∨ (∃ y ∈ U, y ≠ x ∧ x ∈ M y) ∨ ∀ y ∈ U, y ≠ x → y ∈ M x

theorem Justified.mono {t : Tests} {n maxNum : Nat} {M M' : Anc} (h : ∀ i, M i ⊆ M' i) {i j : Nat}
    (hj : Justified t n maxNum M i j) : Justified t n maxNum M' i j := by
  obtain ⟨U, H, h1, h2, h3, h4, h5, h6, h7, h8, h9, h10, h11⟩ := hj
  refine ⟨U, H, h1, h2, h3, h4, h5, h6, fun a ha x hx => h x (h7 a ha x hx), h8, h9, h10, ?_⟩
  intro x hx hxi
  rcases h11 x hx hxi with h | ⟨y, hy, hne, hm⟩ | hall
  · exact Or.inl h
  · exact Or.inr (Or.inl ⟨y, hy, hne, h y hm⟩)
  · exact Or.inr (Or.inr fun y hy hne => h x (hall y hy hne))

/-- Invariant of the search. -/
structure Good (t : Tests) (n maxNum : Nat) (M : Anc) : Prop where
  range : ∀ i j, j ∈ M i → i < n ∧ j < n
  asymm : ∀ i j, j ∈ M i → i ∉ M j
  just : ∀ i j, j ∈ M i → Justified t n maxNum M i j

theorem Good.irrefl {t : Tests} {n maxNum : Nat} {M : Anc} (h : Good t n maxNum M) (i : Nat) : i ∉ M i :=
  fun hi => h.asymm i i hi hi

/-- Number of recorded pairs. -/
def size (n : Nat) (M : Anc) : Nat := ∑ i ∈ Finset.range n, (M i).card

theorem size_le {t : Tests} {n maxNum : Nat} {M : Anc} (h : Good t n maxNum M) : size n M ≤ n * n := by
  unfold size
  calc ∑ i ∈ Finset.range n, (M i).card ≤ ∑ _i ∈ Finset.range n, n := by
        refine Finset.sum_le_sum fun i _ => ?_
        have : M i ⊆ Finset.range n := fun j hj => Finset.mem_range.2 (h.range i j hj).2
        simpa using Finset.card_le_card this
    _ = n * n := by simp

/-- What one step may do. -/
structure Step (n : Nat) (s s' : St) : Prop where
  mono : ∀ i, s.M i ⊆ s'.M i
  flag : (s'.changed = s.changed ∧ s'.M = s.M) ∨ (s'.changed = true ∧ size n s.M < size n s'.M)

theorem body_step {t : Tests} {n maxNum l : Nat} {s : St} {U : List Nat} (hs : Good t n maxNum s.M)
    (hU : U ∈ combos (l + 1) (List.range n)) (hl1 : 1 ≤ l) (hl2 : l ≤ maxNum) :
    Good t n maxNum (body t s U).M ∧ Step n s (body t s U) := by
  obtain ⟨hsub, hlen⟩ := mem_combos.1 hU
  have hne : U ≠ [] := by rintro rfl; simp at hlen
  have hnd : U.Nodup := hsub.nodup List.nodup_range
  have hlt : ∀ x ∈ U, x < n := fun x hx => List.mem_range.1 (hsub.subset hx)
  have hrefl : Good t n maxNum s.M ∧ Step n s s := ⟨hs, fun _ => Finset.Subset.refl _, Or.inl ⟨rfl, rfl⟩⟩
  unfold body
  simp only
  split
  · exact hrefl
  split
  · exact hrefl
  split
  · exact hrefl
  rename_i hng hcor
  generalize hH : commonAncestors s.M U = H at *
  have hHM : ∀ h ∈ H, ∀ x ∈ U, h ∈ s.M x := by
    intro h hh x hx
    rw [← hH, mem_commonAncestors hne] at hh
    exact hh x hx
  have hng' : ∀ x ∈ U, t.nonGauss H x = true := by
    intro x hx
    by_contra hc
    exact hng (List.any_eq_true.2 ⟨x, hx, by simpa using hc⟩)
  have hcor' : ∀ a b, [a, b].Sublist U → t.corr H a H b = true := by
    intro a b hab
    have := List.all_eq_true.1 (by simpa using hcor : allCorrelated t H U = true) [a, b] (mem_combos.2 ⟨hab, rfl⟩)
    simpa using this
  cases hsk : sinkSet t s.M H U with
  | nil => exact ⟨hs, fun _ => Finset.Subset.refl _, Or.inl ⟨rfl, rfl⟩⟩
  | cons xi rest =>
    cases rest with
    | cons y rest => exact ⟨hs, fun _ => Finset.Subset.refl _, Or.inl ⟨rfl, rfl⟩⟩
    | nil =>
      simp only [applySink]
      split
      · exact ⟨hs, fun _ => Finset.Subset.refl _, Or.inl ⟨rfl, rfl⟩⟩
      · rename_i hnew
        obtain ⟨hxi, hanc, hind⟩ := mem_sinkSet.1 (hsk ▸ List.mem_singleton_self xi)
        obtain ⟨hno, xj, hxj, hxjn⟩ := existsAncestor_false hanc
        simp only
        have hsubM : ∀ i, s.M i ⊆ addAncestors s.M xi (others U xi) i := by
          intro i
          unfold addAncestors
          split
          · exact Finset.subset_union_left
          · exact Finset.Subset.refl _
        have hmem : ∀ i j, j ∈ addAncestors s.M xi (others U xi) i ↔ j ∈ s.M i ∨ (i = xi ∧ j ∈ U ∧ j ≠ xi) := by
          intro i j
          unfold addAncestors
          split
          · rename_i he
            rw [Finset.mem_union, List.mem_toFinset, mem_others]
            simp [he]
          · rename_i he
            simp [he]
        refine ⟨⟨?_, ?_, ?_⟩, hsubM, Or.inr ⟨rfl, ?_⟩⟩
        · intro i j hj
          rcases (hmem i j).1 hj with h | ⟨rfl, h, _⟩
          · exact hs.range i j h
          · exact ⟨hlt _ hxi, hlt _ h⟩
        · intro i j hj hi
          rcases (hmem i j).1 hj with h | ⟨rfl, h, hne'⟩
          · rcases (hmem j i).1 hi with h' | ⟨rfl, h', hne'⟩
            · exact hs.asymm i j h h'
            · exact hno i (mem_others.2 ⟨h', hne'⟩) h
          · rcases (hmem j i).1 hi with h' | ⟨rfl, h', hne''⟩
            · exact hno j (mem_others.2 ⟨h, hne'⟩) h'
            · exact hne' rfl
        · intro i j hj
          rcases (hmem i j).1 hj with h | ⟨rfl, h, hne'⟩
          · exact (hs.just i j h).mono hsubM
          · refine Justified.mono hsubM ⟨U, H, hsub, by omega, by omega, hxi, h, hne', hHM, hng', hcor', hind, ?_⟩
            intro x hx hxi'
            have : x ∉ sinkSet t s.M H U := by rw [hsk]; simpa using hxi'
            rw [mem_sinkSet] at this
            push Not at this
            cases hea : existsAncestor s.M x (others U x) with
            | false => exact Or.inl (by simpa using this hx hea)
            | true =>
              right
              rcases existsAncestor_true.1 hea with ⟨y, hy, hm⟩ | hall
              · exact Or.inl ⟨y, (mem_others.1 hy).1, (mem_others.1 hy).2, hm⟩
              · exact Or.inr fun y hy hne => hall y (mem_others.2 ⟨hy, hne⟩)
        · unfold size
          refine Finset.sum_lt_sum (fun i _ => Finset.card_le_card (hsubM i)) ⟨xi, Finset.mem_range.2 (hlt _ hxi), ?_⟩
          refine Finset.card_lt_card ⟨hsubM xi, fun hc => ?_⟩
          have hj := mem_others.1 hxj
          exact hxjn (hc ((hmem xi xj).2 (Or.inr ⟨rfl, hj.1, hj.2⟩)))

theorem Step.trans {n : Nat} {a b c : St} (h1 : Step n a b) (h2 : Step n b c) : Step n a c := by
  refine ⟨fun i => (h1.mono i).trans (h2.mono i), ?_⟩
  rcases h1.flag with ⟨f1, m1⟩ | ⟨f1, m1⟩
  · rcases h2.flag with ⟨f2, m2⟩ | ⟨f2, m2⟩
    · exact Or.inl ⟨f2.trans f1, m2.trans m1⟩
    · exact Or.inr ⟨f2, by rw [m1] at m2; exact m2⟩
  · right
    rcases h2.flag with ⟨f2, m2⟩ | ⟨f2, m2⟩
    · exact ⟨f2.trans f1, by rw [m2]; exact m1⟩
    · exact ⟨f2, m1.trans m2⟩

theorem foldl_step {t : Tests} {n maxNum l : Nat} (hl1 : 1 ≤ l) (hl2 : l ≤ maxNum) :
    ∀ (Us : List (List Nat)) (s : St), (∀ U ∈ Us, U ∈ combos (l + 1) (List.range n)) → Good t n maxNum s.M →
      Good t n maxNum (Us.foldl (body t) s).M ∧ Step n s (Us.foldl (body t) s)
  | [], s, _, hs => ⟨hs, fun _ => Finset.Subset.refl _, Or.inl ⟨rfl, rfl⟩⟩
  | U :: Us, s, hU, hs => by
    obtain ⟨h1, h2⟩ := body_step hs (hU U (by simp)) hl1 hl2
    obtain ⟨h3, h4⟩ := foldl_step hl1 hl2 Us (body t s U) (fun V hV => hU V (by simp [hV])) h1
    exact ⟨h3, h2.trans h4⟩

theorem pass_step {t : Tests} {n maxNum l : Nat} (hl1 : 1 ≤ l) (hl2 : l ≤ maxNum) {s : St} (hs : Good t n maxNum s.M) :
    Good t n maxNum (pass t n l s).M ∧
      (((pass t n l s).changed = false ∧ (pass t n l s).M = s.M) ∨
       ((pass t n l s).changed = true ∧ size n s.M < size n (pass t n l s).M)) := by
  obtain ⟨h1, h2⟩ := foldl_step hl1 hl2 (combos (l + 1) (List.range n)) { s with changed := false }
    (fun _ h => h) hs
  exact ⟨h1, h2.flag⟩

theorem loop_terminates {t : Tests} {n maxNum : Nat} : ∀ (fuel l : Nat) (s : St), Good t n maxNum s.M → 1 ≤ l →
    l ≤ maxNum → (n * n - size n s.M) * maxNum + (maxNum - l) < fuel →
    ∃ M, loop t n maxNum fuel l s = some M ∧ Good t n maxNum M
  | 0, _, _, _, _, _, h => by omega
  | fuel + 1, l, s, hs, hl1, hl2, h => by
    obtain ⟨hg, hf⟩ := pass_step hl1 hl2 hs
    unfold loop
    simp only
    rcases hf with ⟨hc, hM⟩ | ⟨hc, hM⟩
    · rw [hc]
      simp only [Bool.false_eq_true, if_false]
      split
      · refine loop_terminates fuel (l + 1) _ hg (by omega) (by omega) ?_
        rw [hM]; omega
      · exact ⟨_, rfl, hg⟩
    · rw [hc, if_pos rfl]
      refine loop_terminates fuel 1 _ hg le_rfl (by omega) ?_
      have h1 := size_le hg
      have h2 : n * n - size n s.M ≥ n * n - size n (pass t n l s).M + 1 := by omega
      have h3 := Nat.mul_le_mul_right maxNum h2
      rw [Nat.add_mul, one_mul] at h3
      omega

theorem loop_fuel {t : Tests} {n maxNum : Nat} : ∀ {fuel l : Nat} {s : St} {M : Anc}, loop t n maxNum fuel l s = some M →
    loop t n maxNum (fuel + 1) l s = some M
  | 0, _, _, _, h => by simp [loop] at h
  | fuel + 1, l, s, M, h => by
    unfold loop at h ⊢
    simp only at h ⊢
    split
    · rename_i hc; rw [if_pos hc] at h; exact loop_fuel h
    · rename_i hc
      rw [if_neg hc] at h
      split
      · rename_i hl; rw [if_pos hl] at h; exact loop_fuel h
      · rename_i hl; rw [if_neg hl] at h; exact h

/-! ### Confounders -/

/-- The pair passes the checks of the loop. -/
def Conf (t : Tests) (P : Anc) (i j : Nat) : Prop := i ∉ P j ∧ j ∉ P i ∧ t.corr (P i) i (P j) j = true

theorem mem_confStep {t : Tests} {P C : Anc} {a b i j : Nat} : j ∈ confStep t P C [a, b] i ↔
    j ∈ C i ∨ (Conf t P a b ∧ ((i = a ∧ j = b) ∨ (i = b ∧ j = a))) := by
  unfold confStep Conf
  simp only [List.getD_cons_zero, List.getD_cons_succ]
  split
  · rename_i h; constructor
    · exact Or.inl
    · rintro (h' | ⟨⟨h1, h2, _⟩, _⟩)
      · exact h'
      · rcases h with h | h
        · exact absurd h h1
        · exact absurd h h2
  · rename_i h
    push Not at h
    split
    · rename_i hc
      unfold addAncestors
      constructor
      · intro hj
        split at hj
        · rename_i he
          rcases Finset.mem_union.1 hj with h' | h'
          · split at h'
            · rename_i he'
              rcases Finset.mem_union.1 h' with h'' | h''
              · exact Or.inl h''
              · exact Or.inr ⟨⟨h.1, h.2, hc⟩, Or.inl ⟨he', by simpa using h''⟩⟩
            · exact Or.inl h'
          · exact Or.inr ⟨⟨h.1, h.2, hc⟩, Or.inr ⟨he, by simpa using h'⟩⟩
        · split at hj
          · rename_i he'
            rcases Finset.mem_union.1 hj with h'' | h''
            · exact Or.inl h''
            · exact Or.inr ⟨⟨h.1, h.2, hc⟩, Or.inl ⟨he', by simpa using h''⟩⟩
          · exact Or.inl hj
      · rintro (h' | ⟨_, (⟨rfl, rfl⟩ | ⟨rfl, rfl⟩)⟩)
        · split
          · refine Finset.mem_union_left _ ?_
            split
            · exact Finset.mem_union_left _ h'
            · exact h'
          · split
            · exact Finset.mem_union_left _ h'
            · exact h'
        · split
          · refine Finset.mem_union_left _ ?_
            rw [if_pos rfl]
            exact Finset.mem_union_right _ (by simp)
          · rw [if_pos rfl]
            exact Finset.mem_union_right _ (by simp)
        · rw [if_pos rfl]
          exact Finset.mem_union_right _ (by simp)
    · rename_i hc
      constructor
      · exact Or.inl
      · rintro (h' | ⟨⟨_, _, h3⟩, _⟩)
        · exact h'
        · exact absurd h3 hc

theorem mem_foldl_conf {t : Tests} {P : Anc} {i j : Nat} : ∀ (l : List (List Nat)) (C : Anc), (∀ c ∈ l, c.length = 2) →
    (j ∈ l.foldl (confStep t P) C i ↔ j ∈ C i ∨ ([i, j] ∈ l ∧ Conf t P i j) ∨ ([j, i] ∈ l ∧ Conf t P j i))
  | [], C, _ => by simp
  | c :: l, C, h => by
    obtain ⟨a, b, rfl⟩ := List.length_eq_two.1 (h c (by simp))
    rw [List.foldl_cons, mem_foldl_conf l _ (fun c hc => h c (by simp [hc])), mem_confStep]
    simp only [List.mem_cons, List.cons.injEq, and_true]
    constructor
    · rintro ((h | ⟨h, (⟨rfl, rfl⟩ | ⟨rfl, rfl⟩)⟩) | h | h)
      · exact Or.inl h
      · exact Or.inr (Or.inl ⟨Or.inl ⟨rfl, rfl⟩, h⟩)
      · exact Or.inr (Or.inr ⟨Or.inl ⟨rfl, rfl⟩, h⟩)
      · exact Or.inr (Or.inl ⟨Or.inr h.1, h.2⟩)
      · exact Or.inr (Or.inr ⟨Or.inr h.1, h.2⟩)
    · rintro (h | ⟨(⟨rfl, rfl⟩ | h1), h2⟩ | ⟨(⟨rfl, rfl⟩ | h1), h2⟩)
      · exact Or.inl (Or.inl h)
      · exact Or.inl (Or.inr ⟨h2, Or.inl ⟨rfl, rfl⟩⟩)
      · exact Or.inr (Or.inl ⟨h1, h2⟩)
      · exact Or.inl (Or.inr ⟨h2, Or.inr ⟨rfl, rfl⟩⟩)
      · exact Or.inr (Or.inr ⟨h1, h2⟩)

theorem pair_sublist_range {n a b : Nat} : [a, b].Sublist (List.range n) ↔ a < b ∧ b < n := by
  constructor
  · intro h
    have hp := List.pairwise_lt_range (n := n) |>.sublist h
    exact ⟨by simpa using hp, List.mem_range.1 (h.subset (by simp))⟩
  · rintro ⟨h1, h2⟩
    have : [a, b] = (List.range n).filter (fun x => decide (x = a ∨ x = b)) := by
      have hs1 : ([a, b] : List Nat).Pairwise (· < ·) := by simpa using h1
      have hs2 : ((List.range n).filter (fun x => decide (x = a ∨ x = b))).Pairwise (· < ·) :=
        List.pairwise_lt_range.filter _
      refine List.Perm.eq_of_pairwise (le := (· < ·)) (fun a b _ _ h h' => absurd h (lt_asymm h')) hs1 hs2 ?_
      rw [List.perm_ext_iff_of_nodup (hs1.imp (fun h => h.ne)) (hs2.imp (fun h => h.ne))]
      intro x
      simp only [List.mem_cons, List.not_mem_nil, or_false, List.mem_filter, List.mem_range, decide_eq_true_eq]
      constructor
      · rintro (rfl | rfl)
        · exact ⟨by omega, Or.inl rfl⟩
        · exact ⟨by omega, Or.inr rfl⟩
      · exact fun h => h.2
    rw [this]
    exact List.filter_sublist

theorem mem_extractConfounded {t : Tests} {n : Nat} {P : Anc} {i j : Nat} : j ∈ extractConfounded t n P i ↔
    (i < j ∧ j < n ∧ Conf t P i j) ∨ (j < i ∧ i < n ∧ Conf t P j i) := by
  unfold extractConfounded
  rw [mem_foldl_conf _ _ (fun c hc => (mem_combos.1 hc).2)]
  simp only [Finset.notMem_empty, false_or, mem_combos, pair_sublist_range, List.length_cons, List.length_nil, and_true,
    and_assoc]

/-! ### Totals -/

theorem fillTotals_spec {n : Nat} {B : Nat → Nat → Option ℚ} : ∀ {ps : List (Nat × Nat)} {T T' : Nat → Nat → Option ℚ},
    fillTotals n B ps T = some (.ok T') →
    ∀ i j, ((i, j) ∈ ps → totalEffect2 n B j i = some (.ok (T' i j))) ∧ ((i, j) ∉ ps → T' i j = T i j)
  | [], T, T', h, i, j => by simp [fillTotals] at h; simp [h]
  | (d, s) :: ps, T, T', h, i, j => by
    unfold fillTotals at h
    cases hv : totalEffect2 n B s d with
    | none => simp [hv] at h
    | some r =>
      cases r with
      | error e => simp [hv] at h
      | ok v =>
        simp only [hv] at h
        obtain ⟨h1, h2⟩ := fillTotals_spec h i j
        constructor
        · intro hm
          by_cases hps : (i, j) ∈ ps
          · exact h1 hps
          · rcases List.mem_cons.1 hm with he | he
            · obtain ⟨rfl, rfl⟩ := Prod.mk.inj he
              rw [h2 hps, hv]; simp
            · exact absurd he hps
        · intro hm
          rw [List.mem_cons, not_or] at hm
          rw [h2 hm.2, if_neg]
          rintro ⟨rfl, rfl⟩
          exact hm.1 rfl

theorem mem_ancestorPairs {n : Nat} {M : Anc} {i j : Nat} : (i, j) ∈ ancestorPairs n M ↔ i < n ∧ j < n ∧ j ∈ M i := by
  simp only [ancestorPairs, List.mem_flatMap, List.mem_range, List.mem_map, List.mem_filter, decide_eq_true_eq,
    Prod.mk.injEq]
  constructor
  · rintro ⟨d, hd, s, hs, rfl, rfl⟩; exact ⟨hd, hs⟩
  · rintro ⟨h1, h2⟩; exact ⟨i, h1, j, h2, rfl, rfl⟩

end Verif.Rcd
