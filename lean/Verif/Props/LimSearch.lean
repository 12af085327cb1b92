import Verif.Proofs.Lim
import Mathlib.Algebra.Order.Field.Rat

/-!
C107: what the local search of `LiM` is optimal for.
-/
set_option autoImplicit false
set_option linter.unusedSectionVars false
namespace Verif.Lim

variable {K : Type} [Field K] [LinearOrder K] [IsStrictOrderedRing K]

/-- `W` with the edges in `S` turned round; a turned edge gets the coefficient 1. -/
def turn (d : Nat) (W : Mat K) (S : Nat → Nat → Bool) : Mat K := fun a b =>
  if a < d ∧ b < d ∧ W a b ≠ 0 ∧ S a b = true then 0
  else if a < d ∧ b < d ∧ W b a ≠ 0 ∧ S b a = true then 1
  else W a b

/-- No edge between two variables in both directions, and no edge from a variable to itself. -/
def OneWay (d : Nat) (W : Mat K) : Prop := ∀ a b, a < d → b < d → W a b = 0 ∨ W b a = 0

/-- The score looks at the edges only (the "mixed_dag" score is computed from the graph of nonzero entries). -/
def EdgesOnly (d : Nat) (L : Mat K → K) : Prop :=
  ∀ A B : Mat K, (∀ a b, a < d → b < d → (A a b ≠ 0 ↔ B a b ≠ 0)) → L A = L B

/-! ### Helper lemmas -/

theorem fold_best (d : Nat) (hTol : K) (L : Mat K → K) (l : List (Mat K)) : ∀ s : K × Mat K,
    (l.foldl (tryCand d hTol L) s).1 ≤ s.1 ∧
    ∀ V ∈ l, hVal d V < hTol → (l.foldl (tryCand d hTol L) s).1 ≤ L V := by
  induction l with
  | nil => intro s; exact ⟨le_refl _, by simp⟩
  | cons x l ih =>
    intro s
    obtain ⟨h1, h2⟩ := ih (tryCand d hTol L s x)
    rw [List.foldl_cons]
    have h3 : (tryCand d hTol L s x).1 ≤ s.1 ∧ (hVal d x < hTol → (tryCand d hTol L s x).1 ≤ L x) := by
      unfold tryCand
      split
      · rename_i hc
        exact ⟨hc.1.le, fun _ => le_refl _⟩
      · rename_i hc
        refine ⟨le_refl _, fun hx => ?_⟩
        by_contra hlt
        exact hc ⟨not_le.1 hlt, hx⟩
    refine ⟨h1.trans h3.1, fun V hV hh => ?_⟩
    rcases List.mem_cons.1 hV with rfl | hV
    · exact h1.trans (h3.2 hh)
    · exact h2 V hV hh

theorem sameSupport_iff (d : Nat) (A B : Mat K) :
    sameSupport d A B = true ↔ ∀ a b, a < d → b < d → (A a b ≠ 0 ↔ B a b ≠ 0) := by
  unfold sameSupport
  simp only [List.all_eq_true, List.mem_range, beq_iff_eq, decide_eq_decide]
  exact ⟨fun h a b ha hb => h a ha b hb, fun h a ha b hb => h a b ha hb⟩

/-- If a stage ends with the edges it started from, nothing has been accepted. -/
theorem same_of_support (d : Nat) (hTol : K) (L : Mat K → K) (hL : EdgesOnly d L) (W : Mat K) (l : List (Mat K))
    (s : K × Mat K) (hs : Acc d hTol L W s) (h : sameSupport d W (l.foldl (tryCand d hTol L) s).2 = true) :
    s.2 = W := by
  have h1 := acc_fold d hTol L W l s hs
  have h2 : L W = L (l.foldl (tryCand d hTol L) s).2 := hL _ _ ((sameSupport_iff _ _ _).1 h)
  rcases h1 with ⟨h3, _⟩ | ⟨_, h3, _⟩
  · rcases hs with ⟨_, h4⟩ | ⟨h4, h5, _⟩
    · exact h4
    · have := (fold_best d hTol L l s).1
      rw [h3, h4] at this
      exact absurd h5 (not_lt.2 this)
  · rw [← h2] at h3
    exact absurd h3 (lt_irrefl _)

theorem directions_best (d : Nat) (hTol : K) (L : Mat K → K) (W : Mat K) (s : List Bool)
    (hs : s ∈ settings (whereNe d W).length) (hh : hVal d (reverseEdges W (whereNe d W) s) < hTol) :
    (directions d hTol L W).1 ≤ L (reverseEdges W (whereNe d W) s) := by
  have hfirst : ∀ m, ∃ t, settings m = List.replicate m false :: t := by
    intro m
    induction m with
    | zero => exact ⟨[], rfl⟩
    | succ m ih =>
      obtain ⟨t, ht⟩ := ih
      refine ⟨t.map (fun s => false :: s) ++ (settings m).map (fun s => true :: s), ?_⟩
      simp only [settings]
      rw [ht]
      rfl
  obtain ⟨t, ht⟩ := hfirst (whereNe d W).length
  unfold directions
  rw [ht] at hs ⊢
  rw [List.drop_one, List.tail_cons]
  obtain ⟨h1, h2⟩ := fold_best d hTol L (t.map (reverseEdges W (whereNe d W))) (L W, W)
  rcases List.mem_cons.1 hs with rfl | hs
  · have : ∀ (I : List (Nat × Nat)), reverseEdges W I (List.replicate I.length false) = W := by
      intro I
      induction I with
      | nil => rfl
      | cons p I ih =>
        obtain ⟨a, b⟩ := p
        simp only [List.length_cons, List.replicate_succ, reverseEdges, Bool.false_eq_true, if_false]
        exact ih
    rw [this]
    exact h1
  · exact h2 _ (List.mem_map.2 ⟨s, hs, rfl⟩) hh

theorem mem_settings (m : Nat) : ∀ s : List Bool, s.length = m → s ∈ settings m := by
  induction m with
  | zero => intro s hs; rw [List.length_eq_zero_iff] at hs; subst hs; simp [settings]
  | succ m ih =>
    intro s hs
    cases s with
    | nil => simp at hs
    | cons x s =>
      simp only [List.length_cons, Nat.add_right_cancel_iff] at hs
      simp only [settings, List.mem_append, List.mem_map]
      cases x with
      | false => exact Or.inl ⟨s, ih s hs, rfl⟩
      | true => exact Or.inr ⟨s, ih s hs, rfl⟩

theorem reverseEdges_eq (S : Nat → Nat → Bool) : ∀ (I : List (Nat × Nat)) (V : Mat K), I.Nodup →
    (∀ p ∈ I, (p.2, p.1) ∉ I) → ∀ a b, reverseEdges V I (I.map (fun p => S p.1 p.2)) a b =
      if (a, b) ∈ I ∧ S a b = true then 0 else if (b, a) ∈ I ∧ S b a = true then 1 else V a b := by
  intro I
  induction I with
  | nil => intro V _ _ a b; simp [reverseEdges]
  | cons p I ih =>
    intro V hnd hsw a b
    obtain ⟨x, y⟩ := p
    rw [List.nodup_cons] at hnd
    have hxy : (y, x) ∉ (x, y) :: I := hsw (x, y) (by simp)
    have hsw' : ∀ p ∈ I, (p.2, p.1) ∉ I := fun p hp h => hsw p (List.mem_cons_of_mem _ hp) (List.mem_cons_of_mem _ h)
    have hne : ¬ (y = x ∧ x = y) := fun h => hxy (by rw [h.1]; simp)
    have hyx : (y, x) ∉ I := fun h => hxy (List.mem_cons_of_mem _ h)
    simp only [List.map_cons, reverseEdges]
    rw [ih _ hnd.2 hsw']
    simp only [List.mem_cons, Prod.mk.injEq]
    by_cases hab : a = x ∧ b = y
    · obtain ⟨rfl, rfl⟩ := hab
      simp only [hnd.1, hyx, false_and, if_false, true_and, and_self, true_or]
      have h3 : ¬ ((b = a ∧ a = b) ∨ False) := by simpa using hne
      by_cases hS : S a b = true
      · simp only [hS, if_true]
        unfold setAt
        rw [if_neg (fun h => hne ⟨h.2, h.1⟩), if_pos ⟨rfl, rfl⟩]
      · have hS' : S a b = false := by simpa using hS
        simp only [hS', Bool.false_eq_true, if_false]
        rw [if_neg]
        rintro ⟨h, _⟩
        exact h3 h
    · by_cases hba : b = x ∧ a = y
      · obtain ⟨rfl, rfl⟩ := hba
        simp only [hnd.1, hyx, false_and, if_false, and_self, true_and, or_false, hab]
        by_cases hS : S b a = true
        · simp only [hS, if_true]
          unfold setAt
          rw [if_pos ⟨rfl, rfl⟩]
        · have hS' : S b a = false := by simpa using hS
          simp only [hS', Bool.false_eq_true, if_false]
      · simp only [hab, hba, false_or]
        have : (if S x y = true then setAt (setAt V x y 0) y x 1 else V) a b = V a b := by
          split
          · unfold setAt
            rw [if_neg (fun h => hba ⟨h.2, h.1⟩), if_neg hab]
          · rfl
        rw [this]

theorem whereNe_nodup (d : Nat) (W : Mat K) : (whereNe d W).Nodup := by
  unfold whereNe
  refine List.Nodup.filter _ ?_
  rw [List.nodup_flatMap]
  constructor
  · intro i _
    exact List.nodup_range.map (fun a b h => (Prod.mk.inj h).2)
  · refine List.nodup_range.imp (fun {a b} h => ?_)
    intro x hx hy
    rw [List.mem_map] at hx hy
    obtain ⟨_, _, rfl⟩ := hx
    obtain ⟨_, _, h2⟩ := hy
    exact h (Prod.mk.inj h2).1.symm

theorem reverse_turn (d : Nat) (W : Mat K) (hW : OneWay d W) (S : Nat → Nat → Bool) :
    reverseEdges W (whereNe d W) ((whereNe d W).map (fun p => S p.1 p.2)) = turn d W S := by
  funext a b
  rw [reverseEdges_eq S _ W (whereNe_nodup d W)]
  · unfold turn
    simp only [mem_whereNe, and_assoc]
    by_cases ha : a < d <;> by_cases hb : b < d <;> simp [ha, hb]
  · intro p hp hq
    rw [mem_whereNe] at hp hq
    rcases hW p.1 p.2 hp.1 hp.2.1 with h | h
    · exact hp.2.2 h
    · exact hq.2.2 h

theorem oneWay_set (d : Nat) (W : Mat K) (hW : OneWay d W) (x y : Nat) (v : K)
    (h : x ≠ y ∧ W y x = 0 ∨ v = 0) : OneWay d (setAt W x y v) := by
  intro a b ha hb
  unfold setAt
  rcases h with ⟨hne, h⟩ | rfl
  · by_cases h1 : a = x ∧ b = y
    · obtain ⟨rfl, rfl⟩ := h1
      right
      rw [if_neg (fun h => hne h.2), h]
    · by_cases h2 : b = x ∧ a = y
      · obtain ⟨rfl, rfl⟩ := h2
        left
        rw [if_neg h1, h]
      · rw [if_neg h1, if_neg h2]; exact hW a b ha hb
  · rcases hW a b ha hb with h | h
    · left; split
      · rfl
      · exact h
    · right; split
      · rfl
      · exact h

theorem oneWay_turn (d : Nat) (W : Mat K) (hW : OneWay d W) (S : Nat → Nat → Bool) : OneWay d (turn d W S) := by
  intro a b ha hb
  unfold turn
  simp only [ha, hb, true_and]
  rcases hW a b ha hb with h | h
  · by_cases hba : W b a = 0
    · left; simp [h, hba]
    · cases hS : S b a with
      | true => right; simp [hba]
      | false => left; simp [h]
  · by_cases hab : W a b = 0
    · left; simp [h, hab]
    · cases hS : S a b with
      | true => left; simp [hab]
      | false => right; simp [h]

/-! ### C107 -/

/-- **C107.** The score of the result is at most the score of the global solution with any set of edges turned round, as
long as that graph passes the acyclicity test: all orientations of the skeleton are covered. -/
theorem C107_best_orientation (d : Nat) (hTol : K) (L : Mat K → K) (W : Mat K) (hW : OneWay d W) (S : Nat → Nat → Bool)
    (hh : hVal d (turn d W S) < hTol) : L (localSearch d hTol L W) ≤ L (turn d W S) := by
  have hend := acc_localSearch d hTol L W
  have h1 : (directions d hTol L W).1 ≤ L (turn d W S) := by
    rw [← reverse_turn d W hW S] at hh ⊢
    exact directions_best d hTol L W _ (mem_settings _ _ (by simp)) hh
  have h2 : ∀ s, (prune d hTol L W s).1 ≤ s.1 := by
    intro s
    unfold prune
    split
    · simp only
      split
      · exact (fold_best _ _ _ _ _).1
      · exact (fold_best _ _ _ _ _).1.trans (fold_best _ _ _ _ _).1
    · exact le_refl _
  have h3 : ∀ s, (addEdges d hTol L W s).1 ≤ s.1 := by
    intro s
    unfold addEdges
    split
    · simp only
      split
      · exact (fold_best _ _ _ _ _).1
      · exact (fold_best _ _ _ _ _).1.trans (fold_best _ _ _ _ _).1
    · exact le_refl _
  have h4 : L (localSearch d hTol L W) = (addEdges d hTol L W (prune d hTol L W (directions d hTol L W))).1 := by
    unfold localSearch
    rcases hend with ⟨h, h'⟩ | ⟨h, _⟩
    · rw [h, h']
    · exact h.symm
  rw [h4]
  exact (h3 _).trans ((h2 _).trans h1)

/-- **C107.** With more than two variables and more than `d - 1` edges in the global solution, no acyclic graph obtained by
deleting one of its edges has a smaller score than the result. -/
theorem C107_best_deletion (d : Nat) (hTol : K) (L : Mat K → K) (hL : EdgesOnly d L) (W : Mat K) (hd : 2 < d)
    (hm : d - 1 < (whereNe d W).length) (a b : Nat) (ha : a < d) (hb : b < d) (hab : W a b ≠ 0)
    (hh : hVal d (fun x y => if x = a ∧ y = b then 0 else W x y) < hTol) :
    L (localSearch d hTol L W) ≤ L (fun x y => if x = a ∧ y = b then 0 else W x y) := by
  have hmem : ∀ V : Mat K, V = W → setAt W a b 0 ∈ deleteCands V (whereNe d V) := by
    rintro _ rfl
    exact List.mem_map.2 ⟨(a, b), (mem_whereNe _ _ _).2 ⟨ha, hb, hab⟩, rfl⟩
  have h1 : Acc d hTol L W (directions d hTol L W) := acc_fold d hTol L W _ _ (Or.inl ⟨rfl, rfl⟩)
  have h2 : (prune d hTol L W (directions d hTol L W)).1 ≤ L (setAt W a b 0) := by
    generalize directions d hTol L W = s at h1
    unfold prune
    rw [if_pos ⟨hd, hm⟩]
    simp only
    split
    · rename_i hs
      have := same_of_support d hTol L hL W _ s h1 hs
      exact (fold_best _ _ _ _ _).2 _ (hmem _ this) hh
    · exact (fold_best _ _ _ _ _).2 _ (hmem _ rfl) hh
  have h3 : ∀ s, (addEdges d hTol L W s).1 ≤ s.1 := by
    intro s
    unfold addEdges
    split
    · simp only
      split
      · exact (fold_best _ _ _ _ _).1
      · exact (fold_best _ _ _ _ _).1.trans (fold_best _ _ _ _ _).1
    · exact le_refl _
  have h4 : L (localSearch d hTol L W) = (addEdges d hTol L W (prune d hTol L W (directions d hTol L W))).1 := by
    unfold localSearch
    rcases acc_localSearch d hTol L W with ⟨h, h'⟩ | ⟨h, _⟩
    · rw [h, h']
    · exact h.symm
  rw [h4]
  exact (h3 _).trans h2

/-- **C107.** With more than two variables and fewer than `d (d - 1) / 2` edges in the global solution, no acyclic graph
obtained by adding an edge between non-adjacent variables has a smaller score than the result. -/
theorem C107_best_addition (d : Nat) (hTol : K) (L : Mat K → K) (hL : EdgesOnly d L) (W : Mat K) (hd : 2 < d)
    (hm : 2 * (whereNe d W).length < d * (d - 1)) (a b : Nat) (ha : a < d) (hb : b < d) (hne : a ≠ b) (hab : W a b = 0)
    (hba : W b a = 0) (hh : hVal d (fun x y => if x = a ∧ y = b then 1 else W x y) < hTol) :
    L (localSearch d hTol L W) ≤ L (fun x y => if x = a ∧ y = b then 1 else W x y) := by
  have hmem : ∀ V : Mat K, V = W → setAt W a b 1 ∈ addCands d V := by
    rintro _ rfl
    refine List.mem_map.2 ⟨(a, b), ?_, rfl⟩
    unfold addIdx
    rw [List.mem_filter, decide_eq_true_eq]
    refine ⟨?_, ?_⟩
    · rw [List.mem_flatMap]
      exact ⟨a, List.mem_range.2 ha, List.mem_map.2 ⟨b, List.mem_range.2 hb, rfl⟩⟩
    · simp [hab, hba, eye, hne]
  have h1 : Acc d hTol L W (prune d hTol L W (directions d hTol L W)) := by
    have h1 : Acc d hTol L W (directions d hTol L W) := acc_fold d hTol L W _ _ (Or.inl ⟨rfl, rfl⟩)
    generalize directions d hTol L W = s at h1
    unfold prune
    split
    · simp only
      split
      · exact acc_fold d hTol L W _ _ h1
      · exact acc_fold d hTol L W _ _ (acc_fold d hTol L W _ _ h1)
    · exact h1
  have h4 : L (localSearch d hTol L W) = (addEdges d hTol L W (prune d hTol L W (directions d hTol L W))).1 := by
    unfold localSearch
    rcases acc_localSearch d hTol L W with ⟨h, h'⟩ | ⟨h, _⟩
    · rw [h, h']
    · exact h.symm
  rw [h4]
  generalize prune d hTol L W (directions d hTol L W) = s at h1
  unfold addEdges
  rw [if_pos ⟨hd, hm⟩]
  simp only
  split
  · rename_i hs
    have := same_of_support d hTol L hL W _ s h1 hs
    exact (fold_best _ _ _ _ _).2 _ (hmem _ this) hh
  · exact (fold_best _ _ _ _ _).2 _ (hmem _ rfl) hh

/-- **C107.** The local search never creates an edge in both directions, whatever the tolerance is. -/
theorem C107_one_way (d : Nat) (hTol : K) (L : Mat K → K) (W : Mat K) (hW : OneWay d W) :
    OneWay d (localSearch d hTol L W) := by
  have hdel : ∀ V : Mat K, OneWay d V → ∀ V' ∈ deleteCands V (whereNe d V), OneWay d V' := by
    intro V hV V' hV'
    obtain ⟨p, _, rfl⟩ := List.mem_map.1 hV'
    exact oneWay_set d V hV _ _ _ (Or.inr rfl)
  have hadd : ∀ V : Mat K, OneWay d V → ∀ V' ∈ addCands d V, OneWay d V' := by
    intro V hV V' hV'
    obtain ⟨p, hp, rfl⟩ := List.mem_map.1 hV'
    refine oneWay_set d V hV _ _ _ (Or.inl ?_)
    unfold addIdx at hp
    rw [List.mem_filter, decide_eq_true_eq, List.mem_flatMap] at hp
    obtain ⟨⟨i, hi, hp1⟩, hp2⟩ := hp
    obtain ⟨j, hj, rfl⟩ := List.mem_map.1 hp1
    rw [List.mem_range] at hi hj
    by_cases hij : i = j
    · subst hij
      rcases hV i i hi hi with h | h <;> simp [h, eye] at hp2
    · refine ⟨hij, ?_⟩
      simp only [eye, if_neg hij, add_zero] at hp2
      rcases hV i j hi hj with h | h
      · simpa [h] using hp2
      · exact h
  have h1 : OneWay d (directions d hTol L W).2 := by
    unfold directions
    refine fold_matrix d hTol L (OneWay d) _ _ hW ?_
    intro V hV
    obtain ⟨s, _, rfl⟩ := List.mem_map.1 hV
    have : ∀ (I : List (Nat × Nat)) (s : List Bool) (V : Mat K), (∀ p ∈ I, p.1 ≠ p.2) → OneWay d V →
        OneWay d (reverseEdges V I s) := by
      intro I
      induction I with
      | nil => intro s V _ hV; cases s <;> exact hV
      | cons p I ih =>
        intro s V hI hV
        obtain ⟨a, b⟩ := p
        cases s with
        | nil => exact hV
        | cons r s =>
          simp only [reverseEdges]
          refine ih s _ (fun p hp => hI p (List.mem_cons_of_mem _ hp)) ?_
          split
          · have hab : a ≠ b := hI (a, b) (by simp)
            refine oneWay_set d _ (oneWay_set d V hV _ _ _ (Or.inr rfl)) _ _ _ (Or.inl ⟨hab.symm, ?_⟩)
            unfold setAt
            rw [if_pos ⟨rfl, rfl⟩]
          · exact hV
    refine this _ _ _ ?_ hW
    intro p hp h
    rw [mem_whereNe] at hp
    rcases hW p.1 p.2 hp.1 hp.2.1 with h' | h'
    · exact hp.2.2 h'
    · rw [h] at h'; rw [h] at hp; exact hp.2.2 h'
  have h2 : OneWay d (prune d hTol L W (directions d hTol L W)).2 := by
    generalize directions d hTol L W = s at h1
    unfold prune
    split
    · simp only
      have h3 := fold_matrix d hTol L (OneWay d) _ s h1 (hdel _ h1)
      split
      · exact h3
      · exact fold_matrix d hTol L (OneWay d) _ _ h3 (hdel _ hW)
    · exact h1
  unfold localSearch
  generalize prune d hTol L W (directions d hTol L W) = s at h2
  unfold addEdges
  split
  · simp only
    have h3 := fold_matrix d hTol L (OneWay d) _ s h2 (hadd _ h2)
    split
    · exact h3
    · exact fold_matrix d hTol L (OneWay d) _ _ h3 (hadd _ hW)
  · exact h2

/-! ### Concrete cases -/

/-- Three variables, edges `0 → 1 → 2`. -/
def chainW : Mat ℚ := fun a b => if (a = 0 ∧ b = 1) ∨ (a = 1 ∧ b = 2) then 1 / 2 else 0

/-- A score that counts, with different weights, the edges it dislikes. -/
def someScore (V : Mat ℚ) : ℚ := (if V 0 1 ≠ 0 then 2 else 0) + (if V 1 0 ≠ 0 then 1 else 0) + (if V 0 2 ≠ 0 then -1 else 0)

example : EdgesOnly 3 someScore := by
  intro A B h
  unfold someScore
  simp only [h 0 1 (by decide) (by decide), h 1 0 (by decide) (by decide), h 0 2 (by decide) (by decide)]

example : OneWay 3 chainW := by
  intro a b _ _
  unfold chainW
  by_cases h : (a = 0 ∧ b = 1) ∨ (a = 1 ∧ b = 2)
  · right
    rw [if_neg]
    omega
  · left
    rw [if_neg h]

/-- The first edge is turned and `0 → 2` is added (two edges, so additions are tried: `2 * 2 < 3 * 2`). -/
example : (whereNe 3 chainW).length = 2 ∧
    (whereNe 3 (localSearch 3 (1 / 100) someScore chainW)) = [(0, 2), (1, 0), (1, 2)] := by
  decide +kernel

/-- Three variables, edges `0 → 1 → 2` and `0 → 2`. -/
def fullW : Mat ℚ := fun a b => if a < b ∧ b < 3 then 1 / 2 else 0

/-- A score that wants `0 → 1` and no edge between `0` and `2`. -/
def sparseScore (V : Mat ℚ) : ℚ := (if V 0 1 ≠ 0 then -2 else 0) + (if V 0 2 ≠ 0 then 1 else 0) + (if V 2 0 ≠ 0 then 1 else 0)

/-- Three edges on three variables: deletions are tried (`3 - 1 < 3`), and the edge `0 → 2` goes. -/
example : 3 - 1 < (whereNe 3 fullW).length ∧ fullW 0 2 ≠ 0 ∧
    hVal 3 (fun x y => if x = 0 ∧ y = 2 then 0 else fullW x y) < 1 / 100 ∧
    whereNe 3 (localSearch 3 (1 / 100) sparseScore fullW) = [(0, 1), (1, 2)] := by
  decide +kernel

end Verif.Lim
