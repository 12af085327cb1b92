import Verif.Model.Camuv
import Verif.Proofs.Rcd

set_option linter.unusedSectionVars false
set_option autoImplicit false
namespace Verif.Camuv

variable {K : Type} [LinearOrder K] [Zero K] [One K]

open Rcd (Anc combos addAncestors mem_combos pair_sublist_range size)

/-- The user's prior knowledge excludes `j` as a cause of `i`. -/
def Forbidden (c : Cfg K) (j i : Nat) : Prop := ∃ ps, c.prior = some ps ∧ (j, i) ∈ ps

theorem mem_mkPk (x k : Nat) : ∀ (ps : List (Nat × Nat)) (d : Nat → Option (List Nat)),
    x ∈ (mkPk ps d k).getD [] ↔ (x, k) ∈ ps ∨ x ∈ (d k).getD []
  | [], d => by simp [mkPk]
  | (a, b) :: ps, d => by
    rw [mkPk, mem_mkPk x k ps]
    simp only [List.mem_cons, Prod.mk.injEq]
    by_cases hk : k = b
    · subst hk
      simp only [if_true, and_true]
      cases h : d k with
      | none => simp; tauto
      | some l => simp; tauto
    · simp [hk]

theorem checkPrior_false {c : Cfg K} {xjs : List Nat} {xi : Nat} :
    checkPrior c xjs xi = false ↔ ∀ xj ∈ xjs, ¬ Forbidden c xj xi := by
  unfold checkPrior Forbidden
  cases hp : c.prior with
  | none => simp
  | some ps =>
    simp only [List.any_eq_false]
    refine forall_congr' fun x => forall_congr' fun _ => not_congr ?_
    have := mem_mkPk x xi ps (fun _ => none)
    simp only [Option.getD_none, List.not_mem_nil, or_false] at this
    simp only [Option.some.injEq, exists_eq_left']
    rw [← this]
    cases mkPk ps (fun _ => none) xi with
    | none => simp
    | some l => simp

theorem mem_rest {V : List Nat} {a x : Nat} : x ∈ rest V a ↔ x ∈ V ∧ x ≠ a := by
  simp [rest, List.mem_filter]

theorem mem_addAncestors {M : Anc} {x : Nat} {l : List Nat} {i j : Nat} :
    j ∈ addAncestors M x l i ↔ j ∈ M i ∨ (i = x ∧ j ∈ l) := by
  unfold addAncestors
  split
  · rename_i he
    rw [Finset.mem_union, List.mem_toFinset]
    simp [he]
  · rename_i he
    simp [he]

theorem mem_foldl_neigh {c : Cfg K} {i j : Nat} : ∀ (l : List (List Nat)) (N : Anc), (∀ p ∈ l, p.length = 2) →
    (j ∈ l.foldl (neighStep c) N i ↔ j ∈ N i ∨ ([i, j] ∈ l ∧ isInd c (c.val i ∅ [(j, ∅)]) = false) ∨
      ([j, i] ∈ l ∧ isInd c (c.val j ∅ [(i, ∅)]) = false))
  | [], N, _ => by simp
  | p :: l, N, h => by
    obtain ⟨a, b, rfl⟩ := List.length_eq_two.1 (h p (by simp))
    have hstep : j ∈ neighStep c N [a, b] i ↔ j ∈ N i ∨ (isInd c (c.val a ∅ [(b, ∅)]) = false ∧
        ((i = a ∧ j = b) ∨ (i = b ∧ j = a))) := by
      unfold neighStep
      simp only [List.getD_cons_zero, List.getD_cons_succ]
      split
      · rename_i ht; simp [ht]
      · rename_i ht
        rw [mem_addAncestors, mem_addAncestors]
        simp only [ht, List.mem_singleton]
        tauto
    rw [List.foldl_cons, mem_foldl_neigh l _ (fun p hp => h p (by simp [hp])), hstep]
    simp only [List.mem_cons, List.cons.injEq, and_true]
    constructor
    · rintro ((h | ⟨h, (⟨rfl, rfl⟩ | ⟨rfl, rfl⟩)⟩) | h | h)
      · exact Or.inl h
      · exact Or.inr (Or.inl ⟨Or.inl ⟨rfl, rfl⟩, h⟩)
      · exact Or.inr (Or.inr ⟨Or.inl ⟨rfl, rfl⟩, h⟩)
      · exact Or.inr (Or.inl ⟨Or.inr h.1, h.2⟩)
      · exact Or.inr (Or.inr ⟨Or.inr h.1, h.2⟩)
    · rintro (h | ⟨(⟨rfl, rfl⟩ | h1), h2⟩ | ⟨(⟨rfl, rfl⟩ | h1), h2⟩)
      · exact Or.inl (Or.inl h)
      · exact Or.inl (Or.inr ⟨h2, Or.inl ⟨rfl, rfl⟩⟩)
      · exact Or.inr (Or.inl ⟨h1, h2⟩)
      · exact Or.inl (Or.inr ⟨h2, Or.inr ⟨rfl, rfl⟩⟩)
      · exact Or.inr (Or.inr ⟨h1, h2⟩)

theorem mem_neighborhoods {c : Cfg K} {d i j : Nat} : j ∈ neighborhoods c d i ↔
    (i < j ∧ j < d ∧ isInd c (c.val i ∅ [(j, ∅)]) = false) ∨ (j < i ∧ i < d ∧ isInd c (c.val j ∅ [(i, ∅)]) = false) := by
  unfold neighborhoods
  rw [mem_foldl_neigh _ _ (fun p hp => (mem_combos.1 hp).2)]
  simp only [Finset.notMem_empty, false_or, mem_combos, pair_sublist_range, List.length_cons, List.length_nil, and_true,
    and_assoc]

theorem neighborhoods_symm {c : Cfg K} {d i j : Nat} (h : j ∈ neighborhoods c d i) : i ∈ neighborhoods c d j := by
  rw [mem_neighborhoods] at h ⊢
  exact h.symm

/-- A sublist `[a, b]` or `[b, a]` for any two different members. -/
theorem pair_sublist : ∀ {V : List Nat} {a b : Nat}, a ∈ V → b ∈ V → a ≠ b → [a, b].Sublist V ∨ [b, a].Sublist V
  | [], _, _, h, _, _ => by simp at h
  | x :: V, a, b, ha, hb, hne => by
    rcases List.mem_cons.1 ha with ha' | ha
    · rcases List.mem_cons.1 hb with hb' | hb
      · exact absurd (ha'.trans hb'.symm) hne
      · rw [ha']; exact Or.inl ((List.singleton_sublist.2 hb).cons_cons _)
    · rcases List.mem_cons.1 hb with hb' | hb
      · rw [hb']; exact Or.inr ((List.singleton_sublist.2 ha).cons_cons _)
      · exact (pair_sublist ha hb hne).imp (fun h => h.cons _) (fun h => h.cons _)

theorem unidentified_spec {P : Anc} {V : List Nat} (h : unidentified P V = true) {a b : Nat} (ha : a ∈ V) (hb : b ∈ V)
    (hne : a ≠ b) : a ∉ P b ∧ b ∉ P a := by
  have key : ∀ x y, [x, y].Sublist V → x ∉ P y ∧ y ∉ P x := by
    intro x y hxy
    have := List.all_eq_true.1 h [x, y] (mem_combos.2 ⟨hxy, rfl⟩)
    simpa [and_comm] using this
  rcases pair_sublist ha hb hne with h' | h'
  · exact key a b h'
  · exact (key b a h').symm

/-- A candidate child that the loop tests. -/
def Eligible (c : Cfg K) (N : Anc) (V : List Nat) (i : Nat) : Prop :=
  i ∈ V ∧ ∀ p ∈ V, p ≠ i → ¬ Forbidden c p i ∧ p ∈ N i

theorem childStep_cases (c : Cfg K) (P N : Anc) (V : List Nat) (st : K × Option Nat) {child : Nat} (hm : child ∈ V) :
    (childStep c P N V st child = st ∧ (Eligible c N V child → isIndBy c (childVal c P V child) st.1 = false)) ∨
    (Eligible c N V child ∧ ∃ v, childVal c P V child = some v ∧ isIndBy c (some v) st.1 = true ∧
      childStep c P N V st child = (v, some child)) := by
  unfold childStep
  cases hp : checkPrior c (rest V child) child with
  | true =>
    simp only [if_true]
    refine Or.inl ⟨trivial, fun he => ?_⟩
    have : checkPrior c (rest V child) child = false :=
      checkPrior_false.2 (fun x hx => (he.2 x (mem_rest.1 hx).1 (mem_rest.1 hx).2).1)
    rw [hp] at this; cases this
  | false =>
    cases hc : checkCorr N child (rest V child) with
    | false =>
      simp only [Bool.false_eq_true, if_false, Bool.not_false, if_true]
      refine Or.inl ⟨trivial, fun he => ?_⟩
      have : checkCorr N child (rest V child) = true :=
        List.all_eq_true.2 (fun x hx => by simpa using (he.2 x (mem_rest.1 hx).1 (mem_rest.1 hx).2).2)
      rw [hc] at this; cases this
    | true =>
      simp only [Bool.false_eq_true, if_false, Bool.not_true]
      have hel : Eligible c N V child := by
        refine ⟨hm, fun p hp' hne => ⟨checkPrior_false.1 hp p (mem_rest.2 ⟨hp', hne⟩), ?_⟩⟩
        simpa using List.all_eq_true.1 hc p (mem_rest.2 ⟨hp', hne⟩)
      cases hv : childVal c P V child with
      | none => exact Or.inl ⟨rfl, fun _ => rfl⟩
      | some v =>
        simp only
        split
        · rename_i hi; exact Or.inr ⟨hel, v, rfl, hi, rfl⟩
        · rename_i hi; exact Or.inl ⟨rfl, fun _ => by simpa using hi⟩

theorem isIndBy_trans {c : Cfg K} {v : Option K} {a b : K} (h1 : isIndBy c v a = false) (h2 : isIndBy c (some b) a = true) :
    isIndBy c v b = false := by
  cases v with
  | none => rfl
  | some v =>
    unfold isIndBy at h1 h2 ⊢
    simp only at h1 h2 ⊢
    split at h1 <;> rename_i hh
    · rw [if_pos hh] at h2 ⊢
      simp only [decide_eq_false_iff_not, decide_eq_true_eq, not_lt] at *
      exact h1.trans h2.le
    · rw [if_neg hh] at h2 ⊢
      simp only [decide_eq_false_iff_not, decide_eq_true_eq, not_lt] at *
      exact h2.le.trans h1

theorem foldl_childStep_inv (c : Cfg K) (P N : Anc) (V : List Nat) : ∀ (l : List Nat) (st : K × Option Nat),
    (∀ x ∈ l, x ∈ V) → (∀ i, st.2 = some i → Eligible c N V i ∧ childVal c P V i = some st.1) →
    ∀ i, (l.foldl (childStep c P N V) st).2 = some i →
      Eligible c N V i ∧ childVal c P V i = some (l.foldl (childStep c P N V) st).1
  | [], _, _, h => h
  | x :: l, st, hl, h => by
    rw [List.foldl_cons]
    refine foldl_childStep_inv c P N V l _ (fun y hy => hl y (by simp [hy])) ?_
    rcases childStep_cases c P N V st (hl x (by simp)) with ⟨he, _⟩ | ⟨hel, v, hv, _, he⟩
    · rw [he]; exact h
    · rw [he]
      intro i hi
      simp only [Option.some.injEq] at hi
      subst hi
      exact ⟨hel, hv⟩

theorem foldl_childStep (c : Cfg K) (P N : Anc) (V : List Nat) : ∀ (l : List Nat) (st : K × Option Nat), (∀ x ∈ l, x ∈ V) →
    (l.foldl (childStep c P N V) st = st ∨ isIndBy c (some (l.foldl (childStep c P N V) st).1) st.1 = true) ∧
    (∀ x ∈ l, Eligible c N V x → isIndBy c (childVal c P V x) (l.foldl (childStep c P N V) st).1 = false)
  | [], st, _ => by simp
  | x :: l, st, hl => by
    obtain ⟨h1, h2⟩ := foldl_childStep c P N V l (childStep c P N V st x) (fun y hy => hl y (by simp [hy]))
    rw [List.foldl_cons]
    generalize hr : l.foldl (childStep c P N V) (childStep c P N V st x) = r at *
    rcases childStep_cases c P N V st (hl x (by simp)) with ⟨he, hn⟩ | ⟨hel, v, hv, hi, he⟩
    · rw [he] at h1
      refine ⟨h1, ?_⟩
      intro y hy hely
      rcases List.mem_cons.1 hy with rfl | hy
      · rcases h1 with h1 | h1
        · rw [h1]; exact hn hely
        · exact isIndBy_trans (hn hely) h1
      · exact h2 y hy hely
    · rw [he] at h1
      have irr : isIndBy c (some v) v = false := by
        unfold isIndBy; simp
      have hx : isIndBy c (some r.1) st.1 = true ∧ isIndBy c (some v) r.1 = false := by
        rcases h1 with h1 | h1
        · rw [h1]; exact ⟨hi, irr⟩
        · refine ⟨?_, isIndBy_trans irr h1⟩
          by_contra hc
          have := isIndBy_trans (by simpa using hc) hi
          rw [this] at h1; cases h1
      refine ⟨Or.inr hx.1, ?_⟩
      intro y hy hely
      rcases List.mem_cons.1 hy with rfl | hy
      · rw [hv]; exact hx.2
      · exact h2 y hy hely

/-- `getChild` returns an eligible child of the best value, which passes the threshold when the flag is set. -/
theorem getChild_spec {c : Cfg K} (hiter : ∀ l, (c.iter l).Perm l) {P N : Anc} {V : List Nat} {i : Nat} {ok : Bool}
    (h : getChild c P N V = (some i, ok)) :
    Eligible c N V i ∧ ∃ v, childVal c P V i = some v ∧ ok = isInd c (some v) ∧
      ∀ x ∈ V, Eligible c N V x → isIndBy c (childVal c P V x) v = false := by
  unfold getChild at h
  simp only [Prod.mk.injEq] at h
  have hsub : ∀ x ∈ c.iter V, x ∈ V := fun x hx => (hiter V).mem_iff.1 hx
  obtain ⟨h1, h2⟩ := foldl_childStep_inv c P N V (c.iter V) (if c.hsic then 0 else 1, none) hsub
    (by intro i hi; cases hi) i h.1
  refine ⟨h1, _, h2, ?_, ?_⟩
  · rw [← h.2]
    unfold isInd isIndBy
    cases c.hsic <;> simp
  · intro x hx hel
    exact (foldl_childStep c P N V (c.iter V) _ hsub).2 x ((hiter V).mem_iff.2 hx) hel

/-- Why `j` was recorded as a parent of `i` in the search: a set `V` of variables and parents `P0` known at that time. -/
def Justified (c : Cfg K) (N : Anc) (d maxnum : Nat) (P : Anc) (i j : Nat) : Prop :=
  ∃ (V : List Nat) (P0 : Anc) (v : K), V.Sublist (List.range d) ∧ 2 ≤ V.length ∧ V.length ≤ max 2 maxnum ∧ i ∈ V ∧ j ∈ V ∧
    j ≠ i ∧ (∀ k, P0 k ⊆ P k) ∧ childVal c P0 V i = some v ∧ isInd c (some v) = true ∧
    (∀ p ∈ V, p ≠ i → isInd c (c.val i (P0 i) [(p, P0 p)]) = false) ∧
    (∀ x ∈ V, Eligible c N V x → isIndBy c (childVal c P0 V x) v = false)

theorem Justified.mono {c : Cfg K} {N : Anc} {d maxnum : Nat} {P P' : Anc} (h : ∀ i, P i ⊆ P' i) {i j : Nat}
    (hj : Justified c N d maxnum P i j) : Justified c N d maxnum P' i j := by
  obtain ⟨V, P0, v, h1, h2, h3, h4, h5, h6, h7, h8⟩ := hj
  exact ⟨V, P0, v, h1, h2, h3, h4, h5, h6, fun k => (h7 k).trans (h k), h8⟩

structure Good (c : Cfg K) (N : Anc) (d maxnum : Nat) (P : Anc) : Prop where
  range : ∀ i j, j ∈ P i → i < d ∧ j < d
  asymm : ∀ i j, j ∈ P i → i ∉ P j
  nbr : ∀ i j, j ∈ P i → j ∈ N i
  prior : ∀ i j, j ∈ P i → ¬ Forbidden c j i
  just : ∀ i j, j ∈ P i → Justified c N d maxnum P i j

theorem Good.size_le {c : Cfg K} {N : Anc} {d maxnum : Nat} {P : Anc} (h : Good c N d maxnum P) : size d P ≤ d * d := by
  unfold size
  calc ∑ i ∈ Finset.range d, (P i).card ≤ ∑ _i ∈ Finset.range d, d := by
        refine Finset.sum_le_sum fun i _ => ?_
        have : P i ⊆ Finset.range d := fun j hj => Finset.mem_range.2 (h.range i j hj).2
        simpa using Finset.card_le_card this
    _ = d * d := by simp

/-- Either nothing happens, or the flag is set and the parents grow. -/
def Step (d : Nat) (s s' : Anc × Bool) : Prop :=
  s' = s ∨ (s'.2 = true ∧ size d s.1 < size d s'.1)

theorem Step.trans {d : Nat} {a b e : Anc × Bool} (h1 : Step d a b) (h2 : Step d b e) : Step d a e := by
  rcases h1 with rfl | ⟨h1, h1'⟩
  · exact h2
  · rcases h2 with rfl | ⟨h2, h2'⟩
    · exact Or.inr ⟨h1, h1'⟩
    · exact Or.inr ⟨h2, h1'.trans h2'⟩

theorem body_step {c : Cfg K} (hiter : ∀ l, (c.iter l).Perm l) {N : Anc} {d maxnum t : Nat} {s : Anc × Bool} {V : List Nat}
    (hs : Good c N d maxnum s.1) (hV : V ∈ combos t (List.range d)) (ht1 : 2 ≤ t) (ht2 : t ≤ max 2 maxnum) :
    Good c N d maxnum (body c N s V).1 ∧ Step d s (body c N s V) := by
  obtain ⟨hsub, hlen⟩ := mem_combos.1 hV
  have hnd : V.Nodup := hsub.nodup List.nodup_range
  have hlt : ∀ x ∈ V, x < d := fun x hx => List.mem_range.1 (hsub.subset hx)
  have hrefl : Good c N d maxnum s.1 ∧ Step d s s := ⟨hs, Or.inl rfl⟩
  unfold body
  split
  · exact hrefl
  rename_i hun
  have hun' : unidentified s.1 V = true := by simpa using hun
  cases hg : getChild c s.1 N V with
  | mk ch ok =>
    cases ch with
    | none => exact hrefl
    | some i =>
      simp only
      split
      · exact hrefl
      rename_i hok
      split
      · exact hrefl
      rename_i hdep
      obtain ⟨hel, v, hv, hokv, hbest⟩ := getChild_spec hiter hg
      have hind : isInd c (some v) = true := by rw [← hokv]; simpa using hok
      have hdep' : ∀ p ∈ V, p ≠ i → isInd c (c.val i (s.1 i) [(p, s.1 p)]) = false := by
        intro p hp hne
        have := List.all_eq_true.1 (by simpa using hdep : dependentWithout c s.1 (rest V i) i = true) p
          (mem_rest.2 ⟨hp, hne⟩)
        simpa using this
      have hsubM : ∀ k, s.1 k ⊆ addAncestors s.1 i (rest V i) k := by
        intro k x hx; exact mem_addAncestors.2 (Or.inl hx)
      obtain ⟨p, hp, hpi⟩ : ∃ p ∈ V, p ≠ i := by
        by_contra hc
        push Not at hc
        have h1 : V.toFinset ⊆ {i} := fun x hx => Finset.mem_singleton.2 (hc x (List.mem_toFinset.1 hx))
        have h2 := Finset.card_le_card h1
        rw [List.toFinset_card_of_nodup hnd, Finset.card_singleton] at h2
        omega
      have hne : rest V i ≠ [] := fun h => by
        have := mem_rest.2 ⟨hp, hpi⟩
        rw [h] at this; simp at this
      refine ⟨⟨?_, ?_, ?_, ?_, ?_⟩, Or.inr ⟨by simp [hne], ?_⟩⟩
      · intro a b hb
        rcases mem_addAncestors.1 hb with h | ⟨rfl, h⟩
        · exact hs.range a b h
        · exact ⟨hlt _ hel.1, hlt _ (mem_rest.1 h).1⟩
      · intro a b hb ha
        rcases mem_addAncestors.1 hb with h | ⟨rfl, h⟩
        · rcases mem_addAncestors.1 ha with h' | ⟨rfl, h'⟩
          · exact hs.asymm a b h h'
          · exact (unidentified_spec hun' (mem_rest.1 h').1 hel.1 (mem_rest.1 h').2).2 h
        · rcases mem_addAncestors.1 ha with h' | ⟨rfl, h'⟩
          · exact (unidentified_spec hun' (mem_rest.1 h).1 hel.1 (mem_rest.1 h).2).2 h'
          · exact (mem_rest.1 h).2 rfl
      · intro a b hb
        rcases mem_addAncestors.1 hb with h | ⟨rfl, h⟩
        · exact hs.nbr a b h
        · exact (hel.2 b (mem_rest.1 h).1 (mem_rest.1 h).2).2
      · intro a b hb
        rcases mem_addAncestors.1 hb with h | ⟨rfl, h⟩
        · exact hs.prior a b h
        · exact (hel.2 b (mem_rest.1 h).1 (mem_rest.1 h).2).1
      · intro a b hb
        rcases mem_addAncestors.1 hb with h | ⟨rfl, h⟩
        · exact (hs.just a b h).mono hsubM
        · exact ⟨V, s.1, v, hsub, by omega, by omega, hel.1, (mem_rest.1 h).1, (mem_rest.1 h).2, hsubM, hv, hind, hdep',
            hbest⟩
      · unfold size
        refine Finset.sum_lt_sum (fun k _ => Finset.card_le_card (hsubM k)) ⟨i, Finset.mem_range.2 (hlt _ hel.1), ?_⟩
        refine Finset.card_lt_card ⟨hsubM i, fun hc => ?_⟩
        exact (unidentified_spec hun' hp hel.1 hpi).1 (hc (mem_addAncestors.2 (Or.inr ⟨rfl, mem_rest.2 ⟨hp, hpi⟩⟩)))

theorem foldl_step {c : Cfg K} (hiter : ∀ l, (c.iter l).Perm l) {N : Anc} {d maxnum t : Nat} (ht1 : 2 ≤ t)
    (ht2 : t ≤ max 2 maxnum) : ∀ (Vs : List (List Nat)) (s : Anc × Bool), (∀ V ∈ Vs, V ∈ combos t (List.range d)) →
      Good c N d maxnum s.1 → Good c N d maxnum (Vs.foldl (body c N) s).1 ∧ Step d s (Vs.foldl (body c N) s)
  | [], s, _, hs => ⟨hs, Or.inl rfl⟩
  | V :: Vs, s, hV, hs => by
    obtain ⟨h1, h2⟩ := body_step hiter hs (hV V (by simp)) ht1 ht2
    obtain ⟨h3, h4⟩ := foldl_step hiter ht1 ht2 Vs (body c N s V) (fun W hW => hV W (by simp [hW])) h1
    exact ⟨h3, h2.trans h4⟩

theorem loop_terminates {c : Cfg K} (hiter : ∀ l, (c.iter l).Perm l) {N : Anc} {d maxnum : Nat} : ∀ (fuel t : Nat) (P : Anc),
    Good c N d maxnum P → 2 ≤ t → t ≤ max 2 maxnum →
    (d * d - size d P) * max 2 maxnum + (max 2 maxnum - t) < fuel →
    ∃ P', loop c N d maxnum fuel t P = some P' ∧ Good c N d maxnum P'
  | 0, _, _, _, _, _, h => by omega
  | fuel + 1, t, P, hs, ht1, ht2, h => by
    obtain ⟨hg, hf⟩ := foldl_step hiter ht1 ht2 (combos t (List.range d)) (P, false) (fun _ h => h) hs
    unfold loop
    simp only
    change Good c N d maxnum (pass c N d t P).1 at hg
    change Step d (P, false) (pass c N d t P) at hf
    rcases hf with hf | ⟨hc, hM⟩
    · rw [hf]
      simp only [Bool.false_eq_true, if_false]
      split
      · exact ⟨P, rfl, hs⟩
      · exact loop_terminates hiter fuel (t + 1) P hs (by omega) (by omega) (by omega)
    · rw [hc, if_pos rfl]
      refine loop_terminates hiter fuel 2 _ hg le_rfl (by omega) ?_
      have h1 := hg.size_le
      have h2 : d * d - size d P ≥ d * d - size d (pass c N d t P).1 + 1 := by
        simp only at hM; omega
      have h3 := Nat.mul_le_mul_right (max 2 maxnum) h2
      rw [Nat.add_mul, one_mul] at h3
      omega

theorem loop_fuel {c : Cfg K} {N : Anc} {d maxnum : Nat} : ∀ {fuel t : Nat} {P P' : Anc}, loop c N d maxnum fuel t P = some P' →
    loop c N d maxnum (fuel + 1) t P = some P'
  | 0, _, _, _, h => by simp [loop] at h
  | fuel + 1, t, P, P', h => by
    unfold loop at h ⊢
    simp only at h ⊢
    split
    · rename_i hc; rw [if_pos hc] at h; exact loop_fuel h
    · rename_i hc
      rw [if_neg hc] at h
      split
      · rename_i hl; rw [if_pos hl] at h; exact h
      · rename_i hl; rw [if_neg hl] at h; exact loop_fuel h

/-! ### Pruning -/

theorem pruneStep_subset (c : Cfg K) (P : Anc) (i k : Nat) : pruneStep c P i k ⊆ P k := by
  unfold pruneStep
  split
  · rename_i h; rw [h]; exact Finset.filter_subset _ _
  · exact Finset.Subset.refl _

theorem foldl_prune_subset (c : Cfg K) : ∀ (l : List Nat) (P : Anc) (k : Nat), l.foldl (pruneStep c) P k ⊆ P k
  | [], _, _ => Finset.Subset.refl _
  | i :: l, P, k => (foldl_prune_subset c l _ k).trans (pruneStep_subset c P i k)

theorem foldl_prune_notMem (c : Cfg K) {k : Nat} : ∀ (l : List Nat) (P : Anc), k ∉ l → l.foldl (pruneStep c) P k = P k
  | [], _, _ => rfl
  | i :: l, P, h => by
    rw [List.mem_cons, not_or] at h
    rw [List.foldl_cons, foldl_prune_notMem c l _ h.2]
    unfold pruneStep
    rw [if_neg h.1]

/-- A parent survives exactly if the residuals are dependent, where for `j < i` the already pruned set of `j` is used. -/
theorem mem_prune {c : Cfg K} {d : Nat} {P : Anc} {i j : Nat} (hi : i < d) (hij : i ≠ j) :
    j ∈ prune c d P i ↔ j ∈ P i ∧ isInd c (c.val i (P i \ {j}) [(j, if j < i then prune c d P j else P j)]) = false := by
  have hsplit : ∀ m, m ≤ d → List.range d = List.range m ++ (List.range (d - m)).map (m + ·) := by
    intro m hm
    rw [← List.range_add]; congr 1; omega
  unfold prune
  have key : ∀ k, k ≤ i → (List.range d).foldl (pruneStep c) P k =
      ((List.range (i + 1)).foldl (pruneStep c) P) k := by
    intro k hk
    rw [hsplit (i + 1) (by omega), List.foldl_append, foldl_prune_notMem]
    intro h
    obtain ⟨x, _, hx⟩ := List.mem_map.1 h
    omega
  have e1 : ∀ k, i ≤ k → (List.range i).foldl (pruneStep c) P k = P k := by
    intro k hk
    rw [foldl_prune_notMem]
    intro h; have := List.mem_range.1 h; omega
  rw [key i le_rfl, List.range_succ, List.foldl_append, List.foldl_cons, List.foldl_nil]
  have e2 : ((List.range i).foldl (pruneStep c) P) j = if j < i then (List.range d).foldl (pruneStep c) P j else P j := by
    split
    · rename_i hj
      rw [key j (by omega), List.range_succ, List.foldl_append, List.foldl_cons, List.foldl_nil]
      generalize (List.range i).foldl (pruneStep c) P = Q
      unfold pruneStep
      rw [if_neg hij.symm]
    · exact e1 j (by omega)
  have ps : ∀ Q : Anc, j ∈ pruneStep c Q i i ↔ j ∈ Q i ∧ isInd c (c.val i (Q i \ {j}) [(j, Q j)]) = false := by
    intro Q
    unfold pruneStep
    rw [if_pos rfl, Finset.mem_filter]
  rw [ps, e1 i le_rfl, e2]

end Verif.Camuv
