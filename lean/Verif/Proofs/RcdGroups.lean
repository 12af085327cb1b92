import Verif.Proofs.RcdPopulation
import Verif.Spec.PooledTests

/-!
The search of RCD over an arbitrary strict order of "ancestors", from a list of facts about the tests
(`SearchFacts`), and these facts for tests pooled over several populations.
-/
set_option linter.unusedSectionVars false
set_option autoImplicit false
namespace Verif.Rcd
open Finset

section search
variable {n : Nat} {A : Nat → Nat → Prop} {t : Tests}

/-- What the search needs to know about the tests to find exactly the relation `A`. -/
structure SearchFacts (n : Nat) (A : Nat → Nat → Prop) (t : Tests) : Prop where
  lt : ∀ j i, A j i → j < n ∧ i < n
  trans : ∀ a b c, A a b → A b c → A a c
  irrefl : ∀ a, ¬ A a a
  nonGauss : ∀ H x, H ⊆ range n → x < n → x ∉ H → t.nonGauss H x = true
  symm : ∀ H a b, H ⊆ range n → a < n → b < n → t.corr H a H b = t.corr H b H a
  sound : ∀ H i j, i < n → j < n → i ≠ j → (∀ h ∈ H, A h j) → t.corr H i H j = true → t.indep H i [j] = true → A j i
  pair : ∀ H i j, A j i → (∀ h, h ∈ H ↔ A h j) →
    t.corr H i H j = true ∧ t.indep H i [j] = true ∧ t.indep H j [i] = false
  triple : ∀ (H : Finset Nat) (U : List Nat) (i j k : Nat), (∀ x ∈ U, x < n) → (∀ x, x ∈ U ↔ x = i ∨ x = j ∨ x = k) →
    i ≠ j → i ≠ k → j ≠ k → (∀ h, h ∈ H ↔ A h i ∧ A h j ∧ A h k) →
    (∀ x ∈ U, ∀ y ∈ U, x ≠ y → t.corr H x H y = true) → t.indep H i (others U i) = true → ¬ A j i →
    A k j ∧ t.indep H j (others U j) = true

theorem SearchFacts.asymm (F : SearchFacts n A t) {a b : Nat} (h : A a b) : ¬ A b a :=
  fun h' => F.irrefl a (F.trans _ _ _ h h')

/-- Everything recorded is in the relation. -/
def SoundR (A : Nat → Nat → Prop) (M : Anc) : Prop := ∀ i j, j ∈ M i → A j i

/-- Exactly the relation is recorded. -/
def ExactR (A : Nat → Nat → Prop) (M : Anc) : Prop := ∀ i j, j ∈ M i ↔ A j i

/-- Pairs visited with the right set of common ancestors have been recorded. -/
def HistR (A : Nat → Nat → Prop) (s : St) : Prop := ∀ i j, A j i → ∀ U H, (U, H) ∈ s.hist →
  U = [i, j] ∨ U = [j, i] → (∀ h, h ∈ H ↔ A h j) → j ∈ s.M i

theorem body_soundR (F : SearchFacts n A t) {s : St} (hs : SoundR A s.M) {U : List Nat} (hU : U ∈ combos 2 (List.range n)) :
    SoundR A (body t s U).M := by
  obtain ⟨a, b, rfl, hab, hbn⟩ := pair_of_sublist hU
  have han : a < n := hab.trans hbn
  rcases body_cases t s [a, b] with ⟨h, _⟩ | ⟨_, hcor, hM, _⟩
  · rw [h]; exact hs
  · rw [hM]
    intro i j hj
    rcases mem_applySink.1 hj with h | ⟨hsk, hjU, hji⟩
    · exact hs i j h
    · have hi : i ∈ sinkSet t s.M (commonAncestors s.M [a, b]) [a, b] := by rw [hsk]; simp
      obtain ⟨hiU, _, hind⟩ := mem_sinkSet.1 hi
      have hmem : ∀ h ∈ commonAncestors s.M [a, b], ∀ x ∈ [a, b], A h x := by
        intro h hh x hx
        exact hs x h ((mem_commonAncestors (by simp)).1 hh x hx)
      have hHn : commonAncestors s.M [a, b] ⊆ range n := fun h hh => mem_range.2 (F.lt _ _ (hmem h hh a (by simp))).1
      have hc : t.corr (commonAncestors s.M [a, b]) a (commonAncestors s.M [a, b]) b = true := by
        simpa [allCorrelated, combos] using hcor
      have ho := others_pair hab.ne
      simp only [List.mem_cons, List.not_mem_nil, or_false] at hiU hjU
      rcases hiU with rfl | rfl <;> rcases hjU with rfl | rfl
      · exact absurd rfl hji
      · rw [ho.1] at hind
        exact F.sound _ _ _ han hbn hab.ne (fun h hh => hmem h hh _ (by simp)) hc hind
      · rw [ho.2] at hind
        refine F.sound _ _ _ hbn han hab.ne' (fun h hh => hmem h hh _ (by simp)) ?_ hind
        rwa [F.symm _ _ _ hHn hbn han]
      · exact absurd rfl hji

/-- Visiting a pair on which the tests give the right answers records it. -/
theorem visit_pairR (F : SearchFacts n A t) {s : St}
    {i j : Nat} (hs : i ∉ s.M j) (hji : A j i) {U : List Nat} (hU : U = [i, j] ∨ U = [j, i])
    (hH : ∀ h, h ∈ commonAncestors s.M U ↔ A h j)
    (hl : s.lookup U ≠ some (commonAncestors s.M U)) :
    j ∈ (body t s U).M i := by
  have hij : i ≠ j := by rintro rfl; exact F.irrefl _ hji
  have hcl : commonAncestors s.M U ⊆ range n := fun h hh => mem_range.2 (F.lt _ _ ((hH h).1 hh)).1
  obtain ⟨h1, h3, h4⟩ := F.pair _ i j hji hH
  have h2 := h1
  rw [F.symm _ _ _ hcl (F.lt _ _ hji).2 (F.lt _ _ hji).1] at h2
  have hUm : ∀ x, x ∈ U ↔ x = i ∨ x = j := by
    intro x
    rcases hU with rfl | rfl
    · simp
    · simp [or_comm]
  rcases body_cases t s U with ⟨_, h | ⟨x, hx, hg⟩ | hc⟩ | ⟨_, _, hM, _⟩
  · exact absurd h hl
  · exfalso
    have hxn : x < n := by
      rcases (hUm x).1 hx with rfl | rfl
      · exact (F.lt _ _ hji).2
      · exact (F.lt _ _ hji).1
    rw [F.nonGauss _ _ hcl hxn] at hg
    · cases hg
    · intro hxH
      have := (hH x).1 hxH
      rcases (hUm x).1 hx with rfl | rfl
      · exact F.asymm this hji
      · exact F.irrefl _ this
  · exfalso
    rcases hU with rfl | rfl
    · simp [allCorrelated, combos, h1] at hc
    · simp [allCorrelated, combos, h2] at hc
  · rw [hM, mem_applySink]
    by_cases hrec : j ∈ s.M i
    · exact Or.inl hrec
    · right
      refine ⟨?_, (hUm j).2 (Or.inr rfl), hij.symm⟩
      have hoi : others U i = [j] := by
        rcases hU with rfl | rfl
        · exact (others_pair hij).1
        · exact (others_pair hij.symm).2
      have hoj : others U j = [i] := by
        rcases hU with rfl | rfl
        · exact (others_pair hij).2
        · exact (others_pair hij.symm).1
      have hea : existsAncestor s.M i [j] = false := by
        by_contra hne
        rw [Bool.not_eq_false, existsAncestor_true] at hne
        rcases hne with ⟨x, hx, hxi⟩ | hall
        · simp only [List.mem_singleton] at hx
          subst hx
          exact hs hxi
        · exact hrec (hall j (by simp))
      unfold sinkSet
      have hfi : (!existsAncestor s.M i (others U i) && t.indep (commonAncestors s.M U) i (others U i)) = true := by
        rw [hoi, hea, h3]; rfl
      have hfj : (!existsAncestor s.M j (others U j) && t.indep (commonAncestors s.M U) j (others U j)) = false := by
        rw [hoj, h4, Bool.and_false]
      rcases hU with rfl | rfl
      · simp only [List.filter_cons, List.filter_nil, hfi, hfj]; rfl
      · simp only [List.filter_cons, List.filter_nil, hfi, hfj]; rfl

theorem body_histOkR (F : SearchFacts n A t) {s : St} (hs : SoundR A s.M)
    (hh : HistR A s) (U : List Nat) : HistR A (body t s U) := by
  intro i j hji V H hV hVU hH
  rcases body_cases t s U with ⟨h, _⟩ | ⟨hng, hcor, hM, hhist⟩
  · rw [h] at hV ⊢
    exact hh i j hji V H hV hVU hH
  · rw [hhist, List.mem_cons] at hV
    rcases hV with hV | hV
    · obtain ⟨rfl, rfl⟩ := Prod.mk.inj hV
      by_cases hl : s.lookup V = some (commonAncestors s.M V)
      · exact body_mono t s V i (hh i j hji V _ (lookup_mem hl) hVU hH)
      · exact visit_pairR F (fun h => F.asymm hji (hs _ _ h)) hji hVU hH hl
    · exact body_mono t s U i (hh i j hji V H hV hVU hH)

theorem complete_of_unchangedR (F : SearchFacts n A t) {maxNum : Nat} (hm : 1 ≤ maxNum) {s : St}
    (hg : Good t n maxNum s.M) (hs : SoundR A s.M) (hh : HistR A s) (hu : (pass t n 1 s).M = s.M) :
    ExactR A s.M := by
  classical
  have hvis := visits_of_unchanged (n := n) (t := t) (P := fun s => SoundR A s.M ∧ HistR A s) le_rfl hm
    (combos 2 (List.range n)) { s with changed := false } (fun _ h => h)
    (fun U hU s hs => ⟨body_soundR F hs.1 hU, body_histOkR F hs.1 hs.2 U⟩) hg ⟨hs, hh⟩ hu
  refine fun i j => ⟨hs i j, ?_⟩
  by_contra hcon
  have hcon : ∃ j i, A j i ∧ j ∉ s.M i := by
    by_contra hc
    push Not at hc hcon
    exact hcon.2 (hc j i hcon.1)
  obtain ⟨j0, i0, h0, hn0⟩ := hcon
  obtain ⟨j, hj, hmin⟩ := exists_minimal (E := A) (fun i hi => by
    have : ∀ b, Relation.TransGen A i b → A i b := by
      intro b hb
      induction hb with
      | single h => exact h
      | tail _ h ih => exact F.trans _ _ _ ih h
    exact F.irrefl i (this i hi))
    ((List.range n).filter (fun j => decide (∃ i, A j i ∧ j ∉ s.M i)))
    (List.ne_nil_of_mem (List.mem_filter.2 ⟨List.mem_range.2 (F.lt _ _ h0).1, by rw [decide_eq_true_eq]; exact ⟨i0, h0, hn0⟩⟩))
  simp only [List.mem_filter, List.mem_range, decide_eq_true_eq] at hj hmin
  obtain ⟨hjn, i, hji, hni⟩ := hj
  have hrec : ∀ a, A a j → ∀ i, A a i → a ∈ s.M i := by
    intro a ha i hai
    by_contra hc
    exact hmin a ⟨(F.lt _ _ ha).1, i, hai, hc⟩ ha
  have hin := (F.lt _ _ hji).2
  have hij : i ≠ j := by rintro rfl; exact F.irrefl _ hji
  obtain ⟨U, hU, hUm⟩ : ∃ U, (U = [i, j] ∨ U = [j, i]) ∧ U ∈ combos 2 (List.range n) := by
    rcases lt_or_gt_of_ne hij with h | h
    · exact ⟨[i, j], Or.inl rfl, mem_combos.2 ⟨pair_sublist_range.2 ⟨h, hjn⟩, rfl⟩⟩
    · exact ⟨[j, i], Or.inr rfl, mem_combos.2 ⟨pair_sublist_range.2 ⟨h, hin⟩, rfl⟩⟩
  obtain ⟨s', ⟨hs', hh'⟩, hM, hb⟩ := hvis U hUm
  have hM : s'.M = s.M := hM
  have hH : ∀ h, h ∈ commonAncestors s'.M U ↔ A h j := by
    intro h
    rw [mem_commonAncestors (by rcases hU with rfl | rfl <;> simp), hM]
    constructor
    · intro ha
      exact hs j h (ha j (by rcases hU with rfl | rfl <;> simp))
    · intro ha x hx
      have : x = i ∨ x = j := by
        rcases hU with rfl | rfl
        · simpa using hx
        · simpa [or_comm] using hx
      rcases this with rfl | rfl
      · exact hrec h ha _ (F.trans _ _ _ ha hji)
      · exact hrec h ha _ ha
  have hfin : j ∈ s'.M i := by
    by_cases hl : s'.lookup U = some (commonAncestors s'.M U)
    · exact hh' i j hji U _ (lookup_mem hl) hU hH
    · have := visit_pairR F (fun h => F.asymm hji (hs' _ _ h)) hji hU hH hl
      rw [hb] at this
      rw [hM]; exact this
  rw [hM] at hfin
  exact hni hfin

/-- With exact ancestors, visiting three variables changes nothing. -/
theorem triple_unchangedR (F : SearchFacts n A t) {s : St} (hM : ExactR A s.M) {U : List Nat} (hU : U ∈ combos 3 (List.range n)) :
    (body t s U).M = s.M := by
  obtain ⟨hsub, hlen⟩ := mem_combos.1 hU
  have hnd : U.Nodup := hsub.nodup List.nodup_range
  have hUn : ∀ x ∈ U, x < n := fun x hx => List.mem_range.1 (hsub.subset hx)
  have hne : U ≠ [] := by rintro rfl; simp at hlen
  rcases body_cases t s U with ⟨h, _⟩ | ⟨_, hcor, hb, _⟩
  · rw [h]
  · rw [hb]
    have hHn : commonAncestors s.M U ⊆ range n := fun h hh => mem_range.2 (by
      obtain ⟨a, l, rfl⟩ := List.exists_cons_of_ne_nil hne
      exact (F.lt _ _ ((hM a h).1 ((mem_commonAncestors hne).1 hh a (by simp)))).1)
    have hcor' : ∀ x ∈ U, ∀ y ∈ U, x ≠ y →
        t.corr (commonAncestors s.M U) x (commonAncestors s.M U) y = true := by
      have hp : ∀ a b, [a, b].Sublist U → t.corr (commonAncestors s.M U) a (commonAncestors s.M U) b = true := by
        intro a b hab
        have := List.all_eq_true.1 hcor [a, b] (mem_combos.2 ⟨hab, rfl⟩)
        simpa using this
      obtain ⟨a, b, c, rfl⟩ := List.length_eq_three.1 hlen
      have hab := hp a b (by simp)
      have hac' := hp a c ((List.Sublist.cons b (List.Sublist.refl [c])).cons_cons a)
      have hbc := hp b c ((List.Sublist.refl [b, c]).cons a)
      have hn : a < n ∧ b < n ∧ c < n := ⟨hUn a (by simp), hUn b (by simp), hUn c (by simp)⟩
      intro x hx y hy hxy
      simp only [List.mem_cons, List.not_mem_nil, or_false] at hx hy
      rcases hx with rfl | rfl | rfl <;> rcases hy with rfl | rfl | rfl <;>
        first
          | exact absurd rfl hxy
          | assumption
          | (rw [F.symm _ _ _ hHn (by omega) (by omega)]; assumption)
    funext i
    refine Subset.antisymm ?_ fun j hj => mem_applySink.2 (Or.inl hj)
    intro j hj
    rcases mem_applySink.1 hj with h | ⟨hsk, _, _⟩
    · exact h
    · exfalso
      have hi : i ∈ sinkSet t s.M (commonAncestors s.M U) U := by rw [hsk]; simp
      obtain ⟨hiU, hea, hind⟩ := mem_sinkSet.1 hi
      obtain ⟨_, j', hj', hjM⟩ := existsAncestor_false hea
      obtain ⟨hjU, hji⟩ := mem_others.1 hj'
      obtain ⟨k, hk, hik, hjk⟩ : ∃ k, (∀ x, x ∈ U ↔ x = i ∨ x = j' ∨ x = k) ∧ i ≠ k ∧ j' ≠ k := by
        obtain ⟨a, b, c, rfl⟩ := List.length_eq_three.1 hlen
        simp only [List.nodup_cons, List.mem_cons, List.not_mem_nil, or_false, not_or, not_false_eq_true,
          List.nodup_nil, and_true] at hnd
        simp only [List.mem_cons, List.not_mem_nil, or_false] at hiU hjU ⊢
        rcases hiU with rfl | rfl | rfl <;> rcases hjU with rfl | rfl | rfl
        · exact absurd rfl hji
        · exact ⟨c, fun x => Iff.rfl, by omega, by omega⟩
        · exact ⟨b, fun x => by omega, by omega, by omega⟩
        · exact ⟨c, fun x => by omega, by omega, by omega⟩
        · exact absurd rfl hji
        · exact ⟨a, fun x => by omega, by omega, by omega⟩
        · exact ⟨b, fun x => by omega, by omega, by omega⟩
        · exact ⟨a, fun x => by omega, by omega, by omega⟩
        · exact absurd rfl hji
      obtain ⟨hno, _⟩ := existsAncestor_false hea
      have hnA : ¬ A j' i := fun h => hjM ((hM i j').2 h)
      have hkU : k ∈ U := (hk k).2 (Or.inr (Or.inr rfl))
      obtain ⟨hkj, hin⟩ := F.triple (commonAncestors s.M U) U i j' k hUn hk hji.symm hik hjk (by
        intro h
        rw [mem_commonAncestors hne]
        constructor
        · exact fun hh => ⟨(hM i h).1 (hh i hiU), (hM j' h).1 (hh j' hjU), (hM k h).1 (hh k hkU)⟩
        · rintro ⟨h1, h2, h3⟩ x hx
          rcases (hk x).1 hx with rfl | rfl | rfl
          · exact (hM _ h).2 h1
          · exact (hM _ h).2 h2
          · exact (hM _ h).2 h3) hcor' hind hnA
      have hea' : existsAncestor s.M j' (others U j') = false := by
        by_contra hc'
        rw [Bool.not_eq_false, existsAncestor_true] at hc'
        rcases hc' with ⟨x, hx, hxj⟩ | hall
        · have hA := (hM x j').1 hxj
          obtain ⟨hxU, hxj'⟩ := mem_others.1 hx
          rcases (hk x).1 hxU with rfl | rfl | rfl
          · exact hnA hA
          · exact hxj' rfl
          · exact F.asymm hA hkj
        · exact hno j' hj' (hall i (mem_others.2 ⟨hiU, hji.symm⟩))
      have : j' ∈ sinkSet t s.M (commonAncestors s.M U) U := mem_sinkSet.2 ⟨hjU, hea', hin⟩
      rw [hsk] at this
      exact hji (by simpa using this)

theorem triples_unchangedR (F : SearchFacts n A t) : ∀ (Us : List (List Nat)), (∀ U ∈ Us, U ∈ combos 3 (List.range n)) → ∀ s : St,
      ExactR A s.M → (Us.foldl (body t) s).M = s.M
  | [], _, _, _ => rfl
  | U :: Us, h, s, hs => by
    have h1 := triple_unchangedR F hs (h U (by simp))
    rw [List.foldl_cons, triples_unchangedR F Us (fun V hV => h V (by simp [hV])) _ (by rw [h1]; exact hs), h1]

/-- The search with at most two explanatory variables finds exactly the ancestors. -/
theorem loop_exactR (F : SearchFacts n A t) {maxNum : Nat} (hm1 : 1 ≤ maxNum)
    (hm2 : maxNum ≤ 2) : ∀ {fuel l : Nat} {s : St} {M : Anc}, Good t n maxNum s.M →
      (l = 1 ∧ SoundR A s.M ∧ HistR A s) ∨ (l = 2 ∧ maxNum = 2 ∧ ExactR A s.M) →
      loop t n maxNum fuel l s = some M → ExactR A M
  | 0, _, _, _, _, _, h => by simp [loop] at h
  | fuel + 1, l, s, M, hg, hinv, h => by
    unfold loop at h
    simp only at h
    rcases hinv with ⟨rfl, hs, hh⟩ | ⟨rfl, rfl, he⟩
    · obtain ⟨hg', hflag⟩ := pass_step (t := t) (n := n) le_rfl hm1 hg
      have hinv' := foldl_inv (t := t) (P := fun s => SoundR A s.M ∧ HistR A s) (Us := combos 2 (List.range n))
        (fun U hU s hs => ⟨body_soundR F hs.1 hU, body_histOkR F hs.1 hs.2 U⟩)
        { s with changed := false } ⟨hs, hh⟩
      rcases hflag with ⟨hc, hMe⟩ | ⟨hc, _⟩
      · have hex := complete_of_unchangedR F hm1 hg hs hh hMe
        rw [hc] at h
        simp only [Bool.false_eq_true, if_false] at h
        split at h
        · rename_i hlt
          have : maxNum = 2 := by omega
          subst this
          exact loop_exactR F hm1 hm2 hg' (Or.inr ⟨rfl, rfl, by rw [hMe]; exact hex⟩) h
        · simp only [Option.some.injEq] at h
          rw [← h, hMe]; exact hex
      · rw [hc, if_pos rfl] at h
        exact loop_exactR F hm1 hm2 hg' (Or.inl ⟨rfl, hinv'⟩) h
    · obtain ⟨hg', hflag⟩ := pass_step (t := t) (n := n) (l := 2) (by omega) le_rfl hg
      have hMe : (pass t n 2 s).M = s.M :=
        triples_unchangedR F (combos 3 (List.range n)) (fun _ h => h) { s with changed := false } he
      rcases hflag with ⟨hc, _⟩ | ⟨_, hlt⟩
      · rw [hc] at h
        simp only [Bool.false_eq_true, if_false, lt_irrefl] at h
        simp only [Option.some.injEq] at h
        rw [← h, hMe]; exact he
      · rw [hMe] at hlt
        exact absurd hlt (lt_irrefl _)

end search

end Verif.Rcd

namespace Verif.MultiGroup
open Finset Rcd

section pooled
variable {n : Nat} {gs : List Pop} {t : Tests}

theorem CommonOrder.asymm (h : CommonOrder n gs) {a b : Nat} (h1 : Affects n gs a b) : ¬ Affects n gs b a :=
  fun h2 => (h.trans _ _ _ h1 h2).2.2.1 rfl

theorem CommonOrder.acyclic (h : CommonOrder n gs) {g : Pop} (hg : g ∈ gs) : Acyclic (Edge n g.B 0) :=
  fun i hi => (h.anc g hg i i hi).2.2.1 rfl

theorem CommonOrder.source (_ : CommonOrder n gs) {g : Pop} (hg : g ∈ gs) {i k : Nat} (hi : i < n) (hk : k < n)
    (hne : g.X i k ≠ 0) : k = i ∨ Affects n gs k i := by
  by_cases hki : k = i
  · exact Or.inl hki
  · exact Or.inr ⟨hk, hi, hki, g, hg, hne⟩

/-- Closed under the effects of all populations. -/
def ClosedA (n : Nat) (gs : List Pop) (H : Finset Nat) : Prop :=
  (∀ h ∈ H, h < n) ∧ ∀ h ∈ H, ∀ a, Affects n gs a h → a ∈ H

theorem CommonOrder.resid (h : CommonOrder n gs) {g : Pop} (hg : g ∈ gs) {H : Finset Nat} (hH : ClosedA n gs H)
    {v y : Nat → ℚ} (hy : IsResidual n g.σ g.X H v y) {k : Nat} (hk : k < n) : y k = if k ∈ H then 0 else v k :=
  resid_closed (h.valid g hg).1 (h.acyclic hg) (h.valid g hg).2
    ⟨hH.1, fun a ha b hb => hH.2 a ha b (h.anc g hg a b hb)⟩ hy hk

theorem CommonOrder.closed (h : CommonOrder n gs) {g : Pop} (hg : g ∈ gs) {H : Finset Nat} (hH : ClosedA n gs H)
    (v : Nat → ℚ) : IsResidual n g.σ g.X H v (fun k => if k ∈ H then 0 else v k) :=
  closed_residual (h.valid g hg).1 (h.acyclic hg) ⟨hH.1, fun a ha b hb => hH.2 a ha b (h.anc g hg a b hb)⟩ v

theorem pooled_symm (ht : PooledTests n gs t) (H : Finset Nat) (a b : Nat) (hH : H ⊆ range n) (ha : a < n) (hb : b < n) :
    t.corr H a H b = t.corr H b H a := by
  rw [Bool.eq_iff_iff, ht.corr H a H b hH hH ha hb, ht.corr H b H a hH hH hb ha]
  constructor <;>
  · rintro ⟨g, hg, r, s, h1, h2, h3⟩
    exact ⟨g, hg, s, r, h2, h1, by rwa [popCov_comm]⟩

theorem pooled_own (ho : CommonOrder n gs) {g : Pop} (hg : g ∈ gs) {H : Finset Nat} {i j : Nat}
    (hj : j < n) (hH : ∀ h ∈ H, Affects n gs h j) {y : Nat → ℚ} (hy : IsResidual n g.σ g.X H (g.X i) y) :
    y j = g.X i j := by
  obtain ⟨c, hc, _⟩ := hy
  rw [hc j hj, sum_eq_zero, sub_zero]
  intro h hh
  have hhj := hH h hh
  by_contra hne
  have hXh : g.X h j ≠ 0 := fun h0 => hne (by rw [h0, mul_zero])
  rcases ho.source hg hhj.1 hj hXh with rfl | h'
  · exact hhj.2.2.1 rfl
  · exact ho.asymm h' hhj

theorem pooled_sound (ho : CommonOrder n gs) (ht : PooledTests n gs t) (H : Finset Nat) (i j : Nat) (hi : i < n)
    (hj : j < n) (hij : i ≠ j) (hH : ∀ h ∈ H, Affects n gs h j) (hcor : t.corr H i H j = true)
    (hind : t.indep H i [j] = true) : Affects n gs j i := by
  have hHn : H ⊆ range n := fun h hh => mem_range.2 (hH h hh).1
  obtain ⟨g, hg, r', s', hr', hs', hne⟩ := (ht.corr H i H j hHn hHn hi hj).1 hcor
  obtain ⟨y, r, hy, hr, hdis⟩ := (ht.indep H i [j] hHn hi (by simpa using hj)).1 hind g hg
  have hσ := (ho.valid g hg).2
  have hyi := hy i (Or.inl rfl)
  have hyj := hy j (Or.inr (by simp))
  have hjj : y j j = 1 := by rw [pooled_own ho hg hj hH hyj, source_self (ho.valid g hg).1 (ho.acyclic hg) hj]
  have hij' : y i j = g.X i j := pooled_own ho hg hj hH hyi
  have hrj : r j = 0 := by
    rcases hdis j (by simp) j hj with h | h
    · exact h
    · rw [hjj] at h; exact absurd h one_ne_zero
  obtain ⟨c, hc, _⟩ := hr
  have hrc : ∀ k, k < n → r k = y i k - c j * y j k := by
    intro k hk
    rw [hc k hk]; simp
  by_cases hXij : g.X i j = 0
  · have hcj : c j = 0 := by
      have := hrc j hj
      rw [hrj, hjj, hij', hXij] at this
      linarith
    exfalso
    apply hne
    rw [popCov_congr (hr'.unique hσ hyi) (hs'.unique hσ hyj)]
    refine popCov_disjoint fun k hk => ?_
    rcases hdis j (by simp) k hk with h | h
    · rw [hrc k hk, hcj, zero_mul, sub_zero] at h
      exact Or.inl h
    · exact Or.inr h
  · exact ⟨hj, hi, hij.symm, g, hg, hXij⟩

theorem pooled_pair (ho : CommonOrder n gs) (ht : PooledTests n gs t) (H : Finset Nat) (i j : Nat)
    (hji : Affects n gs j i) (hH : ∀ h, h ∈ H ↔ Affects n gs h j) :
    t.corr H i H j = true ∧ t.indep H i [j] = true ∧ t.indep H j [i] = false := by
  obtain ⟨hj, hi, hne, g0, hg0, hX0⟩ := id hji
  have hcl : ClosedA n gs H := ⟨fun h hh => ((hH h).1 hh).1, fun h hh a ha => (hH a).2 (ho.trans _ _ _ ha ((hH h).1 hh))⟩
  have hHn : H ⊆ range n := fun h hh => mem_range.2 (hcl.1 h hh)
  have hjH : j ∉ H := fun h => ((hH j).1 h).2.2.1 rfl
  have hyj : ∀ g ∈ gs, ∀ k, k < n → (if k ∈ H then 0 else g.X j k) = if k = j then (1 : ℚ) else 0 := by
    intro g hg k hk
    by_cases hkj : k = j
    · rw [if_pos hkj, if_neg (by rw [hkj]; exact hjH), hkj, source_self (ho.valid g hg).1 (ho.acyclic hg) hj]
    · rw [if_neg hkj]
      split
      · rfl
      · rename_i hkH
        by_contra hne
        rcases ho.source hg hj hk hne with h | h
        · exact hkj h
        · exact hkH ((hH k).2 h)
  have hcor : t.corr H i H j = true := by
    rw [ht.corr H i H j hHn hHn hi hj]
    refine ⟨g0, hg0, _, _, ho.closed hg0 hcl (g0.X i), ho.closed hg0 hcl (g0.X j), ?_⟩
    rw [popCov_comm, popCov_congr (hyj g0 hg0) (fun _ _ => rfl), popCov_single hj, if_neg hjH]
    exact mul_ne_zero ((ho.valid g0 hg0).2 j hj).ne' hX0
  refine ⟨hcor, ?_, ?_⟩
  · rw [ht.indep H i [j] hHn hi (by simpa using hj)]
    intro g hg
    have hdis : ShareNoSource n (fun k => (if k ∈ H then 0 else g.X i k) - g.X i j * (if k ∈ H then 0 else g.X j k))
        (fun k => if k ∈ H then 0 else g.X j k) := by
      intro k hk
      by_cases hkj : k = j
      · left
        subst hkj
        simp only [hjH, if_false, source_self (ho.valid g hg).1 (ho.acyclic hg) hj]; ring
      · right
        show (if k ∈ H then 0 else g.X j k) = 0
        rw [hyj g hg k hk, if_neg hkj]
    refine ⟨fun u k => if k ∈ H then 0 else g.X u k,
      fun k => (if k ∈ H then 0 else g.X i k) - g.X i j * (if k ∈ H then 0 else g.X j k), ?_,
      ⟨fun _ => g.X i j, ?_, ?_⟩, ?_⟩
    · intro u _
      exact ho.closed hg hcl (g.X u)
    · intro k _; simp
    · intro h hh
      simp only [List.toFinset_cons, List.toFinset_nil, insert_empty_eq, mem_singleton] at hh
      subst hh
      exact popCov_disjoint hdis
    · intro u hu
      simp only [List.mem_singleton] at hu
      subst hu
      exact hdis
  · by_contra hc
    have hind : t.indep H j [i] = true := by simpa using hc
    exact ho.asymm hji (pooled_sound ho ht H j i hj hi hne (fun h hh => ho.trans _ _ _ ((hH h).1 hh) hji)
      (by rwa [pooled_symm ht H j i hHn hj hi]) hind)

theorem pooled_triple (ho : CommonOrder n gs) (ht : PooledTests n gs t) (H : Finset Nat) (U : List Nat) (i j k : Nat)
    (hUn : ∀ x ∈ U, x < n) (hU : ∀ x, x ∈ U ↔ x = i ∨ x = j ∨ x = k) (hij : i ≠ j) (hik : i ≠ k) (hjk : j ≠ k)
    (hHm : ∀ h, h ∈ H ↔ Affects n gs h i ∧ Affects n gs h j ∧ Affects n gs h k)
    (hcor : ∀ x ∈ U, ∀ y ∈ U, x ≠ y → t.corr H x H y = true) (hind : t.indep H i (others U i) = true)
    (hj : ¬ Affects n gs j i) : Affects n gs k j ∧ t.indep H j (others U j) = true := by
  have hiU : i ∈ U := (hU i).2 (Or.inl rfl)
  have hjU : j ∈ U := (hU j).2 (Or.inr (Or.inl rfl))
  have hkU : k ∈ U := (hU k).2 (Or.inr (Or.inr rfl))
  have hin := hUn i hiU
  have hjn := hUn j hjU
  have hkn := hUn k hkU
  have hcl : ClosedA n gs H := by
    refine ⟨fun h hh => ((hHm h).1 hh).1.1, fun h hh a ha => (hHm a).2 ?_⟩
    obtain ⟨h1, h2, h3⟩ := (hHm h).1 hh
    exact ⟨ho.trans _ _ _ ha h1, ho.trans _ _ _ ha h2, ho.trans _ _ _ ha h3⟩
  have hHn : H ⊆ range n := fun h hh => mem_range.2 (hcl.1 h hh)
  have hjH : j ∉ H := fun h => ((hHm j).1 h).2.1.2.2.1 rfl
  have hkH : k ∉ H := fun h => ((hHm k).1 h).2.2.2.2.1 rfl
  have hoi : (others U i).toFinset = {j, k} := by
    ext x
    rw [List.mem_toFinset, mem_others, hU, mem_insert, mem_singleton]
    constructor
    · rintro ⟨rfl | h, h'⟩
      · exact absurd rfl h'
      · exact h
    · rintro (rfl | rfl)
      · exact ⟨Or.inr (Or.inl rfl), hij.symm⟩
      · exact ⟨Or.inr (Or.inr rfl), hik.symm⟩
  have hXij : ∀ g ∈ gs, g.X i j = 0 := by
    intro g hg
    by_contra h
    exact hj ⟨hjn, hin, hij.symm, g, hg, h⟩
  -- the residual of `i` in each population
  have hgrp : ∀ g ∈ gs, ∃ (c : Nat → ℚ) (r : Nat → ℚ),
      (∀ e, e < n → r e = (if e ∈ H then 0 else g.X i e) -
        (c j * (if e ∈ H then 0 else g.X j e) + c k * (if e ∈ H then 0 else g.X k e))) ∧
      (∀ e, e < n → r e = 0 ∨ (if e ∈ H then 0 else g.X j e) = 0) ∧
      (∀ e, e < n → r e = 0 ∨ (if e ∈ H then 0 else g.X k e) = 0) := by
    intro g hg
    obtain ⟨y, r, hy, ⟨c, hc, _⟩, hdis⟩ :=
      (ht.indep H i (others U i) hHn hin (fun u hu => hUn u (mem_others.1 hu).1)).1 hind g hg
    have hyv : ∀ u ∈ U, ∀ e, e < n → y u e = if e ∈ H then 0 else g.X u e := by
      intro u hu e he
      refine ho.resid hg hcl (hy u ?_) he
      by_cases hui : u = i
      · exact Or.inl hui
      · exact Or.inr (mem_others.2 ⟨hu, hui⟩)
    refine ⟨c, r, ?_, ?_, ?_⟩
    · intro e he
      rw [hc e he, hoi, sum_pair hjk, hyv i hiU e he, hyv j hjU e he, hyv k hkU e he]
    · intro e he
      rw [← hyv j hjU e he]
      exact hdis j (mem_others.2 ⟨hjU, hij.symm⟩) e he
    · intro e he
      rw [← hyv k hkU e he]
      exact hdis k (mem_others.2 ⟨hkU, hik.symm⟩) e he
  have heq : ∀ g ∈ gs, ∀ c r : Nat → ℚ,
      (∀ e, e < n → r e = (if e ∈ H then 0 else g.X i e) -
        (c j * (if e ∈ H then 0 else g.X j e) + c k * (if e ∈ H then 0 else g.X k e))) →
      (∀ e, e < n → r e = 0 ∨ (if e ∈ H then 0 else g.X j e) = 0) →
      (∀ e, e < n → r e = 0 ∨ (if e ∈ H then 0 else g.X k e) = 0) →
      c j + c k * g.X k j = 0 ∧ c j * g.X j k + c k = g.X i k := by
    intro g hg c r h1 h2 h3
    have s1 := source_self (ho.valid g hg).1 (ho.acyclic hg) hjn
    have s2 := source_self (ho.valid g hg).1 (ho.acyclic hg) hkn
    have e1 := h1 j hjn
    have e2 := h1 k hkn
    have r1 := h2 j hjn
    have r2 := h3 k hkn
    simp only [hjH, hkH, if_false, s1, s2, one_ne_zero, or_false, hXij g hg] at e1 e2 r1 r2
    rw [r1] at e1
    rw [r2] at e2
    constructor <;> linarith
  -- in the population where `i` and `j` are correlated, `k` is a cause of both
  have hshare : ∀ x ∈ U, ∀ z ∈ U, x ≠ z → ∃ g ∈ gs, ∃ e, e < n ∧ e ∉ H ∧ g.X x e ≠ 0 ∧ g.X z e ≠ 0 := by
    intro x hx z hz hxz
    obtain ⟨g, hg, a, b, ha, hb, hab⟩ := (ht.corr H x H z hHn hHn (hUn x hx) (hUn z hz)).1 (hcor x hx z hz hxz)
    obtain ⟨e, he, h1, h2⟩ := exists_common_source hab
    rw [ho.resid hg hcl ha he] at h1
    rw [ho.resid hg hcl hb he] at h2
    have heH : e ∉ H := fun h => h1 (if_pos h)
    rw [if_neg heH] at h1 h2
    exact ⟨g, hg, e, he, heH, h1, h2⟩
  have hki : Affects n gs k i := by
    by_contra hki
    obtain ⟨g, hg, e, he, heH, h1, h2⟩ := hshare i hiU j hjU hij
    obtain ⟨c, r, hr, hdj, hdk⟩ := hgrp g hg
    obtain ⟨ej, ek⟩ := heq g hg c r hr hdj hdk
    have hXik : g.X i k = 0 := by
      by_contra h
      exact hki ⟨hkn, hin, hik.symm, g, hg, h⟩
    rw [hXik] at ek
    have hprod : g.X k j = 0 ∨ g.X j k = 0 := by
      by_contra h
      push Not at h
      exact ho.asymm ⟨hjn, hkn, hjk, g, hg, h.1⟩ ⟨hkn, hjn, hjk.symm, g, hg, h.2⟩
    have hz : c j = 0 ∧ c k = 0 := by
      rcases hprod with h | h
      · rw [h] at ej
        have h1 : c j = 0 := by linarith
        rw [h1] at ek
        exact ⟨h1, by linarith⟩
      · rw [h] at ek
        have h1 : c k = 0 := by linarith
        rw [h1] at ej
        exact ⟨by linarith, h1⟩
    have := hr e he
    rw [hz.1, hz.2, if_neg heH] at this
    rcases hdj e he with h | h
    · rw [h] at this; exact h1 (by linarith)
    · rw [if_neg heH] at h; exact h2 h
  have hXkj : ∀ g ∈ gs, g.X k j = 0 := by
    intro g hg
    by_contra h
    exact hj (ho.trans _ _ _ ⟨hjn, hkn, hjk, g, hg, h⟩ hki)
  have hkj : Affects n gs k j := by
    obtain ⟨g, hg, e, he, heH, h1, h2⟩ := hshare j hjU k hkU hjk
    rcases ho.source hg hkn he h2 with rfl | hek
    · exact ⟨hkn, hjn, hjk.symm, g, hg, h1⟩
    · rcases ho.source hg hjn he h1 with rfl | hej
      · exact absurd (ho.trans _ _ _ hek hki) hj
      · exact absurd ((hHm e).2 ⟨ho.trans _ _ _ hek hki, hej, hek⟩) heH
  refine ⟨hkj, ?_⟩
  have hoj : (others U j).toFinset = {i, k} := by
    ext x
    rw [List.mem_toFinset, mem_others, hU, mem_insert, mem_singleton]
    constructor
    · rintro ⟨rfl | rfl | h, h'⟩
      · exact Or.inl rfl
      · exact absurd rfl h'
      · exact Or.inr h
    · rintro (rfl | rfl)
      · exact ⟨Or.inl rfl, hij⟩
      · exact ⟨Or.inr (Or.inr rfl), hjk.symm⟩
  have hmo : ∀ u, u ∈ others U j → u = i ∨ u = k := by
    intro u hu
    have : u ∈ (others U j).toFinset := List.mem_toFinset.2 hu
    rw [hoj] at this
    simpa using this
  rw [ht.indep H j (others U j) hHn hjn (fun u hu => hUn u (mem_others.1 hu).1)]
  intro g hg
  obtain ⟨c, r, hr, hdj, hdk⟩ := hgrp g hg
  obtain ⟨ej, ek⟩ := heq g hg c r hr hdj hdk
  have hcj : c j = 0 := by rw [hXkj g hg] at ej; linarith
  have hyk : ∀ e, e < n → (if e ∈ H then 0 else g.X k e) = if e = k then (1 : ℚ) else 0 := by
    intro e he
    by_cases hek : e = k
    · rw [if_pos hek, hek, if_neg hkH, source_self (ho.valid g hg).1 (ho.acyclic hg) hkn]
    · rw [if_neg hek]
      split
      · rfl
      · rename_i heH
        by_contra h
        rcases ho.source hg hkn he h with h | h
        · exact hek h
        · exact heH ((hHm e).2 ⟨ho.trans _ _ _ h hki, ho.trans _ _ _ h hkj, h⟩)
  have hs1 : ShareNoSource n (fun e => (if e ∈ H then 0 else g.X j e) - g.X j k * (if e ∈ H then 0 else g.X k e))
      (fun e => if e ∈ H then 0 else g.X k e) := by
    intro e he
    by_cases hek : e = k
    · left
      show (if e ∈ H then 0 else g.X j e) - g.X j k * (if e ∈ H then 0 else g.X k e) = 0
      rw [hyk e he, if_pos hek, hek, if_neg hkH]; ring
    · right
      show (if e ∈ H then 0 else g.X k e) = 0
      rw [hyk e he, if_neg hek]
  have hs2 : ShareNoSource n (fun e => (if e ∈ H then 0 else g.X j e) - g.X j k * (if e ∈ H then 0 else g.X k e))
      (fun e => if e ∈ H then 0 else g.X i e) := by
    intro e he
    by_cases hek : e = k
    · left
      show (if e ∈ H then 0 else g.X j e) - g.X j k * (if e ∈ H then 0 else g.X k e) = 0
      rw [hyk e he, if_pos hek, hek, if_neg hkH]; ring
    · rcases hdj e he with h | h
      · right
        rw [hr e he, hcj, hyk e he, if_neg hek] at h
        show (if e ∈ H then 0 else g.X i e) = 0
        linarith
      · left
        show (if e ∈ H then 0 else g.X j e) - g.X j k * (if e ∈ H then 0 else g.X k e) = 0
        rw [h, hyk e he, if_neg hek]; ring
  refine ⟨fun u e => if e ∈ H then 0 else g.X u e,
    fun e => (if e ∈ H then 0 else g.X j e) - g.X j k * (if e ∈ H then 0 else g.X k e), ?_,
    ⟨fun h => if h = k then g.X j k else 0, ?_, ?_⟩, ?_⟩
  · intro u _
    exact ho.closed hg hcl (g.X u)
  · intro e _
    rw [hoj, sum_pair hik]
    simp only [hik, if_false, if_true]; ring
  · intro h hh
    rw [hoj] at hh
    rcases mem_insert.1 hh with rfl | hh
    · exact popCov_disjoint hs2
    · rw [mem_singleton] at hh
      subst hh
      exact popCov_disjoint hs1
  · intro u hu
    rcases hmo u hu with rfl | rfl
    · exact hs2
    · exact hs1

/-- Pooled tests over populations with a common order have everything the search needs. -/
theorem pooled_facts (ho : CommonOrder n gs) (ht : PooledTests n gs t) : SearchFacts n (Affects n gs) t where
  lt := fun _ _ h => ⟨h.1, h.2.1⟩
  trans := ho.trans
  irrefl := fun _ h => h.2.2.1 rfl
  nonGauss := ht.nonGauss
  symm := pooled_symm ht
  sound := pooled_sound ho ht
  pair := pooled_pair ho ht
  triple := pooled_triple ho ht

/-! ### Parents and coefficients -/

/-- In each population, regressing a variable on a set of causes that contains all its parents leaves its own error. -/
theorem pooled_regression (ho : CommonOrder n gs) {g : Pop} (hg : g ∈ gs) {i : Nat} (hi : i < n)
    {S : Finset Nat} (hS : ∀ h ∈ S, Affects n gs h i) (hP : ∀ h, h < n → g.B i h ≠ 0 → h ∈ S) :
    IsRegression n g.σ g.X S (g.X i) (fun h => g.B i h) (fun k => if k = i then 1 else 0) := by
  constructor
  · intro k hk
    have hsub : ∑ h ∈ range n, g.B i h * g.X h k = ∑ h ∈ S, g.B i h * g.X h k := by
      symm
      refine sum_subset (fun h hh => mem_range.2 (hS h hh).1) fun h hh hnot => ?_
      by_contra hne
      exact hnot (hP h (mem_range.1 hh) (fun h0 => hne (by rw [h0, zero_mul])))
    have := (ho.valid g hg).1.2 i hi k hk
    rw [if_pos hk, hsub] at this
    show (if k = i then (1 : ℚ) else 0) = _
    rw [this]; ring
  · intro h hh
    refine popCov_disjoint fun k hk => ?_
    by_cases hki : k = i
    · right
      subst hki
      by_contra hne
      rcases ho.source hg (hS h hh).1 hk hne with rfl | h'
      · exact (hS _ hh).2.2.1 rfl
      · exact ho.asymm h' (hS h hh)
    · exact Or.inl (if_neg hki)

/-- With exact ancestors the parent test reports the direct effects of all populations. -/
theorem pooled_isParent (ho : CommonOrder n gs) (ht : PooledTests n gs t) {M : Anc} (hM : ExactR (Affects n gs) M)
    {i j : Nat} (hji : Affects n gs j i) : isParent t M j i = true ↔ ∃ g ∈ gs, g.B i j ≠ 0 := by
  obtain ⟨hj, hi, hne, -⟩ := id hji
  have hMi : M i ⊆ range n := fun h hh => mem_range.2 ((hM i h).1 hh).1
  have hsd : M i \ {j} ⊆ range n := fun h hh => hMi (mem_sdiff.1 hh).1
  have hin : M i ∩ M j ⊆ range n := fun h hh => hMi (mem_inter.1 hh).1
  have hcl : ClosedA n gs (M i ∩ M j) := by
    constructor
    · exact fun h hh => mem_range.1 (hin hh)
    · intro h hh a ha
      rw [mem_inter] at hh ⊢
      exact ⟨(hM i a).2 (ho.trans _ _ _ ha ((hM i h).1 hh.1)), (hM j a).2 (ho.trans _ _ _ ha ((hM j h).1 hh.2))⟩
  unfold isParent
  rw [ht.corr _ _ _ _ hin hsd hj hi]
  refine exists_congr fun g => and_congr_right fun hg => ?_
  have hX := (ho.valid g hg).1
  have hσ := (ho.valid g hg).2
  have hac := ho.acyclic hg
  have hw := ho.closed hg hcl (g.X j)
  have hwv : ∀ k, k < n → (if k ∈ M i ∩ M j then 0 else g.X j k) = if k = j then (1 : ℚ) else 0 := by
    intro k hk
    by_cases hkj : k = j
    · rw [if_pos hkj, if_neg, hkj, source_self hX hac hj]
      rw [hkj, mem_inter]
      exact fun h => ((hM j j).1 h.2).2.2.1 rfl
    · rw [if_neg hkj]
      split
      · rfl
      · rename_i hkM
        by_contra hne
        rcases ho.source hg hj hk hne with h | h
        · exact hkj h
        · exact hkM (mem_inter.2 ⟨(hM i k).2 (ho.trans _ _ _ h hji), (hM j k).2 h⟩)
  obtain ⟨z, hz⟩ := exists_residual hσ g.X (M i \ {j}) (g.X i)
  have hval : popCov n g.σ (fun k => if k ∈ M i ∩ M j then 0 else g.X j k) z = g.σ j * z j := by
    rw [popCov_congr hwv (fun _ _ => rfl), popCov_single hj]
  have hiff : (∃ r s, IsResidual n g.σ g.X (M i ∩ M j) (g.X j) r ∧ IsResidual n g.σ g.X (M i \ {j}) (g.X i) s ∧
      popCov n g.σ r s ≠ 0) ↔ z j ≠ 0 := by
    constructor
    · rintro ⟨r, s, hr, hs, hne⟩ h0
      apply hne
      rw [popCov_congr (hr.unique hσ hw) (hs.unique hσ hz), hval, h0, mul_zero]
    · intro h
      refine ⟨_, _, hw, hz, ?_⟩
      rw [hval]
      exact mul_ne_zero (hσ j hj).ne' h
  rw [hiff]
  constructor
  · intro hzj hB
    apply hzj
    have hreg := pooled_regression ho hg hi (S := M i \ {j})
      (fun h hh => (hM i h).1 (mem_sdiff.1 hh).1)
      (fun h hh hB' => by
        rw [mem_sdiff, mem_singleton]
        refine ⟨(hM i h).2 (ho.anc g hg _ _ (trueAncestor_of_edge hh hi hB')), ?_⟩
        rintro rfl
        exact hB' hB)
    rw [hz.unique hσ ⟨_, hreg⟩ j hj]
    exact if_neg hne
  · intro hB hzj
    obtain ⟨c, hc, hor⟩ := hz
    have hpj : ∀ h, h < n → g.B j h ≠ 0 → popCov n g.σ z (g.X h) = 0 := by
      intro h hh hBh
      have hhj := ho.anc g hg _ _ (trueAncestor_of_edge hh hj hBh)
      refine hor h ?_
      rw [mem_sdiff, mem_singleton]
      exact ⟨(hM i h).2 (ho.trans _ _ _ hhj hji), hhj.2.2.1⟩
    have hXj : popCov n g.σ z (g.X j) = 0 := by
      have hv : ∀ k, k < n → g.X j k = (if k = j then 1 else 0) - (-1) * ∑ h ∈ range n, g.B j h * g.X h k := by
        intro k hk
        rw [hX.2 j hj k hk, if_pos hk]; ring
      rw [popCov_congr (fun _ _ => rfl) hv, popCov_comm, popCov_sub_left, popCov_smul_left, popCov_sum_left,
        popCov_single hj, hzj, sum_eq_zero]
      · ring
      · intro h hh
        by_cases hBh : g.B j h = 0
        · rw [hBh, zero_mul]
        · rw [popCov_comm, hpj h (mem_range.1 hh) hBh, mul_zero]
    have hjM : j ∈ M i := (hM i j).2 hji
    have hz' : IsResidual n g.σ g.X (M i) (g.X i) z := by
      refine ⟨fun h => if h = j then 0 else c h, ?_, ?_⟩
      · intro k hk
        rw [hc k hk]
        congr 1
        rw [← sum_sdiff (singleton_subset_iff.2 hjM), sum_singleton]
        simp only [if_true, zero_mul, add_zero]
        refine sum_congr rfl fun h hh => ?_
        have : h ≠ j := by rw [mem_sdiff, mem_singleton] at hh; exact hh.2
        rw [if_neg this]
      · intro h hh
        by_cases hhj : h = j
        · rw [hhj]; exact hXj
        · exact hor h (mem_sdiff.2 ⟨hh, by simpa using hhj⟩)
    have hreg := pooled_regression ho hg hi (S := M i) (fun h hh => (hM i h).1 hh)
      (fun h hh hB' => (hM i h).2 (ho.anc g hg _ _ (trueAncestor_of_edge hh hi hB')))
    have hzv := hz'.unique hσ ⟨_, hreg⟩
    have hlin := sources_independent hX hac (S := M i) (fun h hh => mem_range.1 (hMi hh))
      (c := fun h => (if h = j then 0 else c h) - g.B i h) (by
        intro k hk
        have e1 := hzv k hk
        have e2 := hreg.1 k hk
        rw [hc k hk] at e1
        have e3 : ∑ h ∈ M i, (if h = j then 0 else c h) * g.X h k = ∑ h ∈ M i \ {j}, c h * g.X h k := by
          rw [← sum_sdiff (singleton_subset_iff.2 hjM), sum_singleton]
          simp only [if_true, zero_mul, add_zero]
          refine sum_congr rfl fun h hh => ?_
          have : h ≠ j := by rw [mem_sdiff, mem_singleton] at hh; exact hh.2
          rw [if_neg this]
        simp only [sub_mul, sum_sub_distrib]
        rw [e3]
        linarith)
    have := hlin j hjM
    simp only [if_true] at this
    exact hB (by linarith)

/-- With exact ancestors the matrix of every population is right. -/
theorem pooled_adjacency (ho : CommonOrder n gs) (ht : PooledTests n gs t) {M : Anc} (hM : ExactR (Affects n gs) M)
    {g : Pop} (hg : g ∈ gs) {coef : Coef} (hcoef : PerfectCoef n n g.σ g.X coef) {i j : Nat} (hi : i < n) (hj : j < n) :
    adjacency coef n (extractParents t n M) (extractConfounded t n (extractParents t n M)) i j = some (g.B i j) := by
  have hP : ∀ g ∈ gs, ∀ a b, a < n → b < n → g.B a b ≠ 0 → b ∈ extractParents t n M a := by
    intro g hg a b ha hb h
    unfold extractParents
    rw [if_pos ha, mem_filter]
    have hanc := ho.anc g hg _ _ (trueAncestor_of_edge hb ha h)
    exact ⟨(hM a b).2 hanc, (pooled_isParent ho ht hM hanc).2 ⟨g, hg, h⟩⟩
  have hPr : ∀ a b, b ∈ extractParents t n M a → Affects n gs b a := by
    intro a b h
    unfold extractParents at h
    split at h
    · exact (hM a b).1 (mem_filter.1 h).1
    · simp at h
  have hPn : ∀ a, extractParents t n M a ⊆ range n := fun a b h => mem_range.2 (hPr a b h).1
  have hreg : ∀ g ∈ gs, ∀ a, a < n → IsRegression n g.σ g.X (extractParents t n M a) (g.X a) (fun h => g.B a h)
      (fun k => if k = a then 1 else 0) := fun g hg a ha =>
    pooled_regression ho hg ha (hPr a) (fun h hh hB => hP g hg a h ha hh hB)
  have hC : ∀ a b, a < n → b < n → a ≠ b → ¬ Conf t (extractParents t n M) a b := by
    rintro a b ha hb hab ⟨_, _, h⟩
    obtain ⟨g, hg, r, s, hr, hs, hne⟩ := (ht.corr _ _ _ _ (hPn a) (hPn b) ha hb).1 h
    have hσ := (ho.valid g hg).2
    apply hne
    rw [popCov_congr (hr.unique hσ ⟨_, hreg g hg a ha⟩) (hs.unique hσ ⟨_, hreg g hg b hb⟩), popCov_single ha,
      if_neg hab, mul_zero]
  have hX := (ho.valid g hg).1
  have hσ := (ho.valid g hg).2
  unfold adjacency
  rw [if_pos hi, if_neg]
  · split
    · rename_i hjP
      have hf : (List.range n).filter (fun k => decide (k ∈ extractParents t n M i)) =
          listOf n (extractParents t n M i) := rfl
      obtain ⟨r, hr⟩ := hcoef ((List.range n).filter (fun k => decide (k ∈ extractParents t n M i))) i
        List.filter_sublist hi
      have htf : ((List.range n).filter (fun k => decide (k ∈ extractParents t n M i))).toFinset =
          extractParents t n M i := by rw [hf, listOf_toFinset (hPn i)]
      generalize coef ((List.range n).filter (fun k => decide (k ∈ extractParents t n M i))) i = cf at hr ⊢
      rw [htf] at hr
      have hrv := IsResidual.unique hσ ⟨_, hr⟩ ⟨_, hreg g hg i hi⟩
      have hlin := sources_independent hX (ho.acyclic hg) (S := extractParents t n M i)
        (fun h hh => mem_range.1 (hPn i hh)) (c := fun h => cf h - g.B i h) (by
          intro k hk
          have e1 := hr.1 k hk
          have e2 := (hreg g hg i hi).1 k hk
          have e3 := hrv k hk
          simp only [sub_mul, sum_sub_distrib]
          linarith)
      have := hlin j hjP
      rw [sub_eq_zero.1 this]
    · rename_i hjP
      by_cases hB : g.B i j = 0
      · rw [hB]
      · exact absurd (hP g hg i j hi hj hB) hjP
  · rw [mem_extractConfounded]
    rintro (⟨h1, _, h⟩ | ⟨h1, _, h⟩)
    · exact hC i j hi hj h1.ne h
    · exact hC j i hj hi h1.ne h

end pooled

end Verif.MultiGroup
