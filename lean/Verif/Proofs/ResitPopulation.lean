import Verif.Spec.ResitTests
import Verif.Proofs.ParcePopulation
import Verif.Props.Resit

set_option linter.unusedSectionVars false
set_option autoImplicit false
namespace Verif.Resit
open Finset

/-! ### The order for any graph -/

/-- If variables without remaining effects have smaller statistics than those with one, effects are placed last. -/
theorem order_of_sinks {K : Type} [Field K] [LinearOrder K] [IsStrictOrderedRing K] {n : Nat} {E : Nat → Nat → Prop} (hac : Acyclic E) (hE : ∀ a b, E a b → a < n ∧ b < n)
    {s : List Nat → Nat → K}
    (hs : ∀ S : List Nat, S.Nodup → (∀ u ∈ S, u < n) → (∀ a b, E a b → b ∈ S → a ∈ S) → ∀ i ∈ S, ∀ j ∈ S,
      (∀ u ∈ S, ¬ E i u) → (∃ u ∈ S, E j u) → s S i < s S j)
    {pval : Nat → List Nat → Option K} {alpha : K} {order : List Nat} {Bh : Nat → Nat → ℚ}
    (h : fit (fun S k => some (s S k)) pval alpha n = some (order, Bh)) : ∀ a b, E a b → Before order a b := by
  obtain ⟨_, _, hf, ho, _⟩ := C31_order_and_matrix (fun S k => some (s S k)) pval alpha n
  rw [h] at hf
  simp only [Option.some.injEq, Prod.mk.injEq] at hf
  obtain ⟨rfl, rfl⟩ := hf
  have hperm := IsOrder.perm.1 ho
  have hmem : ∀ x, x ∈ order ↔ x < n := fun x => by rw [hperm.mem_iff, List.mem_range]
  have hclosed : ∀ (b a : List Nat), order = a ++ b → ∀ x y, E x y → y ∈ a → x ∈ a := by
    intro b
    induction b with
    | nil =>
      intro a ha x y hxy _
      rw [List.append_nil] at ha
      subst ha
      exact (hmem x).2 (hE x y hxy).1
    | cons k b ih =>
      intro a ha
      have hc := ih (a ++ [k]) (by rw [ha]; simp)
      have hSmem : ∀ x, x ∈ (List.range n).filter (fun x => decide (x ∈ a ++ [k])) ↔ x ∈ a ++ [k] := by
        intro x
        rw [List.mem_filter, decide_eq_true_eq, List.mem_range]
        refine ⟨fun h => h.2, fun h => ⟨(hmem x).1 ?_, h⟩⟩
        rw [ha]
        rcases List.mem_append.1 h with h | h
        · simp [h]
        · simp [List.mem_singleton.1 h]
      have hksink : ∀ u ∈ a, ¬ E k u := by
        intro u hu hku
        have hane : a ≠ [] := List.ne_nil_of_mem hu
        have hleast := C31_least_dependent_last h a k b ha hane
        obtain ⟨i, hi, hmax⟩ := exists_minimal (acyclic_flip hac) (a ++ [k]) (by simp)
        have hlt := hs ((List.range n).filter (fun x => decide (x ∈ a ++ [k]))) (List.nodup_range.filter _)
          (fun u hu => List.mem_range.1 (List.mem_filter.1 hu).1)
          (fun x y hxy hy => (hSmem x).2 (hc x y hxy ((hSmem y).1 hy))) i ((hSmem i).2 hi) k ((hSmem k).2 (by simp))
          (fun u hu => hmax u ((hSmem u).1 hu)) ⟨u, (hSmem u).2 (by simp [hu]), hku⟩
        have hik : i ≠ k := by
          rintro rfl
          exact hmax u (by simp [hu]) hku
        have hia : i ∈ a := by
          rcases List.mem_append.1 hi with h | h
          · exact h
          · exact absurd (List.mem_singleton.1 h) hik
        exact absurd hlt (not_lt.2 (hleast i hia).1)
      intro x y hxy hy
      have := hc x y hxy (by simp [hy])
      rcases List.mem_append.1 this with h | h
      · exact h
      · rw [List.mem_singleton.1 h] at hxy
        exact absurd hxy (hksink y hy)
  intro a b hab
  obtain ⟨p, q, hq⟩ := List.append_of_mem ((hmem b).2 (hE a b hab).2)
  have hm := hclosed q (p ++ [b]) (by rw [hq]; simp) a b hab (by simp)
  have hne : a ≠ b := by rintro rfl; exact hac a (.single hab)
  have hap : a ∈ p := by
    rcases List.mem_append.1 hm with h | h
    · exact h
    · exact absurd (List.mem_singleton.1 h) hne
  obtain ⟨x, y, rfl⟩ := List.append_of_mem hap
  exact ⟨x, y, q, by rw [hq]; simp⟩

/-! ### Independence of residuals in the linear model -/

section pop
variable {n : Nat} {B L X : Nat → Nat → ℚ} {σ : Nat → ℚ}

/-- The residual is independent if the causes left out share no source with the predictors. -/
theorem indep_of_missing (hX : SourceModel n n B L X) (hac : Acyclic (Edge n B 0)) {t : Nat} (ht : t < n) {P : Finset Nat}
    (hP : ∀ u ∈ P, u < n ∧ u ≠ t ∧ ¬ TrueAncestor n B t u)
    (hmiss : ∀ h, h < n → h ∉ P → B t h ≠ 0 → ∀ u ∈ P, ShareNoSource n (X h) (X u)) :
    ResidualIndependent n σ X P t := by
  have hsh : ∀ u ∈ P, ShareNoSource n (fun k => X t k - ∑ h ∈ P, B t h * X h k) (X u) := by
    intro u hu k hk
    by_cases hu0 : X u k = 0
    · exact Or.inr hu0
    left
    obtain ⟨hun, hut, hanc⟩ := hP u hu
    have hkt : k ≠ t := by
      rintro rfl
      rcases source_ancestor hX hac hun hk hu0 with h | h
      · exact hut h.symm
      · exact hanc h
    have e := hX.2 t ht k hk
    rw [if_pos hk, if_neg hkt, add_zero] at e
    have hsub : ∑ h ∈ range n, B t h * X h k = ∑ h ∈ P, B t h * X h k := by
      symm
      refine sum_subset (fun h hh => mem_range.2 (hP h hh).1) fun h hh hnot => ?_
      by_cases hB : B t h = 0
      · rw [hB, zero_mul]
      · rw [(hmiss h (mem_range.1 hh) hnot hB u hu k hk).resolve_right hu0, mul_zero]
    beta_reduce
    rw [e, hsub, sub_self]
  exact ⟨_, ⟨fun h => B t h, fun k _ => rfl, fun h hh => popCov_disjoint (hsh h hh)⟩, hsh⟩

/-- In a set that contains all causes of its members, a residual is independent iff the variable has no effect in the set. -/
theorem indep_iff_sink (hX : SourceModel n n B L X) (hac : Acyclic (Edge n B 0)) {S : Finset Nat} (hS : ∀ h ∈ S, h < n)
    (hcl : ∀ a b, Edge n B 0 a b → b ∈ S → a ∈ S) {j : Nat} (hj : j ∈ S) :
    ResidualIndependent n σ X (S.erase j) j ↔ ∀ u ∈ S, ¬ Edge n B 0 j u := by
  constructor
  · intro h u hu hE
    have huj : u ≠ j := by rintro rfl; exact hac u (.single hE)
    have hno := Parce.indep_no_effect (σ := σ) hX hac hS hj h
    have e := hX.2 u (hS u hu) j (hS j hj)
    rw [hno u hu huj, if_pos (hS j hj), if_neg (Ne.symm huj), add_zero, sum_eq_single j] at e
    · rw [source_self hX hac (hS j hj), mul_one] at e
      exact abs_pos.1 hE.2.2 e.symm
    · intro k hk hkj
      by_cases hB : B u k = 0
      · rw [hB, zero_mul]
      · rw [hno k (hcl k u ⟨mem_range.1 hk, hS u hu, abs_pos.2 hB⟩ hu) hkj, mul_zero]
    · intro hnot; exact absurd (mem_range.2 (hS j hj)) hnot
  · intro h
    refine indep_of_missing hX hac (hS j hj) ?_ ?_
    · intro u hu
      refine ⟨hS u (mem_erase.1 hu).2, (mem_erase.1 hu).1, ?_⟩
      intro ha
      have : ∀ u, TrueAncestor n B j u → u ∈ S → ∃ w ∈ S, Edge n B 0 j w := by
        intro u ha
        induction ha with
        | single hE => exact fun hu => ⟨_, hu, hE⟩
        | tail _ hE ih => exact fun hu => ih (hcl _ _ hE hu)
      obtain ⟨w, hw, hE⟩ := this u ha (mem_erase.1 hu).2
      exact h w hw hE
    · intro k hk hkS hB
      exfalso
      have hE : Edge n B 0 k j := ⟨hk, hS j hj, abs_pos.2 hB⟩
      exact hkS (mem_erase.2 ⟨by rintro rfl; exact hac k (.single hE), hcl k j hE hj⟩)

end pop

/-! ### The removal of edges -/

/-- Every test passes: the last of the list remains. -/
theorem prune_all {pval : Nat → List Nat → Option ℚ} {alpha : ℚ} {t : Nat} : ∀ (L : List Nat), L.Nodup →
    (∀ ps, ps.Sublist L → ps ≠ [] → above alpha (pval t ps) = true) → ∀ x, x ∈ pruneParents pval alpha t L L ↔
      L.getLast? = some x
  | [], _, _, x => by simp [pruneParents]
  | [l], _, _, x => by simp [pruneParents, eq_comm]
  | l :: y :: ls, hnd, h, x => by
    have hl : l ∉ y :: ls := (List.nodup_cons.1 hnd).1
    have hf : (l :: y :: ls).filter (fun i => decide (i ≠ l)) = y :: ls := by
      rw [List.filter_cons_of_neg (by simp)]
      exact List.filter_eq_self.2 fun i hi => by simpa using fun e : i = l => hl (e ▸ hi)
    unfold pruneParents
    simp only [hf]
    rw [if_neg (by simp), if_pos (h _ (List.sublist_cons_self _ _) (by simp)), List.erase_cons_head,
      prune_all (y :: ls) (List.nodup_cons.1 hnd).2 (fun ps hps => h ps (hps.cons _)) x]
    simp

/-- The first test passes: the first of the list is removed. -/
theorem prune_first {pval : Nat → List Nat → Option ℚ} {alpha : ℚ} {t l : Nat} {ls : List Nat} (hnd : (l :: ls).Nodup)
    (hne : ls ≠ []) (h : above alpha (pval t ls) = true) : l ∉ pruneParents pval alpha t (l :: ls) (l :: ls) := by
  have hl : l ∉ ls := (List.nodup_cons.1 hnd).1
  have hf : (l :: ls).filter (fun i => decide (i ≠ l)) = ls := by
    rw [List.filter_cons_of_neg (by simp)]
    exact List.filter_eq_self.2 fun i hi => by simpa using fun e : i = l => hl (e ▸ hi)
  have hlen : ¬ ls.length < 1 := by
    have := List.length_pos_of_ne_nil hne
    omega
  unfold pruneParents
  simp only [hf]
  rw [if_neg hlen, if_pos h, List.erase_cons_head]
  exact fun hc => hl ((pruneParents_sublist _ _ _ _ _).subset hc)

/-- Tests on sets with all members of `G` pass.  Then exactly the members of `G` remain iff the test made for each of them
does not pass. -/
theorem prune_exact {pval : Nat → List Nat → Option ℚ} {alpha : ℚ} {t : Nat} {G : Nat → Prop} [DecidablePred G] :
    ∀ (ls pre : List Nat), (pre ++ ls).Nodup → (∀ x ∈ pre, G x) → (∃ g ∈ pre ++ ls, G g) →
    (∀ ps, ps.Sublist (pre ++ ls) → ps ≠ [] → (∀ g ∈ pre ++ ls, G g → g ∈ ps) → above alpha (pval t ps) = true) →
    ((∀ x, x ∈ pruneParents pval alpha t ls (pre ++ ls) ↔ x ∈ pre ++ ls ∧ G x) ↔
      ∀ a l b, ls = a ++ l :: b → G l → pre ++ a.filter G ++ b = [] ∨ above alpha (pval t (pre ++ a.filter G ++ b)) = false)
  | [], pre, _, hpre, _, _ => by
    unfold pruneParents
    constructor
    · intro _ a l b h; simp at h
    · intro _ x
      rw [List.append_nil]
      exact ⟨fun h => ⟨h, hpre x h⟩, fun h => h.1⟩
  | l :: ls, pre, hnd, hpre, hex, h => by
    have hlpre : l ∉ pre := fun hc => (List.nodup_append.1 hnd).2.2 l hc l (by simp) rfl
    have hlls : l ∉ ls := (List.nodup_cons.1 (List.nodup_append.1 hnd).2.1).1
    have hfil : (pre ++ l :: ls).filter (fun i => decide (i ≠ l)) = pre ++ ls := by
      rw [List.filter_append, List.filter_cons_of_neg (by simp)]
      congr 1
      · exact List.filter_eq_self.2 fun i hi => by simpa using fun e : i = l => hlpre (e ▸ hi)
      · exact List.filter_eq_self.2 fun i hi => by simpa using fun e : i = l => hlls (e ▸ hi)
    have herase : (pre ++ l :: ls).erase l = pre ++ ls := by
      rw [List.erase_append_right _ hlpre, List.erase_cons_head]
    have hsub : (pre ++ ls).Sublist (pre ++ l :: ls) := List.Sublist.append_left (List.sublist_cons_self _ _) _
    have hstep : pruneParents pval alpha t (l :: ls) (pre ++ l :: ls) =
        if (pre ++ ls).length < 1 then pruneParents pval alpha t ls (pre ++ l :: ls)
        else if above alpha (pval t (pre ++ ls)) then pruneParents pval alpha t ls (pre ++ ls)
        else pruneParents pval alpha t ls (pre ++ l :: ls) := by
      rw [pruneParents]
      simp only [hfil, herase]
    have hassoc : pre ++ l :: ls = (pre ++ [l]) ++ ls := by simp
    rw [hstep]
    by_cases hG : G l
    · by_cases hpass : pre ++ ls ≠ [] ∧ above alpha (pval t (pre ++ ls)) = true
      · have hlen : ¬ (pre ++ ls).length < 1 := by
          have := List.length_pos_of_ne_nil hpass.1
          omega
        rw [if_neg hlen, if_pos hpass.2]
        constructor
        · intro hall
          have := (pruneParents_sublist _ _ _ _ _).subset ((hall l).2 ⟨by simp, hG⟩)
          rcases List.mem_append.1 this with h | h
          · exact absurd h hlpre
          · exact absurd h hlls
        · intro hall
          rcases hall [] l ls rfl hG with h0 | h0
          · exact absurd (by simpa using h0) hpass.1
          · rw [List.filter_nil, List.append_nil, hpass.2] at h0
            exact absurd h0 (by simp)
      · have heq : (if (pre ++ ls).length < 1 then pruneParents pval alpha t ls (pre ++ l :: ls)
            else if above alpha (pval t (pre ++ ls)) then pruneParents pval alpha t ls (pre ++ ls)
            else pruneParents pval alpha t ls (pre ++ l :: ls)) = pruneParents pval alpha t ls ((pre ++ [l]) ++ ls) := by
          rw [hassoc]
          split
          · rfl
          · rename_i hlen
            rw [if_neg]
            intro hab
            refine hpass ⟨?_, hab⟩
            intro h0
            rw [h0] at hlen
            simp at hlen
        rw [heq, hassoc]
        rw [prune_exact ls (pre ++ [l]) (by rw [← hassoc]; exact hnd) ?_ (by rw [← hassoc]; exact hex)
          (by rw [← hassoc]; exact h)]
        · constructor
          · intro hall a l' b hs hGl'
            cases a with
            | nil =>
              simp only [List.nil_append, List.cons.injEq] at hs
              obtain ⟨rfl, rfl⟩ := hs
              rw [List.filter_nil, List.append_nil]
              by_cases h0 : pre ++ ls = []
              · exact Or.inl h0
              · right
                by_contra hc
                exact hpass ⟨h0, by simpa using hc⟩
            | cons y a =>
              simp only [List.cons_append, List.cons.injEq] at hs
              obtain ⟨rfl, rfl⟩ := hs
              have := hall a l' b rfl hGl'
              rw [List.filter_cons_of_pos (by simpa using hG)]
              simpa using this
          · intro hall a l' b hs hGl'
            have := hall (l :: a) l' b (by rw [hs]; rfl) hGl'
            rw [List.filter_cons_of_pos (by simpa using hG)] at this
            simpa using this
        · intro x hx
          rcases List.mem_append.1 hx with h | h
          · exact hpre x h
          · rw [List.mem_singleton.1 h]; exact hG
    · have hexg : ∃ g ∈ pre ++ ls, G g := by
        obtain ⟨g, hg, hGg⟩ := hex
        refine ⟨g, ?_, hGg⟩
        rcases List.mem_append.1 hg with h | h
        · exact List.mem_append_left _ h
        · rcases List.mem_cons.1 h with rfl | h
          · exact absurd hGg hG
          · exact List.mem_append_right _ h
      have hne : pre ++ ls ≠ [] := by
        obtain ⟨g, hg, _⟩ := hexg
        exact List.ne_nil_of_mem hg
      have hG' : ∀ g, g ∈ pre ++ l :: ls → G g → g ∈ pre ++ ls := by
        intro g hg hGg
        rcases List.mem_append.1 hg with h | h
        · exact List.mem_append_left _ h
        · rcases List.mem_cons.1 h with rfl | h
          · exact absurd hGg hG
          · exact List.mem_append_right _ h
      have hlen : ¬ (pre ++ ls).length < 1 := by
        have := List.length_pos_of_ne_nil hne
        omega
      rw [if_neg hlen, if_pos (h _ hsub hne hG')]
      have ih := prune_exact ls pre (hnd.sublist hsub) hpre hexg
        (fun ps hps hpne hall => h ps (hps.trans hsub) hpne fun g hg hGg => hall g (hG' g hg hGg) hGg)
      have hiff : (∀ x, x ∈ pruneParents pval alpha t ls (pre ++ ls) ↔ x ∈ pre ++ l :: ls ∧ G x) ↔
          ∀ x, x ∈ pruneParents pval alpha t ls (pre ++ ls) ↔ x ∈ pre ++ ls ∧ G x := by
        refine forall_congr' fun x => iff_congr Iff.rfl ?_
        exact ⟨fun hx => ⟨hG' x hx.1 hx.2, hx.2⟩, fun hx => ⟨hsub.subset hx.1, hx.2⟩⟩
      rw [hiff, ih]
      constructor
      · intro hall a l' b hs hGl'
        cases a with
        | nil =>
          simp only [List.nil_append, List.cons.injEq] at hs
          exact absurd (hs.1 ▸ hGl') hG
        | cons y a =>
          simp only [List.cons_append, List.cons.injEq] at hs
          obtain ⟨rfl, rfl⟩ := hs
          rw [List.filter_cons_of_neg (by simpa using hG)]
          exact hall a l' b rfl hGl'
      · intro hall a l' b hs hGl'
        have := hall (l :: a) l' b (by rw [hs]; rfl) hGl'
        rw [List.filter_cons_of_neg (by simpa using hG)] at this
        exact this

/-- The residual on variables that contain the causes of `p` and the other causes of `t`, and that `p` does not influence, is
independent although `p` is left out. -/
theorem indep_without_last {n : Nat} {B L X : Nat → Nat → ℚ} {σ : Nat → ℚ} (hX : SourceModel n n B L X)
    (hac : Acyclic (Edge n B 0)) {p t : Nat} (hp : p < n) (ht : t < n) {P : Finset Nat}
    (hP : ∀ u ∈ P, u < n ∧ u ≠ t ∧ u ≠ p ∧ ¬ TrueAncestor n B t u ∧ ¬ TrueAncestor n B p u)
    (hpt : ∀ h, h < n → h ≠ p → B t h ≠ 0 → h ∈ P) (hpp : ∀ h, h < n → B p h ≠ 0 → h ∈ P) :
    ResidualIndependent n σ X P t := by
  have hpP : p ∉ P := fun h => (hP p h).2.2.1 rfl
  have hsum : ∀ q, (∀ h, h < n → h ≠ p → B q h ≠ 0 → h ∈ P) → ∀ k,
      ∑ h ∈ range n, B q h * X h k = ∑ h ∈ P, B q h * X h k + B q p * X p k := by
    intro q hq k
    rw [← sum_subset (s₁ := insert p P), sum_insert hpP, add_comm]
    · intro h hh
      rcases mem_insert.1 hh with rfl | hh
      · exact mem_range.2 hp
      · exact mem_range.2 (hP h hh).1
    · intro h hh hnot
      rw [mem_insert, not_or] at hnot
      by_cases hB : B q h = 0
      · rw [hB, zero_mul]
      · exact absurd (hq h (mem_range.1 hh) hnot.1 hB) hnot.2
  have hBpp : B p p = 0 := by
    by_contra h; exact hpP (hpp p hp h)
  have hsh : ∀ u ∈ P, ShareNoSource n (fun k => X t k - ∑ h ∈ P, (B t h + B t p * B p h) * X h k) (X u) := by
    intro u hu k hk
    by_cases hu0 : X u k = 0
    · exact Or.inr hu0
    left
    obtain ⟨hun, hut, hup, hat, hap⟩ := hP u hu
    have hkt : k ≠ t := by
      rintro rfl
      rcases source_ancestor hX hac hun hk hu0 with h | h
      · exact hut h.symm
      · exact hat h
    have hkp : k ≠ p := by
      rintro rfl
      rcases source_ancestor hX hac hun hk hu0 with h | h
      · exact hup h.symm
      · exact hap h
    have et := hX.2 t ht k hk
    rw [if_pos hk, if_neg hkt, add_zero, hsum t hpt k] at et
    have ep := hX.2 p hp k hk
    rw [if_pos hk, if_neg hkp, add_zero, hsum p (fun h hh _ => hpp h hh) k, hBpp, zero_mul, add_zero] at ep
    beta_reduce
    simp only [add_mul, sum_add_distrib, mul_assoc, ← mul_sum]
    rw [et, ep]
    ring
  exact ⟨_, ⟨fun h => B t h + B t p * B p h, fun k _ => rfl, fun h hh => popCov_disjoint (hsh h hh)⟩, hsh⟩

end Verif.Resit
