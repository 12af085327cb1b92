import Verif.Model.Resit
import Verif.Proofs.DirectLingam

set_option linter.unusedSectionVars false
set_option autoImplicit false
namespace Verif.Resit

variable {K : Type} [Field K] [LinearOrder K] [IsStrictOrderedRing K]

/-- `k` is the choice of `np.argmin` among `S`. -/
def Chosen (stat : List Nat → Nat → Option K) (S : List Nat) (k : Nat) : Prop :=
  (argmin (S.map (stat S))).bind (fun i => S[i]?) = some k

theorem filter_ne_of_notMem {S : List Nat} {q : List Nat} (h : q.Perm S) : S.filter (fun x => decide (x ∈ q)) = S :=
  List.filter_eq_self.2 (fun x hx => by simpa using h.mem_iff.2 hx)

theorem orderLoop_spec (stat : List Nat → Nat → Option K) : ∀ (r : Nat) (S : List Nat) (pa : Nat → List Nat)
    (pi : List Nat), S.length = r → S.Nodup → ∃ (pa' : Nat → List Nat) (q : List Nat),
      orderLoop stat r S pa pi = some (pa', q ++ pi) ∧ q.Perm S ∧ (∀ x, x ∉ S → pa' x = pa x) ∧
      ∀ a k b, q = a ++ k :: b → pa' k = S.filter (fun x => decide (x ∈ a)) ∧
        (a ≠ [] → Chosen stat (S.filter (fun x => decide (x ∈ a ++ [k]))) k)
  | 0, S, pa, pi, hr, _ => by
    have : S = [] := List.length_eq_zero_iff.1 hr
    subst this
    exact ⟨pa, [], rfl, List.Perm.refl _, fun _ _ => rfl, fun a k b h => by simp at h⟩
  | r + 1, S, pa, pi, hr, hnd => by
    match S, hr, hnd with
    | [], hr, _ => simp at hr
    | [x], hr, _ =>
      have hr0 : r = 0 := by simpa using hr.symm
      subst hr0
      refine ⟨fun i => if i = x then [] else pa i, [x], rfl, List.Perm.refl _, ?_, ?_⟩
      · intro y hy
        exact if_neg (by simpa using hy)
      · intro a k b h
        cases a with
        | nil => simp at h; simp [h.1]
        | cons y a => simp at h
    | x :: y :: S, hr, hnd =>
      unfold orderLoop
      have hch : ∃ k, Chosen stat (x :: y :: S) k := by
        cases h : (argmin ((x :: y :: S).map (stat (x :: y :: S)))).bind (fun i => (x :: y :: S)[i]?) with
        | none => exact absurd h (Direct.bind_argmin_ne_none (by simp))
        | some k => exact ⟨k, h⟩
      obtain ⟨k, hk⟩ := hch
      unfold Chosen at hk
      simp only [hk]
      generalize hT : x :: y :: S = T at *
      have hkT : k ∈ T := by
        rw [Option.bind_eq_some_iff] at hk
        obtain ⟨i, _, h2⟩ := hk
        exact List.mem_of_getElem? h2
      generalize hS' : T.filter (fun i => decide (i ≠ k)) = S'
      have hmem : ∀ z, z ∈ S' ↔ z ∈ T ∧ z ≠ k := by intro z; rw [← hS']; simp
      have hlen : S'.length = r := hS' ▸ Direct.length_filter_ne hnd hkT hr
      have hnd' : S'.Nodup := hS' ▸ hnd.filter _
      obtain ⟨pa', q, h1, h2, h3, h4⟩ := orderLoop_spec stat r S' (fun i => if i = k then S' else pa i) (k :: pi) hlen hnd'
      have hkS : k ∉ S' := fun h => ((hmem k).1 h).2 rfl
      have hkq : k ∉ q := fun h => hkS (h2.mem_iff.1 h)
      have hperm : (q ++ [k]).Perm T := by
        refine List.perm_append_comm.trans ?_
        refine (List.Perm.cons k h2).trans ?_
        rw [← hS']
        have : T.filter (fun i => decide (i ≠ k)) = T.erase k := by
          rw [List.Nodup.erase_eq_filter hnd]
          apply List.filter_congr
          intro x _
          by_cases h : x = k <;> simp [h]
        rw [this]
        exact (List.perm_cons_erase hkT).symm
      refine ⟨pa', q ++ [k], by rw [h1]; simp, hperm, ?_, ?_⟩
      · intro z hz
        rw [h3 z (fun h => hz ((hmem z).1 h).1)]
        exact if_neg (fun h : z = k => hz (h ▸ hkT))
      · intro a k' b hq
        rcases List.eq_nil_or_concat b with rfl | ⟨b', z, rfl⟩
        · have he := List.append_inj' (s₁ := q) (t₁ := [k]) (s₂ := a) (t₂ := [k']) hq rfl
          obtain ⟨rfl, he2⟩ := he
          simp only [List.cons.injEq, and_true] at he2
          subst he2
          refine ⟨?_, fun _ => ?_⟩
          · rw [h3 k hkS, if_pos rfl, ← hS']
            apply List.filter_congr
            intro z hz
            simp only [decide_eq_decide]
            rw [h2.mem_iff, hmem]
            exact ⟨fun h => ⟨hz, h⟩, fun h => h.2⟩
          · rw [filter_ne_of_notMem hperm]
            exact hk
        · rw [List.concat_eq_append] at hq
          have hq' : q ++ [k] = (a ++ k' :: b') ++ [z] := by rw [hq]; simp
          have he := List.append_inj' hq' rfl
          have hkz : k ∉ a ∧ k ≠ k' := by
            have := he.1 ▸ hkq
            simp at this
            exact ⟨this.1, this.2.1⟩
          obtain ⟨e1, e2⟩ := h4 a k' b' he.1
          have hf : ∀ l : List Nat, k ∉ l → S'.filter (fun x => decide (x ∈ l)) = T.filter (fun x => decide (x ∈ l)) := by
            intro l hl
            rw [← hS', List.filter_filter]
            apply List.filter_congr
            intro z _
            by_cases hz : z ∈ l
            · have : z ≠ k := fun h => hl (h ▸ hz)
              simp [hz, this]
            · simp [hz]
          refine ⟨by rw [e1, hf a hkz.1], fun ha => ?_⟩
          have := e2 ha
          rwa [hf (a ++ [k']) (by simp [hkz])] at this

/-! ### Removal of edges -/

theorem pruneParents_sublist (pval : Nat → List Nat → Option K) (alpha : K) (t : Nat) : ∀ (ls cur : List Nat),
    (pruneParents pval alpha t ls cur).Sublist cur
  | [], cur => List.Sublist.refl _
  | l :: ls, cur => by
    unfold pruneParents
    simp only
    split
    · exact pruneParents_sublist pval alpha t ls cur
    · split
      · exact (pruneParents_sublist pval alpha t ls _).trans List.erase_sublist
      · exact pruneParents_sublist pval alpha t ls cur

theorem pruneParents_ne_nil (pval : Nat → List Nat → Option K) (alpha : K) (t : Nat) : ∀ (ls cur : List Nat), cur ≠ [] →
    pruneParents pval alpha t ls cur ≠ []
  | [], cur, h => h
  | l :: ls, cur, h => by
    unfold pruneParents
    simp only
    split
    · exact pruneParents_ne_nil pval alpha t ls cur h
    · rename_i hlen
      split
      · refine pruneParents_ne_nil pval alpha t ls _ ?_
        obtain ⟨z, hz⟩ := List.exists_mem_of_length_pos (Nat.lt_of_lt_of_le Nat.zero_lt_one (not_lt.1 hlen))
        rw [List.mem_filter, decide_eq_true_eq] at hz
        exact List.ne_nil_of_mem ((List.mem_erase_of_ne hz.2).2 hz.1)
      · exact pruneParents_ne_nil pval alpha t ls cur h

/-- A removed parent was removed by a test, a kept parent passed one (or was the last candidate). -/
theorem pruneParents_tests (pval : Nat → List Nat → Option K) (alpha : K) (t : Nat) : ∀ (ls cur : List Nat), ls.Nodup →
    cur.Nodup → (∀ l ∈ ls, l ∈ cur) → ∀ l ∈ ls,
      (l ∉ pruneParents pval alpha t ls cur → ∃ ps, ps ≠ [] ∧ ps.Sublist cur ∧ l ∉ ps ∧ above alpha (pval t ps) = true) ∧
      (l ∈ pruneParents pval alpha t ls cur → ∃ ps, ps.Sublist cur ∧ l ∉ ps ∧
        (ps = [] ∨ above alpha (pval t ps) = false) ∧
        ∀ x, x ∈ pruneParents pval alpha t ls cur → x = l ∨ x ∈ ps)
  | [], cur, _, _, _ => by simp
  | m :: ls, cur, hnd, hcur, hsub => by
    obtain ⟨hm, hnd'⟩ := List.nodup_cons.1 hnd
    have hmf : m ∉ cur.filter (fun i => decide (i ≠ m)) := by simp
    have hfs : (cur.filter (fun i => decide (i ≠ m))).Sublist cur := List.filter_sublist
    have hstay : ∀ ls' : List Nat, m ∉ ls' → ∀ c : List Nat, m ∈ c → m ∈ pruneParents pval alpha t ls' c := by
      intro ls'
      induction ls' with
      | nil => intro _ c hc; exact hc
      | cons y ls' ih =>
        intro hy c hc
        rw [List.mem_cons, not_or] at hy
        unfold pruneParents
        simp only
        split
        · exact ih hy.2 c hc
        · split
          · exact ih hy.2 _ ((List.mem_erase_of_ne hy.1).2 hc)
          · exact ih hy.2 c hc
    unfold pruneParents
    simp only
    split
    · rename_i hlen
      have hnil : cur.filter (fun i => decide (i ≠ m)) = [] := List.length_eq_zero_iff.1 (by omega)
      intro l hl
      rcases List.mem_cons.1 hl with rfl | hl
      · refine ⟨fun h => absurd (hstay ls hm cur (hsub l (by simp))) h, fun _ => ⟨[], List.nil_sublist _, by simp, Or.inl rfl, ?_⟩⟩
        intro x hx
        left
        by_contra hc
        have := (pruneParents_sublist pval alpha t ls cur).subset hx
        have h2 : x ∈ cur.filter (fun i => decide (i ≠ l)) := by simp [this, hc]
        rw [hnil] at h2; simp at h2
      · exact pruneParents_tests pval alpha t ls cur hnd' hcur (fun y hy => hsub y (by simp [hy])) l hl
    · rename_i hlen
      have hne : cur.filter (fun i => decide (i ≠ m)) ≠ [] := by
        intro h; rw [h] at hlen; simp at hlen
      split
      · rename_i hab
        intro l hl
        have hs : (cur.erase m).Sublist cur := List.erase_sublist
        rcases List.mem_cons.1 hl with rfl | hl
        · refine ⟨fun _ => ⟨_, hne, hfs, hmf, hab⟩, fun h => ?_⟩
          have := (pruneParents_sublist pval alpha t ls _).subset h
          exact absurd this (hcur.not_mem_erase)
        · have hsub' : ∀ y ∈ ls, y ∈ cur.erase m := fun y hy =>
            (List.mem_erase_of_ne (fun h : y = m => hm (h ▸ hy))).2 (hsub y (by simp [hy]))
          obtain ⟨h1, h2⟩ := pruneParents_tests pval alpha t ls (cur.erase m) hnd' (hcur.erase m) hsub' l hl
          refine ⟨fun h => ?_, fun h => ?_⟩
          · obtain ⟨ps, a, b, c⟩ := h1 h
            exact ⟨ps, a, b.trans hs, c⟩
          · obtain ⟨ps, a, b⟩ := h2 h
            exact ⟨ps, a.trans hs, b⟩
      · rename_i hab
        intro l hl
        rcases List.mem_cons.1 hl with rfl | hl
        · refine ⟨fun h => absurd (hstay ls hm cur (hsub l (by simp))) h, fun _ => ⟨_, hfs, hmf, Or.inr (by simpa using hab), ?_⟩⟩
          intro x hx
          have := (pruneParents_sublist pval alpha t ls cur).subset hx
          by_cases hc : x = l
          · exact Or.inl hc
          · right; simp [this, hc]
        · exact pruneParents_tests pval alpha t ls cur hnd' hcur (fun y hy => hsub y (by simp [hy])) l hl

theorem foldl_removeStep (pval : Nat → List Nat → Option K) (alpha : K) {pi : List Nat} (hnd : pi.Nodup) (t : Nat) :
    ∀ (ks : List Nat) (pa : Nat → List Nat), ks.Nodup →
      (ks.foldl (removeStep pval alpha pi) pa) t =
        if ∃ k ∈ ks, pi[k]? = some t then pruneParents pval alpha t (pa t) (pa t) else pa t
  | [], pa, _ => by simp
  | k :: ks, pa, hks => by
    obtain ⟨hk, hks'⟩ := List.nodup_cons.1 hks
    rw [List.foldl_cons, foldl_removeStep pval alpha hnd t ks _ hks']
    cases hp : pi[k]? with
    | none =>
      have e : removeStep pval alpha pi pa k = pa := by unfold removeStep; rw [hp]
      rw [e]
      simp [hp]
    | some u =>
      have e : removeStep pval alpha pi pa k = fun i => if i = u then pruneParents pval alpha u (pa u) (pa u) else pa i := by
        unfold removeStep; rw [hp]
      rw [e]
      by_cases htu : t = u
      · subst htu
        have hno : ¬ ∃ k' ∈ ks, pi[k']? = some t := by
          rintro ⟨k', hk', h'⟩
          have hlt : k < pi.length := (List.getElem?_eq_some_iff.1 hp).1
          have : k = k' := (List.getElem?_inj hlt hnd).1 (hp.trans h'.symm)
          exact hk (this ▸ hk')
        rw [if_neg hno, if_pos ⟨k, by simp, hp⟩]
        exact if_pos rfl
      · have hiff : (∃ k' ∈ k :: ks, pi[k']? = some t) ↔ ∃ k' ∈ ks, pi[k']? = some t := by
          constructor
          · rintro ⟨k', hk', h'⟩
            rcases List.mem_cons.1 hk' with rfl | h
            · rw [hp] at h'; exact absurd (Option.some.inj h').symm htu
            · exact ⟨k', h, h'⟩
          · rintro ⟨k', hk', h'⟩; exact ⟨k', by simp [hk'], h'⟩
        simp only [hiff, if_neg htu]

end Verif.Resit
