import Verif.Proofs.Paths

/-! The path search on graphs with cycles. -/
set_option linter.unusedSectionVars false

set_option autoImplicit false
namespace Verif.Paths

/-- A frame either leads to the cycle error or is eventually popped. -/
theorem dfs_dich {n dst src : Nat} : ∀ (d cur : Nat) (rem : List Nat) (rest : List (Nat × List Nat))
    (acc : List (List Nat)) (tbl : Nat → List Nat),
    rest.length + d = n → (rest = [] → cur = src) →
    ∃ k, (∀ f, dfs n dst (f + k) tbl ((cur, rem) :: rest) acc = some (.error .cyclic)) ∨
      ∃ tbl' acc', (∀ x, x ≠ src → tbl' x = tbl x) ∧
        ∀ f, dfs n dst (f + k) tbl ((cur, rem) :: rest) acc = dfs n dst f tbl' rest acc' := by
  intro d
  induction d with
  | zero =>
    intro cur rem rest acc tbl hd _
    exact ⟨1, Or.inl fun f => dfs_over (by omega)⟩
  | succ d ih =>
    intro cur rem
    induction rem with
    | nil =>
      intro rest acc tbl hd hs
      by_cases hc : cur = dst
      · exact ⟨1, Or.inr ⟨tbl, _, fun _ _ => rfl, fun f => dfs_hit (by omega) hc⟩⟩
      · exact ⟨1, Or.inr ⟨tbl, acc, fun _ _ => rfl, fun f => dfs_back (by omega) hc⟩⟩
    | cons nx rem' ihr =>
      intro rest acc tbl hd hs
      by_cases hc : cur = dst
      · exact ⟨1, Or.inr ⟨tbl, _, fun _ _ => rfl, fun f => dfs_hit (by omega) hc⟩⟩
      · set tbl' := if rest = [] then Function.update tbl cur rem' else tbl with htbl'
        have ht' : ∀ x, x ≠ src → tbl' x = tbl x := by
          intro x hx
          rw [htbl']
          split
          · rename_i hr
            rw [Function.update_of_ne (by rw [hs hr]; exact hx)]
          · rfl
        obtain ⟨k1, h1⟩ := ih nx (tbl' nx) ((cur, rem') :: rest) acc tbl' (by simp; omega) (by simp)
        rcases h1 with h1 | ⟨tbl1, acc1, ht1, h1⟩
        · refine ⟨k1 + 1, Or.inl fun f => ?_⟩
          rw [← Nat.add_assoc, dfs_push (by omega) hc, ← htbl', h1]
        · obtain ⟨k2, h2⟩ := ihr rest acc1 tbl1 hd hs
          refine ⟨k2 + k1 + 1, ?_⟩
          rcases h2 with h2 | ⟨tbl2, acc2, ht2, h2⟩
          · left
            intro f
            rw [show f + (k2 + k1 + 1) = (f + k2 + k1) + 1 by omega, dfs_push (by omega) hc, ← htbl', h1, h2]
          · refine Or.inr ⟨tbl2, acc2, fun x hx => by rw [ht2 x hx, ht1 x hx, ht' x hx], fun f => ?_⟩
            rw [show f + (k2 + k1 + 1) = (f + k2 + k1) + 1 by omega, dfs_push (by omega) hc, ← htbl', h1, h2]

/-- If from the top frame a walk leads past depth `n` without meeting `src` or `dst`, the error is raised. -/
theorem dfs_long {n dst src : Nat} {tbl0 : Nat → List Nat} :
    ∀ (d cur : Nat) (rem : List Nat) (rest : List (Nat × List Nat)) (w0 : Nat) (w : List Nat)
    (acc : List (List Nat)) (tbl : Nat → List Nat),
    rest.length + d = n → (rest = [] → cur = src) → cur ≠ dst → w0 ∈ rem →
    (w0 :: w).IsChain (TE tbl0) → (∀ x ∈ w0 :: w, x ≠ src ∧ x ≠ dst) →
    (∀ x, x ≠ src → tbl x = tbl0 x) → n < rest.length + 1 + (w0 :: w).length →
    ∃ k, ∀ f, dfs n dst (f + k) tbl ((cur, rem) :: rest) acc = some (.error .cyclic) := by
  intro d
  induction d with
  | zero =>
    intro cur rem rest w0 w acc tbl hd _ _ _ _ _ _ _
    exact ⟨1, fun f => dfs_over (by omega)⟩
  | succ d ih =>
    intro cur rem
    induction rem with
    | nil => intro _ _ _ _ _ _ _ _ h; simp at h
    | cons nx rem' ihr =>
      intro rest w0 w acc tbl hd hs hc hw0 hch hav ht hlen
      set tbl' := if rest = [] then Function.update tbl cur rem' else tbl with htbl'
      have ht' : ∀ x, x ≠ src → tbl' x = tbl0 x := by
        intro x hx
        rw [htbl']
        split
        · rename_i hr
          rw [Function.update_of_ne (by rw [hs hr]; exact hx), ht x hx]
        · exact ht x hx
      by_cases hnx : nx = w0
      · subst hnx
        have hav0 := hav nx (by simp)
        cases w with
        | nil =>
          refine ⟨2, fun f => ?_⟩
          rw [show f + 2 = f + 1 + 1 by omega, dfs_push (by omega) hc, dfs_over (by simp at hlen ⊢; omega)]
        | cons w1 w =>
          rw [List.isChain_cons_cons] at hch
          obtain ⟨k, hk⟩ := ih nx (tbl' nx) ((cur, rem') :: rest) w1 w acc tbl' (by simp; omega)
            (by simp) hav0.2 (by rw [ht' nx hav0.1]; exact hch.1) hch.2
            (fun x hx => hav x (List.mem_cons_of_mem _ hx)) ht' (by simp at hlen ⊢; omega)
          refine ⟨k + 1, fun f => ?_⟩
          rw [← Nat.add_assoc, dfs_push (by omega) hc, ← htbl', hk]
      · have hw0' : w0 ∈ rem' := by
          rcases List.mem_cons.1 hw0 with h | h
          · exact absurd h.symm hnx
          · exact h
        obtain ⟨k1, h1⟩ := dfs_dich (n := n) (dst := dst) (src := src) d nx (tbl' nx)
          ((cur, rem') :: rest) acc tbl' (by simp; omega) (by simp)
        rcases h1 with h1 | ⟨tbl1, acc1, ht1, h1⟩
        · refine ⟨k1 + 1, fun f => ?_⟩
          rw [← Nat.add_assoc, dfs_push (by omega) hc, ← htbl', h1]
        · obtain ⟨k2, h2⟩ := ihr rest w0 w acc1 tbl1 hd hs hc hw0' hch hav
            (fun x hx => by rw [ht1 x hx, ht' x hx]) hlen
          refine ⟨k2 + k1 + 1, fun f => ?_⟩
          rw [show f + (k2 + k1 + 1) = (f + k2 + k1) + 1 by omega, dfs_push (by omega) hc, ← htbl', h1, h2]

/-- Walks of every length around a cycle. -/
theorem long_walk {E : Nat → Nat → Prop} {c : Nat} (h : Relation.TransGen E c c) :
    ∀ m, ∃ w : List Nat, m ≤ w.length ∧ (c :: w).IsChain E ∧ (c :: w).getLast? = some c := by
  have key : ∀ {a b}, Relation.TransGen E a b → ∀ l : List Nat, (b :: l).IsChain E → ∃ w : List Nat,
      (b :: l).length ≤ w.length ∧ (a :: w).IsChain E ∧ (a :: w).getLast? = (b :: l).getLast? := by
    intro a b hab
    induction hab with
    | single h => exact fun l hl => ⟨_ :: l, le_rfl, List.isChain_cons_cons.2 ⟨h, hl⟩, by rw [List.getLast?_cons_cons]⟩
    | tail _ h ih =>
      intro l hl
      obtain ⟨w, h1, h2, h3⟩ := ih (_ :: l) (List.isChain_cons_cons.2 ⟨h, hl⟩)
      exact ⟨w, by simp at h1 ⊢; omega, h2, by rw [h3, List.getLast?_cons_cons]⟩
  intro m
  induction m with
  | zero => exact ⟨[], by simp⟩
  | succ m ih =>
    obtain ⟨w, h1, h2, h3⟩ := ih
    obtain ⟨w', h4, h5, h6⟩ := key h w h2
    exact ⟨w', by simp at h4; omega, h5, by rw [h6, h3]⟩

theorem transGen_prepend {E : Nat → Nat → Prop} {a b : Nat} (h : Relation.TransGen E a b) (l : List Nat)
    (hl : (b :: l).IsChain E) : ∃ w : List Nat, (b :: l).length ≤ w.length ∧ (a :: w).IsChain E := by
  induction h generalizing l with
  | single h => exact ⟨_ :: l, le_rfl, List.isChain_cons_cons.2 ⟨h, hl⟩⟩
  | tail _ h ih =>
    obtain ⟨w, h1, h2⟩ := ih (_ :: l) (List.isChain_cons_cons.2 ⟨h, hl⟩)
    exact ⟨w, by simp at h1 ⊢; omega, h2⟩

variable {K : Type} [Field K] [LinearOrder K] [IsStrictOrderedRing K]

/-- A cycle reachable from `src` that avoids `src` and `dst` is reported. -/
theorem searchPaths_cyclic {n : Nat} {dag : Nat → Nat → Option K} {src dst c : Nat} {thr : K}
    (hne : src ≠ dst)
    (h1 : Relation.TransGen (fun a b => Edge n (clean dag) thr a b ∧ b ≠ src ∧ b ≠ dst) src c)
    (h2 : Relation.TransGen (fun a b => Edge n (clean dag) thr a b ∧ b ≠ src ∧ b ≠ dst) c c) :
    searchPaths n dag src dst thr = some (.error .cyclic) := by
  obtain ⟨w, hw, hch, _⟩ := long_walk h2 n
  obtain ⟨w', hw', hch'⟩ := transGen_prepend h1 w hch
  cases w' with
  | nil => simp at hw'
  | cons w0 w'' =>
    rw [List.isChain_cons_cons] at hch'
    have hav : ∀ x ∈ w0 :: w'', x ≠ src ∧ x ≠ dst := by
      have : ∀ (l : List Nat) (a : Nat), (a ≠ src ∧ a ≠ dst) →
          (a :: l).IsChain (fun a b => Edge n (clean dag) thr a b ∧ b ≠ src ∧ b ≠ dst) →
          ∀ x ∈ a :: l, x ≠ src ∧ x ≠ dst := by
        intro l
        induction l with
        | nil => intro a ha _ x hx; simp at hx; subst hx; exact ha
        | cons b l ih =>
          intro a ha h x hx
          rw [List.isChain_cons_cons] at h
          rcases List.mem_cons.1 hx with rfl | hx
          · exact ha
          · exact ih b h.1.2 h.2 x hx
      exact this w'' w0 hch'.1.2 hch'.2
    obtain ⟨k, hk⟩ := dfs_long (n := n) (dst := dst) (src := src) (tbl0 := toIndices n dag thr) n src
      (toIndices n dag thr src) [] w0 w'' [] (toIndices n dag thr) (by simp) (fun _ => rfl) hne
      (edge_iff.1 hch'.1.1).2
      (hch'.2.imp (fun a b h => (edge_iff.1 h.1).2)) hav (fun _ _ => rfl)
      (by simp at hw' ⊢; omega)
    exact searchPaths_eq_of_dfs (f := 0 + k) (hk 0)

end Verif.Paths
