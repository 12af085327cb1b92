import Verif.Model.Paths
import Verif.Spec.Graph
import Mathlib.Data.List.Nodup
import Mathlib.Data.List.Chain
import Mathlib.Tactic.Linarith
import Mathlib.Tactic.Ring

/-! Helper lemmas about the path search. -/
set_option linter.unusedSectionVars false

set_option autoImplicit false
namespace Verif.Paths

/-! ### Unfolding -/

theorem dfs_over {n dst f tbl cur rem rest acc} (h : n < rest.length + 1) :
    dfs n dst (f + 1) tbl ((cur, rem) :: rest) acc = some (.error .cyclic) := by
  cases rem <;> simp [dfs, h]

theorem dfs_hit {n dst f tbl cur rem rest acc} (h : ¬ n < rest.length + 1) (hc : cur = dst) :
    dfs n dst (f + 1) tbl ((cur, rem) :: rest) acc =
      dfs n dst f tbl rest (acc ++ [(((cur, rem) :: rest).map Prod.fst).reverse]) := by
  cases rem <;> simp [dfs, h, hc]

theorem dfs_back {n dst f tbl cur rest acc} (h : ¬ n < rest.length + 1) (hc : cur ≠ dst) :
    dfs n dst (f + 1) tbl ((cur, []) :: rest) acc = dfs n dst f tbl rest acc := by
  simp [dfs, h, hc]

theorem dfs_push {n dst f tbl cur nx rem rest acc} (h : ¬ n < rest.length + 1) (hc : cur ≠ dst) :
    dfs n dst (f + 1) tbl ((cur, nx :: rem) :: rest) acc =
      dfs n dst f (if rest = [] then Function.update tbl cur rem else tbl)
        ((nx, (if rest = [] then Function.update tbl cur rem else tbl) nx) :: (cur, rem) :: rest) acc := by
  simp [dfs, h, hc]

/-! ### Termination -/

/-- Number of loop iterations that a frame at depth `k` (with `k` frames below) may still cost. -/
def frameCost (n k r : Nat) : Nat := if n ≤ k then 1 else 1 + r * (1 + stepBound n (n - k - 1))

def cost (n : Nat) : List (Nat × List Nat) → Nat
  | [] => 0
  | fr :: rest => frameCost n rest.length fr.2.length + cost n rest

theorem frameCost_le (n k r : Nat) (hr : r ≤ n) : frameCost n k r ≤ stepBound n (n - k) := by
  unfold frameCost
  split
  · rename_i h
    have : n - k = 0 := by omega
    rw [this]; simp [stepBound]
  · rename_i h
    obtain ⟨d, hd⟩ : ∃ d, n - k = d + 1 := ⟨n - k - 1, by omega⟩
    have h2 : n - k - 1 = d := by omega
    rw [h2, hd]
    simp only [stepBound]
    exact Nat.add_le_add_left (Nat.mul_le_mul_right _ hr) 1

theorem frameCost_pos (n k r : Nat) : 1 ≤ frameCost n k r := by
  unfold frameCost; split <;> omega

theorem dfs_terminates (n dst : Nat) : ∀ (f : Nat) (tbl : Nat → List Nat)
    (frames : List (Nat × List Nat)) (acc : List (List Nat)),
    (∀ i, (tbl i).length ≤ n) → (∀ fr ∈ frames, fr.2.length ≤ n) → cost n frames < f →
    ∃ r, dfs n dst f tbl frames acc = some r := by
  intro f
  induction f with
  | zero => intro _ _ _ _ _ h; omega
  | succ f ih =>
    intro tbl frames acc ht hf hc
    match frames with
    | [] => exact ⟨_, rfl⟩
    | (cur, rem) :: rest =>
      by_cases hn : n < rest.length + 1
      · exact ⟨_, dfs_over hn⟩
      · have hpos := frameCost_pos n rest.length rem.length
        simp only [cost] at hc
        by_cases hd : cur = dst
        · rw [dfs_hit hn hd]
          exact ih _ _ _ ht (fun fr h => hf fr (List.mem_cons_of_mem _ h)) (by omega)
        · match rem with
          | [] =>
            rw [dfs_back hn hd]
            exact ih _ _ _ ht (fun fr h => hf fr (List.mem_cons_of_mem _ h)) (by omega)
          | nx :: rem' =>
            have hrem : rem'.length + 1 ≤ n := hf (cur, nx :: rem') (by simp)
            have ht' : ∀ i, ((if rest = [] then Function.update tbl cur rem' else tbl) i).length ≤ n := by
              intro i
              split
              · by_cases h : i = cur
                · subst h; simp; omega
                · rw [Function.update_of_ne h]; exact ht i
              · exact ht i
            rw [dfs_push hn hd]
            apply ih _ _ _ ht'
            · intro fr h
              rcases List.mem_cons.1 h with rfl | h
              · exact ht' nx
              rcases List.mem_cons.1 h with rfl | h
              · exact Nat.le_of_succ_le hrem
              · exact hf fr (List.mem_cons_of_mem _ h)
            · simp only [cost, List.length_cons]
              have h1 := frameCost_le n (rest.length + 1) _ (ht' nx)
              have h2 : frameCost n rest.length (nx :: rem').length
                  = frameCost n rest.length rem'.length + (1 + stepBound n (n - rest.length - 1)) := by
                unfold frameCost
                rw [if_neg (by omega), if_neg (by omega), List.length_cons]
                ring
              rw [h2] at hc
              have h3 : n - (rest.length + 1) = n - rest.length - 1 := by omega
              rw [h3] at h1
              omega

/-- More fuel does not change a finished run. -/
theorem dfs_mono (n dst : Nat) : ∀ (f : Nat) (tbl : Nat → List Nat)
    (frames : List (Nat × List Nat)) (acc : List (List Nat)) r,
    dfs n dst f tbl frames acc = some r → ∀ k, dfs n dst (f + k) tbl frames acc = some r := by
  intro f
  induction f with
  | zero => intro _ _ _ _ h; simp [dfs] at h
  | succ f ih =>
    intro tbl frames acc r h k
    rw [Nat.add_right_comm]
    match frames with
    | [] => simpa [dfs] using h
    | (cur, rem) :: rest =>
      by_cases hn : n < rest.length + 1
      · rw [dfs_over hn] at h ⊢; exact h
      · by_cases hc : cur = dst
        · rw [dfs_hit hn hc] at h ⊢; exact ih _ _ _ _ h k
        · match rem with
          | [] => rw [dfs_back hn hc] at h ⊢; exact ih _ _ _ _ h k
          | nx :: rem' => rw [dfs_push hn hc] at h ⊢; exact ih _ _ _ _ h k

variable {K : Type} [Field K] [LinearOrder K] [IsStrictOrderedRing K]

theorem toIndices_length (n : Nat) (dag : Nat → Nat → Option K) (thr : K) (i : Nat) :
    (toIndices n dag thr i).length ≤ n := by
  unfold toIndices
  exact (List.length_filter_le _ _).trans (by simp)

theorem searchPaths_terminates (n : Nat) (dag : Nat → Nat → Option K) (src dst : Nat) (thr : K) :
    ∃ r, searchPaths n dag src dst thr = some r := by
  unfold searchPaths
  apply dfs_terminates
  · exact toIndices_length n dag thr
  · intro fr h
    simp at h; subst h; exact toIndices_length n dag thr src
  · simp only [cost, List.length_nil]
    have := frameCost_le n 0 _ (toIndices_length n dag thr src)
    simp at this; omega

/-- If some amount of fuel gives `r`, the fuel chosen by the model gives `r`. -/
theorem searchPaths_eq_of_dfs {n : Nat} {dag : Nat → Nat → Option K} {src dst : Nat} {thr : K} {f r}
    (h : dfs n dst f (toIndices n dag thr) [(src, toIndices n dag thr src)] [] = some r) :
    searchPaths n dag src dst thr = some r := by
  obtain ⟨r', hr'⟩ := searchPaths_terminates n dag src dst thr
  have h1 := dfs_mono _ _ _ _ _ _ _ h (stepBound n n + 1)
  have h2 := dfs_mono _ _ _ _ _ _ _ hr' f
  rw [Nat.add_comm] at h2
  rw [hr', ← h1, ← h2]

/-! ### Enumeration of paths by depth -/

/-- All walks from `cur` that stop at the first visit of `dst`, with at most `d` nodes. -/
def enum (tbl : Nat → List Nat) (dst : Nat) : Nat → Nat → List (List Nat)
  | 0, _ => []
  | d + 1, cur => if cur = dst then [[cur]]
      else (tbl cur).flatMap (fun nx => (enum tbl dst d nx).map (cur :: ·))

theorem mem_enum {tbl : Nat → List Nat} {dst : Nat} : ∀ {d cur : Nat} {p : List Nat},
    p ∈ enum tbl dst d cur ↔
      IsPath (fun a b => b ∈ tbl a) cur dst p ∧ p.length ≤ d ∧ dst ∉ p.dropLast := by
  intro d
  induction d with
  | zero =>
    intro cur p
    simp only [enum, List.not_mem_nil, false_iff]
    rintro ⟨⟨h1, _, _⟩, h2, _⟩
    cases p <;> simp_all
  | succ d ih =>
    intro cur p
    rw [enum]
    split
    · rename_i hc
      subst hc
      constructor
      · intro h
        simp only [List.mem_singleton] at h
        subst h
        simp [IsPath]
      · rintro ⟨⟨h1, h2, h3⟩, h4, h5⟩
        match p with
        | [] => simp at h1
        | [a] => simpa using h1
        | a :: b :: p =>
          simp at h1; subst h1
          simp at h5
    · rename_i hc
      simp only [List.mem_flatMap, List.mem_map]
      constructor
      · rintro ⟨nx, hnx, q, hq, rfl⟩
        rw [ih] at hq
        obtain ⟨⟨h1, h2, h3⟩, h4, h5⟩ := hq
        match q with
        | [] => simp at h1
        | b :: q =>
          simp at h1; subst h1
          refine ⟨⟨rfl, ?_, ?_⟩, ?_, ?_⟩
          · simpa using h2
          · exact List.isChain_cons_cons.2 ⟨hnx, h3⟩
          · simp at h4 ⊢; omega
          · simp only [List.dropLast_cons_cons, List.mem_cons, not_or]
            exact ⟨fun h => hc h.symm, h5⟩
      · rintro ⟨⟨h1, h2, h3⟩, h4, h5⟩
        match p with
        | [] => simp at h1
        | [a] => simp at h1 h2; omega
        | a :: b :: p =>
          simp at h1; subst h1
          rw [List.isChain_cons_cons] at h3
          refine ⟨b, h3.1, b :: p, ?_, rfl⟩
          rw [ih]
          refine ⟨⟨rfl, by simpa using h2, h3.2⟩, by simp at h4 ⊢; omega, ?_⟩
          simp only [List.dropLast_cons_cons, List.mem_cons, not_or] at h5
          exact h5.2

theorem enum_nodup {tbl : Nat → List Nat} {dst : Nat} (ht : ∀ i, (tbl i).Nodup) :
    ∀ d cur, (enum tbl dst d cur).Nodup := by
  intro d
  induction d with
  | zero => intro cur; simp [enum]
  | succ d ih =>
    intro cur
    rw [enum]
    split
    · simp
    · rw [List.nodup_flatMap]
      refine ⟨fun x _ => (ih x).map (fun a b h => by simpa using h), ?_⟩
      refine (ht cur).imp_of_mem ?_
      intro a b ha hb hab
      rw [Function.onFun, List.disjoint_left]
      rintro p hp hq
      simp only [List.mem_map] at hp hq
      obtain ⟨q, hq1, rfl⟩ := hp
      obtain ⟨q', hq1', h⟩ := hq
      simp at h; subst h
      have h1 := (mem_enum.1 hq1).1.1
      have h2 := (mem_enum.1 hq1').1.1
      rw [h1] at h2
      exact hab (by simpa using h2)

/-! ### Graph facts -/

theorem chain_transGen {E : Nat → Nat → Prop} : ∀ {a : Nat} {l : List Nat},
    (a :: l).IsChain E → ∀ b ∈ l, Relation.TransGen E a b := by
  intro a l
  induction l generalizing a with
  | nil => simp
  | cons c l ih =>
    intro h b hb
    rw [List.isChain_cons_cons] at h
    rcases List.mem_cons.1 hb with rfl | hb
    · exact .single h.1
    · exact Relation.TransGen.head h.1 (ih h.2 b hb)

theorem chain_nodup {E : Nat → Nat → Prop} (hE : Acyclic E) : ∀ {l : List Nat},
    l.IsChain E → l.Nodup := by
  intro l
  induction l with
  | nil => simp
  | cons a l ih =>
    intro h
    refine List.nodup_cons.2 ⟨fun hm => hE a (chain_transGen h a hm), ih h.tail⟩

theorem nodup_length_le {n : Nat} {l : List Nat} (h : l.Nodup) (hl : ∀ x ∈ l, x < n) :
    l.length ≤ n := by
  have : l ⊆ List.range n := fun x hx => List.mem_range.2 (hl x hx)
  have h2 := (List.subperm_of_subset h this).length_le
  simpa using h2

/-! ### The search on an acyclic graph -/

section acyclic
variable {n dst src : Nat} {tbl0 : Nat → List Nat}

/-- Graph of the neighbour table. -/
abbrev TE (tbl0 : Nat → List Nat) (a b : Nat) : Prop := b ∈ tbl0 a

/-- Facts about the current stack: it is a path from `src` inside the graph. -/
structure StackOk (n src : Nat) (tbl0 : Nat → List Nat) (nodes : List Nat) : Prop where
  chain : nodes.reverse.IsChain (TE tbl0)
  head : nodes.getLast? = some src
  lt : ∀ x ∈ nodes, x < n

theorem StackOk.push {nodes : List Nat} {cur nx : Nat} (h : StackOk n src tbl0 (cur :: nodes))
    (hnx : nx ∈ tbl0 cur) (hlt : nx < n) : StackOk n src tbl0 (nx :: cur :: nodes) where
  chain := by
    rw [List.reverse_cons]
    refine List.isChain_append.2 ⟨h.chain, by simp, ?_⟩
    intro x hx y hy
    simp at hx hy
    subst hx hy; exact hnx
  head := by simpa using h.head
  lt := by
    intro x hx
    rcases List.mem_cons.1 hx with rfl | hx
    · exact hlt
    · exact h.lt x hx

theorem StackOk.length_le {nodes : List Nat} (hE : Acyclic (TE tbl0)) (h : StackOk n src tbl0 nodes) :
    nodes.length ≤ n := by
  have h1 := chain_nodup hE h.chain
  have := nodup_length_le h1 (fun x hx => h.lt x (List.mem_reverse.1 hx))
  simpa using this

theorem StackOk.ne_src {nodes : List Nat} (hE : Acyclic (TE tbl0)) {cur : Nat}
    (h : StackOk n src tbl0 (cur :: nodes)) (hn : nodes ≠ []) : cur ≠ src := by
  have h1 := chain_nodup hE h.chain
  rw [List.nodup_reverse, List.nodup_cons] at h1
  intro hc
  apply h1.1
  have h2 := h.head
  cases nodes with
  | nil => exact absurd rfl hn
  | cons a l =>
    rw [List.getLast?_cons_cons] at h2
    rw [hc]
    exact List.mem_of_getLast? h2

def names (frames : List (Nat × List Nat)) : List Nat := frames.map Prod.fst

variable (hE : Acyclic (TE tbl0)) (hlt : ∀ i, ∀ j ∈ tbl0 i, j < n)
include hE hlt

/-- Processing the remaining neighbours of the top frame. -/
theorem dfs_frame : ∀ (d cur : Nat) (rem : List Nat) (rest : List (Nat × List Nat))
    (acc : List (List Nat)) (tbl : Nat → List Nat),
    rest.length + d = n → StackOk n src tbl0 (cur :: names rest) → (∀ x ∈ rem, x ∈ tbl0 cur) →
    (∀ x, x ≠ src → tbl x = tbl0 x) →
    ∃ k tbl', (∀ x, x ≠ src → tbl' x = tbl0 x) ∧ ∀ f,
      dfs n dst (f + k) tbl ((cur, rem) :: rest) acc =
        dfs n dst f tbl' rest (acc ++
          (if cur = dst then [[cur]]
           else rem.flatMap (fun nx => (enum tbl0 dst (d - 1) nx).map (cur :: ·))).map
            ((names rest).reverse ++ ·)) := by
  intro d
  induction d with
  | zero =>
    intro cur rem rest acc tbl hd hs
    have := hs.length_le hE
    simp [names] at this; omega
  | succ d ih =>
    intro cur rem
    induction rem with
    | nil =>
      intro rest acc tbl hd hs _ ht
      refine ⟨1, tbl, ht, fun f => ?_⟩
      by_cases hc : cur = dst
      · rw [dfs_hit (by omega) hc]; simp [names, hc]
      · rw [dfs_back (by omega) hc]; simp [hc]
    | cons nx rem' ihr =>
      intro rest acc tbl hd hs hrem ht
      by_cases hc : cur = dst
      · refine ⟨1, tbl, ht, fun f => ?_⟩
        rw [dfs_hit (by omega) hc, if_pos hc]
        simp [names]
      · have hnx : nx ∈ tbl0 cur := hrem nx (by simp)
        have hs' : StackOk n src tbl0 (nx :: names ((cur, rem') :: rest)) := hs.push hnx (hlt _ _ hnx)
        have hne : nx ≠ src := hs'.ne_src hE (by simp [names])
        set tbl' := if rest = [] then Function.update tbl cur rem' else tbl with htbl'
        have ht' : ∀ x, x ≠ src → tbl' x = tbl0 x := by
          intro x hx
          rw [htbl']
          split
          · rename_i hr
            have : cur = src := by
              have := hs.head
              rw [hr] at this
              simpa [names] using this
            rw [Function.update_of_ne (by rw [this]; exact hx)]
            exact ht x hx
          · exact ht x hx
        obtain ⟨k1, tbl1, ht1, h1⟩ := ih nx (tbl0 nx) ((cur, rem') :: rest) acc tbl'
          (by simp; omega) hs' (fun x hx => hx) ht'
        obtain ⟨k2, tbl2, ht2, h2⟩ := ihr rest (acc ++
          (if nx = dst then [[nx]]
           else (tbl0 nx).flatMap (fun ny => (enum tbl0 dst (d - 1) ny).map (nx :: ·))).map
            ((names ((cur, rem') :: rest)).reverse ++ ·)) tbl1 hd hs
            (fun x hx => hrem x (List.mem_cons_of_mem _ hx)) ht1
        refine ⟨k2 + k1 + 1, tbl2, ht2, fun f => ?_⟩
        rw [show f + (k2 + k1 + 1) = (f + k2 + k1) + 1 by omega, dfs_push (by omega) hc]
        rw [← htbl', ht' nx hne, h1, h2]
        congr 1
        rw [List.append_assoc]
        congr 1
        simp only [if_neg hc, List.flatMap_cons, List.map_append]
        congr 1
        have hd0 : d ≠ 0 := by
          have := hs'.length_le hE
          simp [names] at this; omega
        obtain ⟨d', rfl⟩ := Nat.exists_eq_succ_of_ne_zero hd0
        simp only [Nat.succ_eq_add_one, Nat.add_sub_cancel]
        rw [enum]
        simp [names, Function.comp_def]

omit hE hlt in
theorem stackOk_single (h : src < n) : StackOk n src tbl0 [src] where
  chain := by simp
  head := by simp
  lt := by simpa using h

theorem dfs_acyclic (hsrc : src < n) :
    ∃ k, dfs n dst k tbl0 [(src, tbl0 src)] [] = some (.ok (enum tbl0 dst n src)) := by
  obtain ⟨k, tbl', _, h⟩ := dfs_frame (dst := dst) hE hlt n src (tbl0 src) [] [] tbl0 (by simp)
    (stackOk_single hsrc) (fun x hx => hx) (fun _ _ => rfl)
  refine ⟨1 + k, ?_⟩
  rw [h]
  obtain ⟨m, rfl⟩ : ∃ m, n = m + 1 := ⟨n - 1, by omega⟩
  simp [dfs, names, enum]

end acyclic

/-! ### Tables coming from a matrix -/

theorem mem_toIndices {n : Nat} {dag : Nat → Nat → Option K} {thr : K} {i j : Nat} :
    j ∈ toIndices n dag thr i ↔ j < n ∧ thr < |nan0 (dag j i)| := by
  simp [toIndices]

theorem toIndices_nodup (n : Nat) (dag : Nat → Nat → Option K) (thr : K) (i : Nat) :
    (toIndices n dag thr i).Nodup :=
  List.Nodup.filter _ List.nodup_range

/-- NaN-free reading of a matrix. -/
abbrev clean (dag : Nat → Nat → Option K) : Nat → Nat → K := fun i j => nan0 (dag i j)

theorem edge_iff {n : Nat} {dag : Nat → Nat → Option K} {thr : K} {a b : Nat} :
    Edge n (clean dag) thr a b ↔ a < n ∧ b ∈ toIndices n dag thr a := by
  rw [mem_toIndices]; rfl

theorem transGen_edge {n : Nat} {dag : Nat → Nat → Option K} {thr : K} {a b : Nat}
    (h : Relation.TransGen (TE (toIndices n dag thr)) a b) (ha : a < n) :
    Relation.TransGen (Edge n (clean dag) thr) a b ∧ b < n := by
  induction h with
  | single h => exact ⟨.single (edge_iff.2 ⟨ha, h⟩), (mem_toIndices.1 h).1⟩
  | tail _ h ih => exact ⟨ih.1.tail (edge_iff.2 ⟨ih.2, h⟩), (mem_toIndices.1 h).1⟩

theorem acyclic_TE {n : Nat} {dag : Nat → Nat → Option K} {thr : K}
    (h : Acyclic (Edge n (clean dag) thr)) : Acyclic (TE (toIndices n dag thr)) := by
  intro i hi
  have hlt : i < n := by
    obtain ⟨c, _, hc⟩ := Relation.TransGen.tail'_iff.1 hi
    exact (mem_toIndices.1 hc).1
  exact h i (transGen_edge hi hlt).1

theorem isChain_TE_iff {n : Nat} {dag : Nat → Nat → Option K} {thr : K} : ∀ {a : Nat} {p : List Nat}, a < n →
    ((a :: p).IsChain (TE (toIndices n dag thr)) ↔ (a :: p).IsChain (Edge n (clean dag) thr)) := by
  intro a p
  induction p generalizing a with
  | nil => simp
  | cons b p ih =>
    intro ha
    rw [List.isChain_cons_cons, List.isChain_cons_cons, edge_iff]
    constructor
    · rintro ⟨h1, h2⟩
      exact ⟨⟨ha, h1⟩, (ih (mem_toIndices.1 h1).1).1 h2⟩
    · rintro ⟨h1, h2⟩
      exact ⟨h1.2, (ih (mem_toIndices.1 h1.2).1).2 h2⟩

theorem isPath_TE_iff {n : Nat} {dag : Nat → Nat → Option K} {thr : K} {a b : Nat} {p : List Nat} (ha : a < n) :
    IsPath (TE (toIndices n dag thr)) a b p ↔ IsPath (Edge n (clean dag) thr) a b p := by
  unfold IsPath
  cases p with
  | nil => simp
  | cons c p =>
    constructor
    · rintro ⟨h1, h2, h3⟩
      simp at h1; subst h1
      exact ⟨rfl, h2, (isChain_TE_iff ha).1 h3⟩
    · rintro ⟨h1, h2, h3⟩
      simp at h1; subst h1
      exact ⟨rfl, h2, (isChain_TE_iff ha).2 h3⟩

theorem dst_not_mem_dropLast {E : Nat → Nat → Prop} (hE : Acyclic E) {a b : Nat} {p : List Nat}
    (h : IsPath E a b p) : b ∉ p.dropLast := by
  obtain ⟨h1, h2, h3⟩ := h
  have hn := chain_nodup hE h3
  have hp : p ≠ [] := by rintro rfl; simp at h1
  rw [← List.dropLast_append_getLast hp] at hn
  rw [List.getLast?_eq_some_getLast hp] at h2
  simp at h2
  rw [h2] at hn
  intro hm
  exact (List.disjoint_of_nodup_append hn) hm (by simp)

theorem chain_lt {n : Nat} {W : Nat → Nat → K} {thr : K} : ∀ {a : Nat} {p : List Nat}, a < n →
    (a :: p).IsChain (Edge n W thr) → ∀ x ∈ a :: p, x < n := by
  intro a p
  induction p generalizing a with
  | nil => intro ha _ x hx; simp at hx; omega
  | cons b p ih =>
    intro ha h x hx
    rw [List.isChain_cons_cons] at h
    rcases List.mem_cons.1 hx with rfl | hx
    · exact ha
    · exact ih h.1.2.1 h.2 x hx

theorem isPath_lt {n : Nat} {W : Nat → Nat → K} {thr : K} {a b : Nat} {p : List Nat} (ha : a < n)
    (h : IsPath (Edge n W thr) a b p) : ∀ x ∈ p, x < n := by
  obtain ⟨h1, h2, h3⟩ := h
  cases p with
  | nil => simp
  | cons c p => simp at h1; subst h1; exact chain_lt ha h3

/-- The result of the search on an acyclic graph. -/
theorem searchPaths_acyclic {n : Nat} {dag : Nat → Nat → Option K} {src dst : Nat} {thr : K}
    (hE : Acyclic (Edge n (clean dag) thr)) (hsrc : src < n) :
    searchPaths n dag src dst thr = some (.ok (enum (toIndices n dag thr) dst n src)) := by
  obtain ⟨k, hk⟩ := dfs_acyclic (dst := dst) (acyclic_TE hE)
    (fun i j h => (mem_toIndices.1 h).1) hsrc
  exact searchPaths_eq_of_dfs hk

theorem mem_enum_acyclic {n : Nat} {dag : Nat → Nat → Option K} {src dst : Nat} {thr : K}
    (hE : Acyclic (Edge n (clean dag) thr)) (hsrc : src < n) {p : List Nat} :
    p ∈ enum (toIndices n dag thr) dst n src ↔ IsPath (Edge n (clean dag) thr) src dst p := by
  rw [mem_enum]
  change IsPath (TE (toIndices n dag thr)) src dst p ∧ _ ↔ _
  rw [isPath_TE_iff hsrc]
  constructor
  · exact fun h => h.1
  · intro h
    exact ⟨h, nodup_length_le (chain_nodup hE h.2.2) (isPath_lt hsrc h), dst_not_mem_dropLast hE h⟩

/-! ### Effects -/

theorem coefs_clean {n : Nat} {dag : Nat → Nat → Option K} {thr : K} (hthr : 0 ≤ thr) :
    ∀ {p : List Nat}, p.IsChain (Edge n (clean dag) thr) →
    prodNan (coefs dag p) = some (pathWeight (clean dag) p) := by
  intro p
  induction p with
  | nil => intro _; simp [coefs, prodNan, pathWeight]
  | cons a p ih =>
    intro h
    cases p with
    | nil => simp [coefs, prodNan, pathWeight]
    | cons b p =>
      rw [List.isChain_cons_cons] at h
      have h2 := ih h.2
      have h3 : dag b a = some (nan0 (dag b a)) := by
        have := h.1.2.2
        cases hd : dag b a with
        | none => simp [clean, nan0, hd] at this; exact absurd this (not_lt.2 hthr)
        | some v => rfl
      generalize hv : nan0 (dag b a) = v at h3
      simp only [coefs, prodNan, h2, h3]
      simp [pathWeight, clean, hv]

theorem coefs_ne_nil {dag : Nat → Nat → Option K} {E : Nat → Nat → Prop} {a b : Nat} {p : List Nat}
    (h : IsPath E a b p) (hab : a ≠ b) : coefs dag p ≠ [] := by
  obtain ⟨h1, h2, _⟩ := h
  match p with
  | [] => simp at h1
  | [c] => simp at h1 h2; omega
  | c :: d :: p => simp [coefs]

theorem mapM_except_ok {α β ε : Type} {f : α → Except ε β} {g : α → β} : ∀ {l : List α},
    (∀ a ∈ l, f a = .ok (g a)) → l.mapM f = .ok (l.map g) := by
  intro l
  induction l with
  | nil => intro _; rfl
  | cons a l ih =>
    intro h
    rw [List.mapM_cons, h a (by simp), ih (fun b hb => h b (by simp [hb]))]
    rfl

/-- `find_all_paths` on an acyclic graph, non-negative threshold, distinct end points. -/
theorem findAllPaths_acyclic {n : Nat} {dag : Nat → Nat → Option K} {src dst : Nat} {thr : K}
    (hthr : 0 ≤ thr) (hE : Acyclic (Edge n (clean dag) thr)) (hsrc : src < n) (hne : src ≠ dst) :
    findAllPaths n dag src dst thr =
      some (.ok (enum (toIndices n dag thr) dst n src,
        (enum (toIndices n dag thr) dst n src).map (fun p => some (pathWeight (clean dag) p)))) := by
  unfold findAllPaths
  rw [searchPaths_acyclic hE hsrc]
  simp only []
  rw [mapM_except_ok (g := fun p => some (pathWeight (clean dag) p))]
  intro p hp
  rw [mem_enum_acyclic hE hsrc] at hp
  unfold pathEffect
  rw [if_neg (coefs_ne_nil hp hne), coefs_clean hthr hp.2.2]

theorem sumNan_some (l : List K) : sumNan (l.map some) = some l.sum := by
  induction l with
  | nil => simp [sumNan]
  | cons a l ih => simp [sumNan, ih]

theorem calcTotalEffect_acyclic {n : Nat} {dag : Nat → Nat → Option K} {src dst : Nat}
    (hE : Acyclic (Edge n (clean dag) 0)) (hsrc : src < n) (hdst : dst < n) (hne : src ≠ dst) :
    calcTotalEffect n dag src dst =
      some (.ok (some ((enum (toIndices n dag 0) dst n src).map (pathWeight (clean dag))).sum)) := by
  unfold calcTotalEffect
  rw [if_neg (by omega), if_neg hne, findAllPaths_acyclic le_rfl hE hsrc hne]
  rw [← sumNan_some, List.map_map]
  simp only []
  rw [if_neg (by simp)]
  rfl

end Verif.Paths
