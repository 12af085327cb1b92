import Verif.Model.Ica
import Verif.Proofs.Order
import Verif.Proofs.Bootstrap
import Verif.Proofs.DirectLingam
import Mathlib.Tactic.Ring
import Mathlib.Data.List.Perm.Subperm

set_option linter.unusedSectionVars false
set_option autoImplicit false
namespace Verif.Ica

theorem rowAbsSum_eq_zero {k : Nat} {m : Mat} {i : Nat} : rowAbsSum k m i = 0 ↔ ∀ j, j < k → m i j = 0 := by
  unfold rowAbsSum
  constructor
  · intro h j hj
    have := List.all_zero_of_le_zero_le_of_sum_eq_zero (l := (List.range k).map (fun j => |m i j|))
      (by intro x hx; obtain ⟨a, _, rfl⟩ := List.mem_map.1 hx; exact abs_nonneg _) h
      (List.mem_map.2 ⟨j, List.mem_range.2 hj, rfl⟩)
    exact abs_eq_zero.1 this
  · intro h
    apply List.sum_eq_zero
    intro x hx
    obtain ⟨a, ha, rfl⟩ := List.mem_map.1 hx
    rw [h a (List.mem_range.1 ha), abs_zero]

theorem getElem?_skip (l : List Nat) (t i : Nat) : (l.eraseIdx t)[i]? = l[skip t i]? := by
  rw [List.getElem?_eraseIdx]
  unfold skip
  split <;> rfl

/-- The state of the loop: `m` is `M` restricted to `orig`. -/
structure Inv (n : Nat) (M : Mat) (k : Nat) (m : Mat) (orig acc : List Nat) : Prop where
  len : orig.length = k
  perm : (acc ++ orig).Perm (List.range n)
  mat : ∀ i j a b, orig[i]? = some a → orig[j]? = some b → m i j = M a b
  before : ∀ a ∈ acc, ∀ b, b < n → M a b ≠ 0 → Before acc b a

theorem perm_eraseIdx {l : List Nat} {t a : Nat} (h : l[t]? = some a) : (a :: l.eraseIdx t).Perm l := by
  obtain ⟨ht, rfl⟩ := List.getElem?_eq_some_iff.1 h
  exact List.getElem_cons_eraseIdx_perm ht

theorem Inv.step {n : Nat} {M : Mat} {k : Nat} {m : Mat} {orig acc : List Nat} (h : Inv n M (k + 1) m orig acc)
    {t : Nat} (ht : t < k + 1) (h0 : ∀ j, j < k + 1 → m t j = 0) :
    Inv n M k (fun i j => m (skip t i) (skip t j)) (orig.eraseIdx t) (acc ++ [orig.getD t 0]) := by
  obtain ⟨hl, hp, hm, hb⟩ := h
  have hta : orig[t]? = some (orig.getD t 0) := by
    rw [List.getD_eq_getElem?_getD, List.getElem?_eq_getElem (by omega)]; rfl
  refine ⟨?_, ?_, ?_, ?_⟩
  · rw [List.length_eraseIdx, if_pos (by omega)]; omega
  · rw [List.append_assoc]
    exact ((perm_eraseIdx hta).append_left acc).trans hp
  · intro i j a b hi hj
    rw [getElem?_skip] at hi hj
    exact hm _ _ _ _ hi hj
  · intro a ha b hbn hab
    rcases List.mem_append.1 ha with ha | ha
    · exact (hb a ha b hbn hab).of_append_left
    · rw [List.mem_singleton] at ha
      subst ha
      have hmem : b ∈ acc ++ orig := hp.mem_iff.2 (List.mem_range.2 hbn)
      rcases List.mem_append.1 hmem with hb' | hb'
      · exact Before.of_mem_append hb' (by simp)
      · exfalso
        obtain ⟨j, hj⟩ := List.getElem?_of_mem hb'
        have hjl : j < k + 1 := by
          have := (List.getElem?_eq_some_iff.1 hj).1; omega
        exact hab ((hm t j _ _ hta hj).symm.trans (h0 j hjl))

/-- What the loop leaves behind. -/
theorem searchLoop_spec {n : Nat} {M : Mat} : ∀ {k : Nat} {m : Mat} {orig acc : List Nat}, Inv n M k m orig acc →
    ∃ rest, (searchLoop k m orig acc ++ rest).Perm (List.range n) ∧
      (∀ a ∈ searchLoop k m orig acc, ∀ b, b < n → M a b ≠ 0 → Before (searchLoop k m orig acc) b a) ∧
      (∀ a ∈ rest, ∃ b ∈ rest, M a b ≠ 0)
  | 0, m, orig, acc, h => by
    refine ⟨[], ?_, h.before, by simp⟩
    have := List.length_eq_zero_iff.1 h.len
    have hp := h.perm
    rw [this] at hp
    exact hp
  | k + 1, m, orig, acc, h => by
    cases hf : (List.range (k + 1)).find? (fun i => decide (rowAbsSum (k + 1) m i = 0)) with
    | none =>
      simp only [searchLoop, hf]
      refine ⟨orig, h.perm, h.before, ?_⟩
      intro a ha
      obtain ⟨i, hi⟩ := List.getElem?_of_mem ha
      have hik : i < k + 1 := by
        have := (List.getElem?_eq_some_iff.1 hi).1; have := h.len; omega
      have := List.find?_eq_none.1 hf i (List.mem_range.2 hik)
      rw [decide_eq_true_eq, rowAbsSum_eq_zero] at this
      push Not at this
      obtain ⟨j, hj, hne⟩ := this
      have hj' : orig[j]? = some (orig[j]'(by have := h.len; omega)) := List.getElem?_eq_getElem _
      refine ⟨_, List.mem_of_getElem? hj', ?_⟩
      rw [← h.mat i j _ _ hi hj']; exact hne
    | some t =>
      simp only [searchLoop, hf]
      have h1 := List.mem_range.1 (List.mem_of_find?_eq_some hf)
      have h2 := List.find?_some hf
      rw [decide_eq_true_eq, rowAbsSum_eq_zero] at h2
      exact searchLoop_spec (h.step h1 h2)

theorem inv_init (n : Nat) (M : Mat) : Inv n M n M (List.range n) [] := by
  refine ⟨by simp, by simp, ?_, by simp⟩
  intro i j a b hi hj
  rw [List.getElem?_range (by have := (List.getElem?_eq_some_iff.1 hi).1; simpa using this)] at hi
  rw [List.getElem?_range (by have := (List.getElem?_eq_some_iff.1 hj).1; simpa using this)] at hj
  cases hi; cases hj; rfl

/-- An order is consistent with a matrix if it lists every variable and every nonzero entry points forward. -/
def Consistent (n : Nat) (M : Mat) (o : List Nat) : Prop :=
  IsOrder n o ∧ ∀ i j, i < n → j < n → M i j ≠ 0 → Before o j i

theorem Consistent.acyclic {n : Nat} {M : Mat} {o : List Nat} (h : Consistent n M o) : Acyclic (Edge n M 0) := by
  refine acyclic_of_before h.1.1 ?_
  rintro a b ⟨ha, hb, hw⟩
  exact h.2 b a hb ha (abs_pos.1 hw)

theorem searchOrder_some {n : Nat} {M : Mat} {o : List Nat} (h : searchOrder n M = some o) : Consistent n M o := by
  obtain ⟨rest, hp, hb, _⟩ := searchLoop_spec (inv_init n M)
  unfold searchOrder at h
  simp only at h
  split at h
  · cases h
    rename_i hl
    have hr : rest = [] := by
      have := hp.length_eq
      rw [List.length_append, hl, List.length_range] at this
      exact List.length_eq_zero_iff.1 (by omega)
    subst hr
    rw [List.append_nil] at hp
    have ho := IsOrder.perm.2 hp
    exact ⟨ho, fun i j hi hj hne => hb i ((ho.2 i).2 hi) j hj hne⟩
  · cases h

theorem searchOrder_acyclic {n : Nat} {M : Mat} (h : Acyclic (Edge n M 0)) : ∃ o, searchOrder n M = some o := by
  obtain ⟨rest, hp, _, hr⟩ := searchLoop_spec (inv_init n M)
  have hrest : rest = [] := by
    by_contra hne
    obtain ⟨a, ha, hmin⟩ := exists_minimal h rest hne
    obtain ⟨b, hb, hab⟩ := hr a ha
    have hlt : ∀ x ∈ rest, x < n := fun x hx => List.mem_range.1 (hp.mem_iff.1 (List.mem_append_right _ hx))
    exact hmin b hb ⟨hlt b hb, hlt a ha, abs_pos.2 hab⟩
  subst hrest
  have := hp.length_eq
  rw [List.append_nil, List.length_range] at this
  exact ⟨searchLoop n M (List.range n) [], by unfold searchOrder; simp only [this, if_true]⟩

theorem searchOrder_none {n : Nat} {M : Mat} : searchOrder n M = none ↔ ¬ Acyclic (Edge n M 0) := by
  constructor
  · intro h hc
    obtain ⟨o, ho⟩ := searchOrder_acyclic hc
    rw [h] at ho; cases ho
  · intro h
    cases ho : searchOrder n M with
    | none => rfl
    | some o => exact absurd (searchOrder_some ho).acyclic h

/-! ### The pruning loop -/

/-- `M` with the listed positions set to zero. -/
def zeroed (M : Mat) (ps : List (Nat × Nat)) : Mat := fun i j => if (i, j) ∈ ps then 0 else M i j

theorem foldl_setZero (ps : List (Nat × Nat)) (M : Mat) : ps.foldl setZero M = zeroed M ps := by
  induction ps generalizing M with
  | nil => funext i j; simp [zeroed]
  | cons p ps ih =>
    rw [List.foldl_cons, ih]
    funext i j
    unfold zeroed setZero
    by_cases h1 : (i, j) ∈ ps
    · simp [h1]
    · by_cases h2 : i = p.1 ∧ j = p.2
      · obtain ⟨rfl, rfl⟩ := h2; simp
      · rw [if_neg h1, if_neg h2, if_neg]
        rw [List.mem_cons]
        rintro (h | h)
        · exact h2 ⟨by rw [← h], by rw [← h]⟩
        · exact h1 h

theorem setZero_zeroed (M : Mat) (ps : List (Nat × Nat)) (p : Nat × Nat) :
    setZero (zeroed M ps) p = zeroed M (ps ++ [p]) := by
  rw [← foldl_setZero, ← foldl_setZero, List.foldl_append]
  rfl

theorem pruneLoop_spec {n : Nat} {M : Mat} : ∀ {post pre : List (Nat × Nat)},
    (∃ k, k < post.length ∧ Acyclic (Edge n (zeroed M (pre ++ post.take k)) 0)) →
    ∃ k o, k < post.length ∧ pruneLoop n post (zeroed M pre) = some o ∧
      Consistent n (zeroed M (pre ++ post.take k)) o ∧
      ∀ k' < k, ¬ Acyclic (Edge n (zeroed M (pre ++ post.take k')) 0)
  | [], pre, ⟨k, hk, _⟩ => by simp at hk
  | p :: post, pre, ⟨k, hk, hac⟩ => by
    cases hs : searchOrder n (zeroed M pre) with
    | some o =>
      refine ⟨0, o, by simp, by simp only [pruneLoop, hs], by simpa using searchOrder_some hs, by simp⟩
    | none =>
      have hna := searchOrder_none.1 hs
      cases k with
      | zero => simp only [List.take_zero, List.append_nil] at hac; exact absurd hac hna
      | succ k =>
        rw [List.take_succ_cons] at hac
        obtain ⟨k', o, h1, h2, h3, h4⟩ := pruneLoop_spec (n := n) (M := M) (post := post) (pre := pre ++ [p])
          ⟨k, by simpa using hk, by simpa using hac⟩
        refine ⟨k' + 1, o, by simpa using h1, ?_, ?_, ?_⟩
        · simp only [pruneLoop, hs]
          rw [setZero_zeroed]; exact h2
        · simpa using h3
        · intro k'' hk''
          cases k'' with
          | zero => simpa using hna
          | succ k'' => simpa using h4 k'' (by omega)

/-! ### Positions -/

/-- All positions of an `n × n` matrix, each once, in the order of increasing absolute value. -/
structure SortedPositions (n : Nat) (M : Mat) (pos : List (Nat × Nat)) : Prop where
  nodup : pos.Nodup
  mem : ∀ i j, (i, j) ∈ pos ↔ i < n ∧ j < n
  sorted : pos.Pairwise (fun p q => |M p.1 p.2| ≤ |M q.1 q.2|)
  len : pos.length = n * n

theorem positions_sorted (as : Boot.Argsort) (n : Nat) (M : Mat) : SortedPositions n M (positions as n M) := by
  unfold positions
  generalize hl : (List.range (n * n)).map (fun f => |M (f / n) (f % n)|) = l
  have hlen : l.length = n * n := by rw [← hl]; simp
  have hp := as.perm l
  have hs := as.sorted l
  rw [hlen] at hp
  have hlt : ∀ f ∈ as.run l, f < n * n := fun f hf => List.mem_range.1 (hp.mem_iff.1 hf)
  refine ⟨?_, ?_, ?_, ?_⟩
  · refine List.Nodup.map_on ?_ (hp.nodup_iff.2 List.nodup_range)
    intro a _ b _ h
    obtain ⟨h1, h2⟩ := Prod.mk.inj h
    rw [← Nat.div_add_mod a n, ← Nat.div_add_mod b n, h1, h2]
  · intro i j
    rw [List.mem_map]
    constructor
    · rintro ⟨f, hf, h⟩
      obtain ⟨rfl, rfl⟩ := Prod.mk.inj h
      have hf' := hlt f hf
      have hn : 0 < n := by
        rcases Nat.eq_zero_or_pos n with h | h
        · subst h; simp at hf'
        · exact h
      exact ⟨Nat.div_lt_of_lt_mul hf', Nat.mod_lt _ hn⟩
    · rintro ⟨hi, hj⟩
      refine ⟨n * i + j, hp.mem_iff.2 (List.mem_range.2 ?_), ?_⟩
      · calc n * i + j < n * i + n := by omega
          _ = n * (i + 1) := by ring
          _ ≤ n * n := Nat.mul_le_mul_left n hi
      · have hn : 0 < n := by omega
        rw [Nat.mul_add_div hn, Nat.div_eq_of_lt hj, Nat.mul_add_mod, Nat.mod_eq_of_lt hj]
        rfl
  · rw [List.pairwise_map]
    rw [List.pairwise_map] at hs
    refine hs.imp_of_mem ?_
    intro a b ha hb h
    have key : ∀ f, f < n * n → l.getD f 0 = |M (f / n) (f % n)| := by
      intro f hf
      rw [← hl, List.getD_eq_getElem?_getD, List.getElem?_map, List.getElem?_range hf]
      rfl
    rw [key a (hlt a ha), key b (hlt b hb)] at h
    exact h
  · rw [List.length_map, hp.length_eq, List.length_range]

theorem tri_lt {n : Nat} (hn : 2 ≤ n) : n * (n + 1) / 2 < n * n := by
  rw [Nat.div_lt_iff_lt_mul (by norm_num)]
  nlinarith

/-- With all but the last position zeroed, a matrix with zero diagonal is acyclic. -/
theorem acyclic_last {n : Nat} {M : Mat} {pos : List (Nat × Nat)} (h : SortedPositions n M pos)
    (hd : ∀ i, i < n → M i i = 0) : Acyclic (Edge n (zeroed M (pos.take (n * n - 1))) 0) := by
  rcases Nat.eq_zero_or_pos n with hn | hn
  · subst hn
    intro i hi
    obtain ⟨b, hb, _⟩ := Relation.TransGen.head'_iff.1 hi
    exact absurd hb.1 (by omega)
  have hnn : 0 < n * n := Nat.mul_pos hn hn
  have hlt : n * n - 1 < pos.length := by rw [h.len]; omega
  have hsplit : pos = pos.take (n * n - 1) ++ [pos[n * n - 1]] := by
    have := List.take_append_drop (n * n - 1) pos
    rw [List.drop_eq_getElem_cons hlt, List.drop_of_length_le (by rw [h.len]; omega)] at this
    exact this.symm
  generalize hp : pos[n * n - 1] = p at hsplit
  obtain ⟨a, b⟩ := p
  have hE : ∀ x y, Edge n (zeroed M (pos.take (n * n - 1))) 0 x y → x = b ∧ y = a := by
    rintro x y ⟨hx, hy, hw⟩
    have hmem := (h.mem y x).2 ⟨hy, hx⟩
    rw [hsplit] at hmem
    rcases List.mem_append.1 hmem with h' | h'
    · simp [zeroed, h'] at hw
    · rw [List.mem_singleton] at h'
      obtain ⟨rfl, rfl⟩ := Prod.mk.inj h'
      exact ⟨rfl, rfl⟩
  intro i hi
  obtain ⟨c, hc, hrest⟩ := Relation.TransGen.head'_iff.1 hi
  obtain ⟨rfl, rfl⟩ := hE _ _ hc
  -- i = b, c = a; the walk returns from a to b
  rcases Relation.ReflTransGen.cases_head hrest with heq | ⟨d, hd', _⟩
  · subst heq
    -- a diagonal entry, hence zero
    obtain ⟨hx, _, hw⟩ := hc
    unfold zeroed at hw
    split at hw
    · simp at hw
    · rw [hd _ hx, abs_zero] at hw; exact lt_irrefl _ hw
  · obtain ⟨h1, h2⟩ := hE _ _ hd'
    -- a = b
    subst h1
    obtain ⟨hx, _, hw⟩ := hc
    unfold zeroed at hw
    split at hw
    · simp at hw
    · rw [hd _ hx, abs_zero] at hw; exact lt_irrefl _ hw

end Verif.Ica
