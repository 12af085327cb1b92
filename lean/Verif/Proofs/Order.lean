import Verif.Spec.Graph
import Mathlib.Data.List.Nodup
import Mathlib.Data.List.Perm.Basic
import Mathlib.Data.List.Chain

/-! Facts about `Before`. -/
set_option autoImplicit false
namespace Verif

theorem Before.irrefl {l : List Nat} (hl : l.Nodup) (a : Nat) : ¬ Before l a a := by
  rintro ⟨x, y, z, rfl⟩
  simp [List.nodup_append] at hl

theorem Before.mem_left {l : List Nat} {a b : Nat} (h : Before l a b) : a ∈ l := by
  obtain ⟨x, y, z, rfl⟩ := h; simp

theorem Before.mem_right {l : List Nat} {a b : Nat} (h : Before l a b) : b ∈ l := by
  obtain ⟨x, y, z, rfl⟩ := h; simp

theorem Before.trans {l : List Nat} (hl : l.Nodup) {a b c : Nat} (h1 : Before l a b) (h2 : Before l b c) :
    Before l a c := by
  obtain ⟨x, y, z, h1⟩ := h1
  obtain ⟨x', y', z', h2⟩ := h2
  have e : x ++ a :: (y ++ b :: z) = (x ++ a :: y) ++ b :: z := by simp
  have h3 : (x ++ a :: y) ++ b :: z = x' ++ b :: (y' ++ c :: z') := by rw [← e, ← h1, h2]
  have hn : ((x ++ a :: y) ++ b :: z).Nodup := by rw [← e, ← h1]; exact hl
  have hl : x ++ a :: y = x' := by
    have i1 : List.idxOf b ((x ++ a :: y) ++ b :: z) = (x ++ a :: y).length := by
      rw [List.idxOf_append_of_notMem]
      · simp
      · intro hm
        exact (List.disjoint_of_nodup_append hn) hm (by simp)
    have hn' : (x' ++ b :: (y' ++ c :: z')).Nodup := by rw [← h3]; exact hn
    have i2 : List.idxOf b (x' ++ b :: (y' ++ c :: z')) = x'.length := by
      rw [List.idxOf_append_of_notMem]
      · simp
      · intro hm
        exact (List.disjoint_of_nodup_append hn') hm (by simp)
    rw [h3, i2] at i1
    exact (List.append_inj h3 i1.symm).1
  subst hl
  exact ⟨x, y ++ b :: y', z', by rw [h2]; simp⟩

theorem Before.of_append_left {l l' : List Nat} {a b : Nat} (h : Before l a b) : Before (l ++ l') a b := by
  obtain ⟨x, y, z, rfl⟩ := h
  exact ⟨x, y, z ++ l', by simp⟩

theorem Before.of_append_right {l l' : List Nat} {a b : Nat} (h : Before l' a b) : Before (l ++ l') a b := by
  obtain ⟨x, y, z, rfl⟩ := h
  exact ⟨l ++ x, y, z, by simp⟩

theorem Before.of_mem_append {l l' : List Nat} {a b : Nat} (ha : a ∈ l) (hb : b ∈ l') :
    Before (l ++ l') a b := by
  obtain ⟨x, y, rfl⟩ := List.append_of_mem ha
  obtain ⟨z, w, rfl⟩ := List.append_of_mem hb
  exact ⟨x, y ++ z, w, by simp⟩

/-- Two different members are ordered one way or the other. -/
theorem Before.total {l : List Nat} {a b : Nat} (ha : a ∈ l) (hb : b ∈ l) (hab : a ≠ b) :
    Before l a b ∨ Before l b a := by
  obtain ⟨x, y, rfl⟩ := List.append_of_mem ha
  rcases List.mem_append.1 hb with h | h
  · exact Or.inr (Before.of_mem_append h (by simp))
  · rcases List.mem_cons.1 h with h | h
    · exact absurd h.symm hab
    · left
      have : x ++ a :: y = (x ++ [a]) ++ y := by simp
      rw [this]
      exact Before.of_mem_append (by simp) h

/-- If all edges follow a duplicate-free list, there is no cycle. -/
theorem acyclic_of_before {E : Nat → Nat → Prop} {l : List Nat} (hl : l.Nodup)
    (h : ∀ a b, E a b → Before l a b) : Acyclic E := by
  have hT : ∀ a b, Relation.TransGen E a b → Before l a b := by
    intro a b h'
    induction h' with
    | single h' => exact h _ _ h'
    | tail _ h' ih => exact Before.trans hl ih (h _ _ h')
  exact fun i hi => Before.irrefl hl i (hT i i hi)

theorem before_of_transGen {E : Nat → Nat → Prop} {l : List Nat} (hl : l.Nodup)
    (h : ∀ a b, E a b → Before l a b) {a b : Nat} (h' : Relation.TransGen E a b) : Before l a b := by
  induction h' with
  | single h' => exact h _ _ h'
  | tail _ h' ih => exact Before.trans hl ih (h _ _ h')

theorem IsOrder.perm {n : Nat} {l : List Nat} : IsOrder n l ↔ l.Perm (List.range n) := by
  constructor
  · rintro ⟨h1, h2⟩
    rw [List.perm_ext_iff_of_nodup h1 List.nodup_range]
    simpa using h2
  · intro h
    refine ⟨h.nodup_iff.2 List.nodup_range, fun i => ?_⟩
    rw [h.mem_iff, List.mem_range]

/-- A nonempty finite set with an acyclic relation has a minimal element. -/
theorem exists_minimal {E : Nat → Nat → Prop} (hE : Acyclic E) : ∀ (l : List Nat), l ≠ [] →
    ∃ m ∈ l, ∀ x ∈ l, ¬ E x m := by
  intro l hl
  -- follow the relation backwards; the chain cannot repeat
  by_contra hcon
  have hstep : ∀ m ∈ l, ∃ x ∈ l, E x m := by
    intro m hm
    by_contra h
    exact hcon ⟨m, hm, fun x hx hxm => h ⟨x, hx, hxm⟩⟩
  have hch : ∀ k, ∃ c : List Nat, c.length = k + 1 ∧ c.IsChain E ∧ ∀ x ∈ c, x ∈ l := by
    intro k
    induction k with
    | zero =>
      obtain ⟨a, l', rfl⟩ := List.exists_cons_of_ne_nil hl
      exact ⟨[a], by simp, by simp, by simp⟩
    | succ k ih =>
      obtain ⟨c, h1, h2, h3⟩ := ih
      match c with
      | [] => simp at h1
      | a :: c =>
        obtain ⟨x, hx, hxa⟩ := hstep a (h3 a (by simp))
        refine ⟨x :: a :: c, by simp at h1 ⊢; omega, List.isChain_cons_cons.2 ⟨hxa, h2⟩, ?_⟩
        intro y hy
        rcases List.mem_cons.1 hy with rfl | hy
        · exact hx
        · exact h3 y hy
  obtain ⟨c, h1, h2, h3⟩ := hch l.length
  have hnd : c.Nodup := by
    clear h1 h3
    induction c with
    | nil => simp
    | cons a c ih =>
      refine List.nodup_cons.2 ⟨fun hm => ?_, ih h2.tail⟩
      have : ∀ (c : List Nat) (a : Nat), (a :: c).IsChain E → ∀ b ∈ c, Relation.TransGen E a b := by
        intro c
        induction c with
        | nil => simp
        | cons d c ih =>
          intro a h b hb
          rw [List.isChain_cons_cons] at h
          rcases List.mem_cons.1 hb with rfl | hb
          · exact .single h.1
          · exact .head h.1 (ih d h.2 b hb)
      exact hE a (this c a h2 a hm)
  have := (List.subperm_of_subset hnd h3).length_le
  omega

end Verif
