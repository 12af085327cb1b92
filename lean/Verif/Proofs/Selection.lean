import Verif.Proofs.Var
import Verif.Proofs.Varma

/-!
Helper lemmas about the choice of the lag order by an information criterion and about the bootstrap of the time series
models.
-/
set_option autoImplicit false
set_option linter.unusedSectionVars false
namespace Verif

variable {K : Type} [Field K] [LinearOrder K] [IsStrictOrderedRing K]

/-- The loop that keeps the first element with the smallest criterion. -/
theorem fold_first_min {F : Type} (crit : F → Option K) (step : Option F → F → Option F)
    (h0 : ∀ best f, crit f = none → step best f = best) (hn : ∀ f v, crit f = some v → step none f = some f)
    (hv : ∀ f b v w, crit f = some v → crit b = some w → step (some b) f = if v < w then some f else some b) (l : List F) :
    (l.foldl step none = none → ∀ f ∈ l, crit f = none) ∧
    (∀ f, l.foldl step none = some f → ∃ (i : Nat) (v : K), l[i]? = some f ∧ crit f = some v ∧
      ∀ (j : Nat) (g : F) (w : K), l[j]? = some g → crit g = some w → v ≤ w ∧ (j < i → v < w)) := by
  induction l using List.reverseRecOn with
  | nil => simp
  | append_singleton l x ih =>
    obtain ⟨ih1, ih2⟩ := ih
    rw [List.foldl_append, List.foldl_cons, List.foldl_nil]
    generalize l.foldl step none = b at ih1 ih2
    have hcase : ∀ (j : Nat) (g : F), (l ++ [x])[j]? = some g → (j < l.length ∧ l[j]? = some g) ∨ (j = l.length ∧ g = x) := by
      intro j g h
      rcases Nat.lt_trichotomy j l.length with h1 | h1 | h1
      · rw [List.getElem?_append_left h1] at h; exact Or.inl ⟨h1, h⟩
      · subst h1; simp at h; exact Or.inr ⟨rfl, h.symm⟩
      · rw [List.getElem?_append_right h1.le] at h
        rw [List.getElem?_eq_none (by simp; omega)] at h
        cases h
    have hin : ∀ (j : Nat) (g : F), l[j]? = some g → (l ++ [x])[j]? = some g := by
      intro j g h
      rw [List.getElem?_append_left (List.getElem?_eq_some_iff.1 h).1]; exact h
    have hidx : ∀ (j : Nat) (g : F), l[j]? = some g → j < l.length := fun j g h => (List.getElem?_eq_some_iff.1 h).1
    cases hx : crit x with
    | none =>
      rw [h0 _ _ hx]
      refine ⟨?_, ?_⟩
      · intro h f hf
        rcases List.mem_append.1 hf with hf | hf
        · exact ih1 h f hf
        · rw [List.mem_singleton] at hf; subst hf; exact hx
      · intro f h
        obtain ⟨i, v, h1, h2, h3⟩ := ih2 f h
        refine ⟨i, v, hin _ _ h1, h2, fun j g w hj hw => ?_⟩
        rcases hcase j g hj with ⟨_, h⟩ | ⟨_, rfl⟩
        · exact h3 j g w h hw
        · rw [hx] at hw; cases hw
    | some v0 =>
      cases b with
      | none =>
        rw [hn _ _ hx]
        refine ⟨fun h => (by cases h), ?_⟩
        intro f h
        simp only [Option.some.injEq] at h
        subst h
        refine ⟨l.length, v0, by simp, hx, fun j g w hj hw => ?_⟩
        rcases hcase j g hj with ⟨h4, h⟩ | ⟨h4, rfl⟩
        · rw [ih1 rfl g (List.mem_of_getElem? h)] at hw; cases hw
        · rw [hx] at hw
          injection hw with hw
          exact ⟨hw.le, fun h => absurd h (by omega)⟩
      | some b =>
        obtain ⟨i, v, h1, h2, h3⟩ := ih2 b rfl
        rw [hv _ _ _ _ hx h2]
        by_cases hlt : v0 < v
        · simp only [hlt, if_true]
          refine ⟨fun h => (by cases h), ?_⟩
          intro f h
          simp only [Option.some.injEq] at h
          subst h
          refine ⟨l.length, v0, by simp, hx, fun j g w hj hw => ?_⟩
          rcases hcase j g hj with ⟨h4, h⟩ | ⟨h4, rfl⟩
          · have := (h3 j g w h hw).1
            exact ⟨(lt_of_lt_of_le hlt this).le, fun _ => lt_of_lt_of_le hlt this⟩
          · rw [hx] at hw
            injection hw with hw
            exact ⟨hw.le, fun h => absurd h (by omega)⟩
        · simp only [hlt, if_false]
          refine ⟨fun h => (by cases h), ?_⟩
          intro f h
          simp only [Option.some.injEq] at h
          subst h
          refine ⟨i, v, hin _ _ h1, h2, fun j g w hj hw => ?_⟩
          rcases hcase j g hj with ⟨_, h⟩ | ⟨h4, rfl⟩
          · exact h3 j g w h hw
          · rw [hx] at hw
            injection hw with hw
            subst hw
            exact ⟨not_lt.1 hlt, fun h => absurd h (by have := hidx _ _ h1; omega)⟩

/-- If nothing has a defined criterion, nothing is kept. -/
theorem fold_first_none {F : Type} (crit : F → Option K) (step : Option F → F → Option F)
    (hs : ∀ best f, crit f = none → step best f = best) (l : List F) (h : ∀ f ∈ l, crit f = none) :
    l.foldl step none = none := by
  induction l with
  | nil => rfl
  | cons x l ih =>
    rw [List.foldl_cons, hs _ _ (h x (by simp))]
    exact ih (fun f hf => h f (List.mem_cons_of_mem _ hf))

namespace Varma

/-- Order `(p', q')` is tried before `(p, q)`. -/
def Earlier (a b : Nat × Nat) : Prop := a.1 < b.1 ∨ (a.1 = b.1 ∧ a.2 < b.2)

theorem grid_pairwise (P Q : Nat) :
    ((List.range P).flatMap (fun p => (List.range Q).map (fun q => (p, q)))).Pairwise Earlier := by
  rw [List.pairwise_flatMap]
  constructor
  · intro p _
    rw [List.pairwise_map]
    exact List.pairwise_lt_range.imp (fun h => Or.inr ⟨rfl, h⟩)
  · refine List.pairwise_lt_range.imp (fun {a b} h => ?_)
    intro x hx y hy
    rw [List.mem_map] at hx hy
    obtain ⟨_, _, rfl⟩ := hx
    obtain ⟨_, _, rfl⟩ := hy
    exact Or.inl h

theorem earlier_irrefl (a : Nat × Nat) : ¬ Earlier a a := by
  rintro (h | ⟨_, h⟩) <;> omega

theorem earlier_asymm {a b : Nat × Nat} (h : Earlier a b) : ¬ Earlier b a := by
  rcases h with h | ⟨h, h'⟩ <;> rintro (g | ⟨g, g'⟩) <;> omega

theorem orders_pairwise (o : Nat × Nat) : (orders o).Pairwise Earlier :=
  (grid_pairwise _ _).sublist List.erase_sublist

theorem mem_orders (o a : Nat × Nat) : a ∈ orders o ↔ a.1 ≤ o.1 ∧ a.2 ≤ o.2 ∧ a ≠ (0, 0) := by
  have hnd : ((List.range (o.1 + 1)).flatMap (fun p => (List.range (o.2 + 1)).map (fun q => (p, q)))).Nodup :=
    (grid_pairwise _ _).imp (fun {a b} h => by rintro rfl; exact earlier_irrefl _ h)
  unfold orders
  rw [hnd.mem_erase_iff]
  obtain ⟨p, q⟩ := a
  simp only [List.mem_flatMap, List.mem_range, List.mem_map, Prod.mk.injEq, ne_eq]
  constructor
  · rintro ⟨h, p', hp, q', hq, rfl, rfl⟩
    exact ⟨by omega, by omega, h⟩
  · rintro ⟨h1, h2, h3⟩
    exact ⟨h3, p, by omega, q, by omega, rfl, rfl⟩

end Varma

/-! ### The array of total effects -/

namespace Var

theorem foldl_assign {V : Type} (l : List ((Nat × Nat) × V)) (m : Nat → Nat → V) (r c : Nat) :
    (∃ v, ((r, c), v) ∈ l ∧ l.foldl (fun m a => fun r c => if r = a.1.1 ∧ c = a.1.2 then a.2 else m r c) m r c = v) ∨
    ((∀ v, ((r, c), v) ∉ l) ∧
      l.foldl (fun m a => fun r c => if r = a.1.1 ∧ c = a.1.2 then a.2 else m r c) m r c = m r c) := by
  induction l generalizing m with
  | nil => right; simp
  | cons x l ih =>
    rw [List.foldl_cons]
    rcases ih (fun r c => if r = x.1.1 ∧ c = x.1.2 then x.2 else m r c) with ⟨v, h1, h2⟩ | ⟨h1, h2⟩
    · left; exact ⟨v, List.mem_cons_of_mem _ h1, h2⟩
    · by_cases hx : r = x.1.1 ∧ c = x.1.2
      · left
        refine ⟨x.2, ?_, ?_⟩
        · obtain ⟨rfl, rfl⟩ := hx; simp
        · rw [h2, if_pos hx]
      · right
        refine ⟨?_, ?_⟩
        · intro v hv
          rcases List.mem_cons.1 hv with h | h
          · rw [← h] at hx; exact hx ⟨rfl, rfl⟩
          · exact h1 v h
        · rw [h2, if_neg hx]

theorem mem_totalAssigns {V : Type} {n lags : Nat} {order : List Nat} {te : Nat → Nat → Nat → V} {r c : Nat} {v : V} :
    ((r, c), v) ∈ totalAssigns n lags order te ↔
      ∃ i, order.reverse[i]? = some r ∧
        ((c ∈ order.take (n - (i + 1)) ∧ v = te c r 0) ∨
         (∃ lag s, lag < lags ∧ s < n ∧ c = s + n * (lag + 1) ∧ v = te s r (lag + 1))) := by
  unfold totalAssigns
  simp only [List.mem_flatMap, List.mem_append, List.mem_map, List.mem_range, Prod.mk.injEq, Prod.exists,
    List.mem_zipIdx_iff_getElem?]
  constructor
  · rintro ⟨a, i, hi, h | h⟩
    · obtain ⟨w, hw, ⟨rfl, rfl⟩, rfl⟩ := h
      exact ⟨i, hi, Or.inl ⟨hw, rfl⟩⟩
    · obtain ⟨lag, hl, s, hs, ⟨rfl, rfl⟩, rfl⟩ := h
      exact ⟨i, hi, Or.inr ⟨lag, s, hl, hs, rfl, rfl⟩⟩
  · rintro ⟨i, hi, h | h⟩
    · exact ⟨r, i, hi, Or.inl ⟨c, h.1, ⟨rfl, rfl⟩, h.2.symm⟩⟩
    · obtain ⟨lag, s, hl, hs, rfl, rfl⟩ := h
      exact ⟨r, i, hi, Or.inr ⟨lag, hl, s, hs, ⟨rfl, rfl⟩, rfl⟩⟩

/-- In an order of `n` variables, the sources of position `c` of the reversed order are exactly its predecessors. -/
theorem take_iff_before {n : Nat} {order : List Nat} (ho : order.Nodup) (hl : order.length = n) {i r c : Nat}
    (hi : order.reverse[i]? = some r) : c ∈ order.take (n - (i + 1)) ↔ Before order c r := by
  have hi' : i < order.reverse.length := (List.getElem?_eq_some_iff.1 hi).1
  rw [List.length_reverse] at hi'
  have hr : order[n - (i + 1)]? = some r := by
    rw [← hi, List.getElem?_reverse hi']
    congr 1
    omega
  obtain ⟨hlt, hget⟩ := List.getElem?_eq_some_iff.1 hr
  have hsplit : order = order.take (n - (i + 1)) ++ r :: order.drop (n - (i + 1) + 1) := by
    conv_lhs => rw [← List.take_append_drop (n - (i + 1)) order, List.drop_eq_getElem_cons hlt, hget]
  constructor
  · intro h
    rw [hsplit]
    exact Before.of_mem_append h (by simp)
  · intro h
    by_contra hc
    obtain ⟨a, b, d, e⟩ := h
    have hnd := ho
    rw [hsplit] at hnd
    have hc' : c ∈ order := by rw [e]; simp
    rw [hsplit, List.mem_append] at hc'
    have hcd : c ∈ r :: order.drop (n - (i + 1) + 1) := hc'.resolve_left hc
    by_cases hcr : c = r
    · subst hcr
      rw [e] at ho
      simp [List.nodup_append] at ho
    · have hcd' : c ∈ order.drop (n - (i + 1) + 1) := by simpa [hcr] using hcd
      have h2 : Before order r c := by
        rw [hsplit]
        obtain ⟨s, t, hst⟩ := List.append_of_mem hcd'
        exact ⟨order.take (n - (i + 1)), s, t, by rw [hst]⟩
      exact Before.irrefl ho _ (h2.trans ho ⟨a, b, d, e⟩)

end Var

end Verif
