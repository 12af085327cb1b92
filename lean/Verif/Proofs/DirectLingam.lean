import Verif.Model.DirectLingam
import Verif.Proofs.Numpy
import Verif.Proofs.Order
import Verif.Spec.Prior
import Mathlib.Data.List.Nodup
import Mathlib.Algebra.Order.BigOperators.Group.List

/-! Lemmas about the DirectLiNGAM model. -/
set_option linter.unusedSectionVars false
set_option autoImplicit false
namespace Verif.Direct

theorem mem_allPairs {n : Nat} {p : Nat × Nat} : p ∈ allPairs n ↔ p.1 < n ∧ p.2 < n := by
  obtain ⟨a, b⟩ := p
  simp only [allPairs, List.mem_flatMap, List.mem_range, List.mem_map, Prod.mk.injEq]
  constructor
  · rintro ⟨i, hi, j, hj, rfl, rfl⟩; exact ⟨hi, hj⟩
  · rintro ⟨h1, h2⟩; exact ⟨a, h1, b, h2, rfl, rfl⟩

theorem nodup_allPairs (n : Nat) : (allPairs n).Nodup := by
  rw [allPairs, List.nodup_flatMap]
  refine ⟨fun i _ => (List.nodup_range).map (fun a b h => by simpa using h), ?_⟩
  refine List.nodup_range.imp ?_
  intro a b hab x hx hy
  simp only [List.mem_map, List.mem_range] at hx hy
  obtain ⟨_, _, rfl⟩ := hx
  obtain ⟨_, _, h⟩ := hy
  exact hab (by simpa using (Prod.mk.inj h).1.symm)

theorem mem_pairsEq {n : Nat} {pk : PK} {v : Int} {p : Nat × Nat} :
    p ∈ pairsEq n pk v ↔ p.1 < n ∧ p.2 < n ∧ pk p.1 p.2 = v := by
  simp [pairsEq, mem_allPairs, and_assoc]

theorem nodup_pairsEq (n : Nat) (pk : PK) (v : Int) : (pairsEq n pk v).Nodup :=
  (nodup_allPairs n).filter _

theorem count_nodup {l : List (Nat × Nat)} (h : l.Nodup) (p : Nat × Nat) :
    l.count p = if p ∈ l then 1 else 0 := by
  split
  · exact List.count_eq_one_of_mem h (by assumption)
  · exact List.count_eq_zero_of_not_mem (by assumption)

theorem mem_map_swap {l : List (Nat × Nat)} {p : Nat × Nat} : p ∈ l.map Prod.swap ↔ p.swap ∈ l := by
  constructor
  · intro h; obtain ⟨q, hq, rfl⟩ := List.mem_map.1 h; simpa using hq
  · intro h; exact List.mem_map.2 ⟨p.swap, h, by simp⟩

theorem mem_dupPairs_swap {l : List (Nat × Nat)} (h : l.Nodup) {p : Nat × Nat} :
    p ∈ dupPairs (l ++ l.map Prod.swap) ↔ p ∈ l ∧ p.swap ∈ l := by
  have h2 : (l.map Prod.swap).Nodup := h.map Prod.swap_injective
  simp only [dupPairs, List.mem_filter, List.mem_dedup, List.mem_append, mem_map_swap, List.count_append,
    count_nodup h, count_nodup h2, decide_eq_true_eq]
  by_cases h3 : p ∈ l <;> by_cases h4 : p.swap ∈ l <;> simp [h3, h4]

theorem nodup_dupPairs (l : List (Nat × Nat)) : (dupPairs l).Nodup := (List.nodup_dedup l).filter _

theorem mem_noPath' {l : List (Nat × Nat)} (h : l.Nodup) {p : Nat × Nat} :
    p ∈ cancelMutual l ↔
      p ∈ l ∧ p.swap ∉ l := by
  simp only [cancelMutual]
  split
  · rename_i h0
    have : l = [] := (List.append_eq_nil_iff.1 h0).1
    subst this; simp
  · simp only [List.mem_filter, List.mem_dedup, List.mem_append, mem_dupPairs_swap h, List.count_append,
      count_nodup h, count_nodup (nodup_dupPairs _), decide_eq_true_eq]
    by_cases h3 : p ∈ l <;> by_cases h4 : p.swap ∈ l <;> simp [h3, h4]

theorem extract_error {n : Nat} {pk : PK} :
    (∃ e, extractPartialOrders n pk = .error e) ↔ ∃ a b, a < n ∧ b < n ∧ pk a b = 1 ∧ pk b a = 1 := by
  simp only [extractPartialOrders]
  split
  · rename_i h
    refine ⟨fun _ => ?_, fun _ => ⟨_, rfl⟩⟩
    obtain ⟨p, hp⟩ := List.exists_mem_of_ne_nil _ h
    rw [mem_dupPairs_swap (nodup_pairsEq _ _ _), mem_pairsEq, mem_pairsEq] at hp
    exact ⟨p.1, p.2, hp.1.1, hp.1.2.1, hp.1.2.2, hp.2.2.2⟩
  · rename_i h
    constructor
    · rintro ⟨e, he⟩
      split at he <;> cases he
    · rintro ⟨a, b, ha, hb, h1, h2⟩
      exfalso
      apply h
      apply List.ne_nil_of_mem (a := (a, b))
      rw [mem_dupPairs_swap (nodup_pairsEq _ _ _), mem_pairsEq, mem_pairsEq]
      exact ⟨⟨ha, hb, h1⟩, hb, ha, h2⟩

theorem extract_mem {n : Nat} {pk : PK} {po : List (Nat × Nat)} (h : extractPartialOrders n pk = .ok po)
    (a b : Nat) : (a, b) ∈ po ↔ MustPrecede n pk a b := by
  have key : (a, b) ∈ po ↔ (b, a) ∈ pairsEq n pk 1 ∨ ((a, b) ∈ pairsEq n pk 0 ∧ (b, a) ∉ pairsEq n pk 0) := by
    have h4 := mem_noPath' (nodup_pairsEq n pk 0) (p := (a, b))
    simp only [extractPartialOrders] at h
    split at h
    · cases h
    · split at h
      · rename_i _ h2
        have e := List.append_eq_nil_iff.1 h2
        have e2 := List.map_eq_nil_iff.1 e.2
        rw [e2] at h4
        simp only [List.not_mem_nil, false_iff] at h4
        injection h with h; subst h
        simp only [e.1, List.not_mem_nil, false_or, false_iff]
        exact h4
      · injection h with h; subst h
        rw [mem_map_swap, List.mem_dedup, List.mem_append, mem_map_swap]
        simp only [Prod.swap_prod_mk] at h4 ⊢
        rw [h4]
  rw [key, mem_pairsEq, mem_pairsEq, mem_pairsEq, MustPrecede]
  simp only
  constructor
  · rintro (⟨h1, h2, h3⟩ | ⟨⟨h1, h2, h3⟩, h4⟩)
    · exact ⟨h2, h1, Or.inl h3⟩
    · exact ⟨h1, h2, Or.inr ⟨h3, fun h => h4 ⟨h2, h1, h⟩⟩⟩
  · rintro ⟨h1, h2, h3 | ⟨h3, h4⟩⟩
    · exact Or.inl ⟨h2, h1, h3⟩
    · exact Or.inr ⟨⟨h1, h2, h3⟩, fun h => h4 h.2.2⟩

theorem searchCandidate_subset {cfg : Config} {po : List (Nat × Nat)} {U : List Nat} {i : Nat}
    (h : i ∈ (searchCandidate cfg po U).1) : i ∈ U := by
  unfold searchCandidate at h
  split at h
  · exact h
  · split at h
    · split at h
      · exact List.mem_of_mem_filter h
      · exact h
    · simp only at h
      split at h
      · exact List.mem_of_mem_filter h
      · exact List.mem_of_mem_filter h

/-- The selection from the candidate list. -/
theorem search_mem_candidates {cfg : Config} {score : Score} {po : List (Nat × Nat)} {K U : List Nat} {m : Nat}
    (hm : cfg.measure ≠ .fast) (h : searchOrder cfg score po K U = some m) :
    m ∈ (searchCandidate cfg po U).1 := by
  unfold searchOrder at h
  split at h
  · exact absurd (by assumption) hm
  · simp only at h
    split at h
    · rename_i h2
      injection h with h
      rw [h2, h]; simp
    · rw [Option.bind_eq_some_iff] at h
      obtain ⟨i, _, h2⟩ := h
      exact List.mem_of_getElem? h2
  · simp only at h
    split at h
    · rename_i h2
      injection h with h
      rw [h2, h]; simp
    · rw [Option.bind_eq_some_iff] at h
      obtain ⟨i, _, h2⟩ := h
      exact List.mem_of_getElem? h2

theorem search_mem {cfg : Config} {score : Score} {po : List (Nat × Nat)} {K U : List Nat} {m : Nat}
    (h : searchOrder cfg score po K U = some m) : m ∈ U := by
  by_cases hm : cfg.measure = .fast
  · unfold searchOrder at h
    simp only [hm] at h
    rw [Option.bind_eq_some_iff] at h
    obtain ⟨i, _, h2⟩ := h
    exact List.mem_of_getElem? h2
  · exact searchCandidate_subset (search_mem_candidates hm h)

theorem bind_argmax_ne_none {K : Type} [Field K] [LinearOrder K] [IsStrictOrderedRing K] {α : Type} {l : List α} {f : α → Option K} (h : l ≠ []) :
    (argmax (l.map f)).bind (fun i => l[i]?) ≠ none := by
  cases ha : argmax (l.map f) with
  | none => exact absurd (List.map_eq_nil_iff.1 (argmax_eq_none.1 ha)) h
  | some i =>
    have := argmax_lt ha
    simp at this
    simp [this]

theorem bind_argmin_ne_none {K : Type} [Field K] [LinearOrder K] [IsStrictOrderedRing K] {α : Type} {l : List α} {f : α → Option K} (h : l ≠ []) :
    (argmin (l.map f)).bind (fun i => l[i]?) ≠ none := by
  cases ha : argmin (l.map f) with
  | none => exact absurd (List.map_eq_nil_iff.1 (argmin_eq_none.1 ha)) h
  | some i =>
    have := argmin_lt ha
    simp at this
    simp [this]

/-- Selection never fails when there is a candidate. -/
theorem search_ne_none {cfg : Config} {score : Score} {po : List (Nat × Nat)} {K U : List Nat}
    (hU : U ≠ []) (h : (searchCandidate cfg po U).1 ≠ []) : searchOrder cfg score po K U ≠ none := by
  unfold searchOrder
  split
  · exact bind_argmax_ne_none hU
  · simp only
    split
    · simp
    · exact bind_argmax_ne_none h
  · simp only
    split
    · simp
    · exact bind_argmin_ne_none h

/-- `np.argmax([])`: selection fails when there is no candidate. -/
theorem search_eq_none {cfg : Config} {score : Score} {po : List (Nat × Nat)} {K U : List Nat}
    (hm : cfg.measure ≠ .fast) (h : (searchCandidate cfg po U).1 = []) :
    searchOrder cfg score po K U = none := by
  unfold searchOrder
  split
  · exact absurd (by assumption) hm
  · simp [h, argmax]
  · simp [h, argmin, argmax]

/-! ### The loop -/

/-- `K` and `U` partition `0..n-1`. -/
def Part (n : Nat) (K U : List Nat) : Prop :=
  K.Nodup ∧ U.Nodup ∧ (∀ i, i ∈ K → i ∉ U) ∧ ∀ i, (i ∈ K ∨ i ∈ U) ↔ i < n

theorem Part.step {n : Nat} {K U : List Nat} {m : Nat} (h : Part n K U) (hm : m ∈ U) :
    Part n (K ++ [m]) (U.filter (fun i => decide (i ≠ m))) := by
  obtain ⟨h1, h2, h3, h4⟩ := h
  refine ⟨?_, h2.filter _, ?_, ?_⟩
  · rw [List.nodup_append]
    refine ⟨h1, by simp, ?_⟩
    intro a ha b hb
    simp at hb; subst hb
    rintro rfl
    exact h3 a ha hm
  · intro i hi hi2
    simp only [List.mem_append, List.mem_singleton] at hi
    simp at hi2
    rcases hi with hi | hi
    · exact h3 i hi hi2.1
    · exact hi2.2 hi
  · intro i
    rw [← h4]
    simp only [List.mem_append, List.mem_singleton, List.mem_filter, decide_eq_true_eq]
    constructor
    · rintro ((h | h) | h)
      · exact Or.inl h
      · subst h; exact Or.inr hm
      · exact Or.inr h.1
    · rintro (h | h)
      · exact Or.inl (Or.inl h)
      · by_cases e : i = m
        · exact Or.inl (Or.inr e)
        · exact Or.inr ⟨h, e⟩

theorem length_filter_ne {U : List Nat} {m : Nat} (hU : U.Nodup) (hm : m ∈ U) {r : Nat}
    (h : U.length = r + 1) : (U.filter (fun i => decide (i ≠ m))).length = r := by
  have : U.filter (fun i => decide (i ≠ m)) = U.erase m := by
    rw [List.Nodup.erase_eq_filter hU]
    apply List.filter_congr
    intro x _
    by_cases h : x = m <;> simp [h]
  rw [this, List.length_erase_of_mem hm]; omega

theorem orderLoop_isOrder {cfg : Config} {score : Score} {n : Nat} :
    ∀ {r : Nat} {K U : List Nat} {po : List (Nat × Nat)} {order : List Nat}, Part n K U → U.length = r →
      orderLoop cfg score r K U po = .ok order → IsOrder n order
  | 0, K, U, po, order, hp, hr, h => by
    simp only [orderLoop] at h
    injection h with h; subst h
    have hU : U = [] := List.length_eq_zero_iff.1 hr
    subst hU
    exact ⟨hp.1, fun i => by simpa using hp.2.2.2 i⟩
  | r + 1, K, U, po, order, hp, hr, h => by
    simp only [orderLoop] at h
    split at h
    · cases h
    · rename_i m hs
      have hm := search_mem hs
      exact orderLoop_isOrder (hp.step hm) (length_filter_ne hp.2.1 hm hr) h

theorem Part.init (n : Nat) : Part n [] (List.range n) :=
  ⟨by simp, List.nodup_range, by simp, by simp⟩

theorem fitOrder_isOrder {cfg : Config} {score : Score} {n : Nat} {order : List Nat}
    (h : fitOrder cfg score n = .ok order) : IsOrder n order := by
  unfold fitOrder at h
  split at h
  · exact orderLoop_isOrder (Part.init n) (by simp) h
  · split at h
    · exact orderLoop_isOrder (Part.init n) (by simp) h
    · split at h
      · cases h
      · exact orderLoop_isOrder (Part.init n) (by simp) h

/-- If every nonempty `U` reachable by removals has a candidate, the loop succeeds. -/
theorem orderLoop_total {cfg : Config} {score : Score} {n : Nat}
    (Inv : List Nat → List (Nat × Nat) → Prop)
    (hstep : ∀ K U po m, Part n K U → Inv U po → m ∈ U → m ∈ (searchCandidate cfg po U).1 ∨ cfg.measure = .fast →
      Inv (U.filter (fun i => decide (i ≠ m)))
        (if cfg.pk.isSome && !cfg.soft then po.filter (fun p => decide (p.1 ≠ m)) else po))
    (hne : ∀ K U po, Part n K U → Inv U po → U ≠ [] → (searchCandidate cfg po U).1 ≠ [] ∨ cfg.measure = .fast) :
    ∀ {r : Nat} {K U : List Nat} {po : List (Nat × Nat)}, Part n K U → U.length = r → Inv U po →
      ∃ order, orderLoop cfg score r K U po = .ok order
  | 0, K, U, po, _, _, _ => ⟨K, rfl⟩
  | r + 1, K, U, po, hp, hr, hi => by
    simp only [orderLoop]
    have hU : U ≠ [] := by rintro rfl; simp at hr
    have hsome : searchOrder cfg score po K U ≠ none := by
      rcases hne K U po hp hi hU with h | h
      · exact search_ne_none hU h
      · unfold searchOrder
        simp only [h]
        exact bind_argmax_ne_none hU
    cases hs : searchOrder cfg score po K U with
    | none => exact absurd hs hsome
    | some m =>
      have hm := search_mem hs
      have hc : m ∈ (searchCandidate cfg po U).1 ∨ cfg.measure = .fast := by
        by_cases h : cfg.measure = .fast
        · exact Or.inr h
        · exact Or.inl (search_mem_candidates h hs)
      exact orderLoop_total Inv hstep hne (hp.step hm) (length_filter_ne hp.2.1 hm hr)
        (hstep K U po m hp hi hm hc)

/-! ### Hard prior knowledge -/

theorem searchCandidate_hard {cfg : Config} {pk : PK} (hpk : cfg.pk = some pk) (hs : cfg.soft = false)
    (po : List (Nat × Nat)) (U : List Nat) (i : Nat) :
    i ∈ (searchCandidate cfg po U).1 ↔ i ∈ U ∧ ∀ a, (a, i) ∉ po := by
  unfold searchCandidate
  simp only [hpk, hs, if_true]
  split
  · simp only [List.mem_filter, decide_eq_true_eq, List.mem_map, not_exists, not_and]
    constructor
    · rintro ⟨h1, h2⟩
      exact ⟨h1, fun a ha => h2 (a, i) ha rfl⟩
    · rintro ⟨h1, h2⟩
      refine ⟨h1, ?_⟩
      rintro ⟨a, b⟩ hx rfl
      exact h2 a hx
  · rename_i h
    have : po = [] := by simpa using h
    subst this; simp

/-- The order respects a relation of which `po` keeps the part whose source is not yet removed. -/
theorem orderLoop_respects {cfg : Config} {score : Score} {n : Nat} {pk : PK} (hpk : cfg.pk = some pk)
    (hs : cfg.soft = false) (hm : cfg.measure ≠ .fast) {R : Nat → Nat → Prop} (hR : ∀ a b, R a b → a < n ∧ b < n) :
    ∀ {r : Nat} {K U : List Nat} {po : List (Nat × Nat)} {order : List Nat}, Part n K U → U.length = r →
      (∀ a b, (a, b) ∈ po ↔ R a b ∧ a ∉ K) → (∀ a b, R a b → b ∈ K → Before K a b) →
      orderLoop cfg score r K U po = .ok order → ∀ a b, R a b → Before order a b
  | 0, K, U, po, order, hp, hr, _, hK, h, a, b, hab => by
    simp only [orderLoop] at h
    injection h with h; subst h
    have hU : U = [] := List.length_eq_zero_iff.1 hr
    subst hU
    exact hK a b hab (by simpa using (hp.2.2.2 b).2 (hR a b hab).2)
  | r + 1, K, U, po, order, hp, hr, hpo, hK, h, a, b, hab => by
    simp only [orderLoop] at h
    split at h
    · cases h
    · rename_i m hsr
      have hmU := search_mem hsr
      have hmc := (searchCandidate_hard hpk hs po U m).1 (search_mem_candidates hm hsr)
      refine orderLoop_respects hpk hs hm hR (hp.step hmU) (length_filter_ne hp.2.1 hmU hr) ?_ ?_ h a b hab
      · intro a b
        simp only [hpk, hs, Option.isSome_some, Bool.not_false, Bool.and_self, if_true, List.mem_filter,
          decide_eq_true_eq, hpo, List.mem_append, List.mem_singleton, not_or, and_assoc]
      · intro a b hab hb
        rcases List.mem_append.1 hb with hb | hb
        · exact (hK a b hab hb).of_append_left
        · simp at hb; subst hb
          have : a ∈ K := by
            by_contra hc
            exact hmc.2 a ((hpo a b).2 ⟨hab, hc⟩)
          exact Before.of_mem_append this (by simp)

theorem fitOrder_hard_respects {cfg : Config} {score : Score} {n : Nat} {pk : PK} (hpk : cfg.pk = some pk)
    (hs : cfg.soft = false) (hm : cfg.measure ≠ .fast) {order : List Nat}
    (h : fitOrder cfg score n = .ok order) : ∀ a b, MustPrecede n pk a b → Before order a b := by
  unfold fitOrder at h
  simp only [hpk, hs] at h
  cases he : extractPartialOrders n pk with
  | error e => simp [he] at h
  | ok po =>
    simp only [he] at h
    refine orderLoop_respects hpk hs hm (fun a b h => ⟨h.1, h.2.1⟩) (Part.init n) (by simp) ?_ ?_ h
    · intro a b; rw [extract_mem he]; simp
    · intro a b _ hb; simp at hb

theorem fitOrder_hard_total {cfg : Config} {score : Score} {n : Nat} {pk : PK} (hpk : cfg.pk = some pk)
    (hs : cfg.soft = false) (hac : Acyclic (MustPrecede n pk)) :
    ∃ order, fitOrder cfg score n = .ok order := by
  unfold fitOrder
  simp only [hpk, hs]
  cases he : extractPartialOrders n pk with
  | error e =>
    obtain ⟨a, b, ha, hb, h1, h2⟩ := extract_error.1 ⟨e, he⟩
    exact absurd (Relation.TransGen.tail (.single ⟨ha, hb, Or.inl h2⟩) ⟨hb, ha, Or.inl h1⟩) (hac a)
  | ok po =>
    simp only [Bool.false_eq_true, if_false]
    refine orderLoop_total (n := n)
      (fun U po => ∀ a b, (a, b) ∈ po → a ∈ U ∧ MustPrecede n pk a b) ?_ ?_ (Part.init n) (by simp) ?_
    · intro K U po m hp hi hm _ a b hab
      simp only [hpk, hs, Option.isSome_some, Bool.not_false, Bool.and_self, if_true, List.mem_filter,
          decide_eq_true_eq] at hab ⊢
      exact ⟨⟨(hi a b hab.1).1, hab.2⟩, (hi a b hab.1).2⟩
    · intro K U po hp hi hU
      left
      obtain ⟨m, hm, hmin⟩ := exists_minimal hac _ hU
      apply List.ne_nil_of_mem (a := m)
      rw [searchCandidate_hard hpk hs]
      exact ⟨hm, fun a ha => hmin a (hi a m ha).1 (hi a m ha).2⟩
    · intro a b hab
      have := (extract_mem he a b).1 hab
      exact ⟨by simpa using this.1, this⟩

theorem fitOrder_none_total {cfg : Config} {score : Score} {n : Nat} (hpk : cfg.pk = none) :
    ∃ order, fitOrder cfg score n = .ok order := by
  unfold fitOrder
  simp only [hpk]
  refine orderLoop_total (n := n) (fun _ _ => True) (fun _ _ _ _ _ _ _ _ => trivial) ?_ (Part.init n) (by simp)
    trivial
  intro K U po _ _ hU
  left
  simpa [searchCandidate, hpk] using hU

theorem fitOrder_fast_total {cfg : Config} {score : Score} {n : Nat} (hm : cfg.measure = .fast)
    (h : ∀ pk, cfg.pk = some pk → cfg.soft = false → ∀ a b, a < n → b < n → ¬ (pk a b = 1 ∧ pk b a = 1)) :
    ∃ order, fitOrder cfg score n = .ok order := by
  have key : ∀ po, ∃ order, orderLoop cfg score n [] (List.range n) po = .ok order := fun po =>
    orderLoop_total (n := n) (fun _ _ => True) (fun _ _ _ _ _ _ _ _ => trivial)
      (fun _ _ _ _ _ _ => Or.inr hm) (Part.init n) (by simp) trivial
  unfold fitOrder
  split
  · exact key _
  · rename_i pk hpk
    split
    · exact key _
    · rename_i hs
      cases he : extractPartialOrders n pk with
      | error e =>
        obtain ⟨a, b, ha, hb, h12⟩ := extract_error.1 ⟨e, he⟩
        exact absurd h12 (h pk hpk (by simpa using hs) a b ha hb)
      | ok po => exact key _

/-! ### Soft prior knowledge -/

theorem pkSum_eq_zero {l : List Int} : pkSum l = some 0 ↔ ∀ x ∈ l, x = 0 := by
  unfold pkSum
  split
  · rename_i h
    simp only [reduceCtorEq, false_iff]
    intro hz
    obtain ⟨x, hx, hlt⟩ := List.any_eq_true.1 h
    have := hz x hx
    simp at hlt; omega
  · rename_i h
    have hnn : ∀ x ∈ l, 0 ≤ x := by
      intro x hx
      by_contra hc
      exact h (List.any_eq_true.2 ⟨x, hx, by simp; omega⟩)
    constructor
    · intro hs x hx
      injection hs with hs
      exact List.all_zero_of_le_zero_le_of_sum_eq_zero hnn hs hx
    · intro hz
      congr 1
      exact List.sum_eq_zero hz

theorem pkNanSum_pos {l : List Int} : 0 < pkNanSum l ↔ ∃ x ∈ l, 0 < x := by
  unfold pkNanSum
  have hnn : ∀ x ∈ l.filter (fun x => decide (0 ≤ x)), 0 ≤ x := by
    intro x hx; simpa using (List.mem_filter.1 hx).2
  constructor
  · intro h
    by_contra hc
    push Not at hc
    have : (l.filter (fun x => decide (0 ≤ x))).sum = 0 := List.sum_eq_zero (by
      intro x hx
      have h1 := hnn x hx
      have h2 := hc x (List.mem_of_mem_filter hx)
      omega)
    omega
  · rintro ⟨x, hx, hpos⟩
    have hmem : x ∈ l.filter (fun x => decide (0 ≤ x)) := List.mem_filter.2 ⟨hx, by simp; omega⟩
    have hle := List.single_le_sum hnn x hmem
    omega

theorem soft_candidates_ne_nil {cfg : Config} {pk : PK} {n : Nat} (hpk : cfg.pk = some pk) (hs : cfg.soft = true)
    (hac : Acyclic (PathRequested n pk)) {po : List (Nat × Nat)} {U : List Nat} (hU : U ≠ [])
    (hn : ∀ i ∈ U, i < n) : (searchCandidate cfg po U).1 ≠ [] := by
  intro hnil
  unfold searchCandidate at hnil
  simp only [hpk, hs, Bool.true_eq_false, if_false] at hnil
  split at hnil
  · rename_i hexo
    have hnoexo : ∀ j ∈ U, ¬ ∀ k ∈ U, k ≠ j → pk j k = 0 := by
      intro j hj hz
      have hmem : j ∈ U.filter (fun j =>
          decide (pkSum ((U.filter (fun k => decide (k ≠ j))).map (pk j)) = some 0)) := by
        refine List.mem_filter.2 ⟨hj, ?_⟩
        rw [decide_eq_true_eq, pkSum_eq_zero]
        intro x hx
        simp only [List.mem_map, List.mem_filter, decide_eq_true_eq] at hx
        obtain ⟨k, ⟨hk, hkj⟩, rfl⟩ := hx
        exact hz k hk hkj
      rw [List.length_eq_zero_iff.1 hexo] at hmem
      simp at hmem
    rw [List.filter_eq_nil_iff] at hnil
    -- every variable is endogenous or a sink
    have hcase : ∀ i ∈ U, (∃ k ∈ U, k ≠ i ∧ 0 < pk i k) ∨ (∀ k ∈ U, k ≠ i → pk k i = 0) := by
      intro i hi
      have h := hnil i hi
      simp only [decide_eq_true_eq, not_not, List.mem_append, List.mem_filter, pkNanSum_pos, pkSum_eq_zero,
        List.mem_map] at h
      rcases h with ⟨_, x, ⟨k, ⟨hk, hki⟩, rfl⟩, hpos⟩ | ⟨_, h⟩
      · exact Or.inl ⟨k, hk, hki, hpos⟩
      · exact Or.inr (fun k hk hki => h _ ⟨k, ⟨hk, hki⟩, rfl⟩)
    classical
    let N := U.filter (fun i => decide (¬ ∀ k ∈ U, k ≠ i → pk k i = 0))
    by_cases hN : N = []
    · -- all sinks: then everything is exogenous
      obtain ⟨j, hj⟩ := List.exists_mem_of_ne_nil U hU
      apply hnoexo j hj
      intro k hk hkj
      have := (List.filter_eq_nil_iff.1 hN) k hk
      rw [decide_eq_true_eq, not_not] at this
      exact this j hj (Ne.symm hkj)
    · obtain ⟨m, hm, hmin⟩ := exists_minimal hac _ hN
      have hmU := List.mem_of_mem_filter hm
      have hmns : ¬ ∀ k ∈ U, k ≠ m → pk k m = 0 := by
        have := (List.mem_filter.1 hm).2
        rwa [decide_eq_true_eq] at this
      rcases hcase m hmU with ⟨x, hx, hxm, hpos⟩ | h
      · refine hmin x ?_ ⟨hn x hx, hn m hmU, hxm, hpos⟩
        refine List.mem_filter.2 ⟨hx, ?_⟩
        rw [decide_eq_true_eq]
        intro hsink
        have := hsink m hmU (Ne.symm hxm)
        omega
      · exact hmns h
  · rename_i h
    exact h (by rw [hnil]; rfl)

theorem fitOrder_soft_total {cfg : Config} {score : Score} {n : Nat} {pk : PK} (hpk : cfg.pk = some pk)
    (hs : cfg.soft = true) (hac : Acyclic (PathRequested n pk)) :
    ∃ order, fitOrder cfg score n = .ok order := by
  unfold fitOrder
  simp only [hpk, hs, if_true]
  refine orderLoop_total (n := n) (fun _ _ => True) (fun _ _ _ _ _ _ _ _ => trivial) ?_ (Part.init n) (by simp)
    trivial
  intro K U po hp _ hU
  left
  exact soft_candidates_ne_nil hpk hs hac hU (fun i hi => (hp.2.2.2 i).1 (Or.inr hi))

/-! ### The adjacency matrix -/
section adjacency
variable {K : Type} [Field K]

theorem mem_predictors {pk : Option PK} {before : List Nat} {t c : Nat} :
    c ∈ predictors pk before t ↔ c ∈ before ∧ ∀ q, pk = some q → t ≠ c ∧ q t c ≠ 0 := by
  cases pk with
  | none => simp [predictors]
  | some pk =>
    simp only [predictors, List.mem_filter, decide_eq_true_eq, Option.some.injEq, forall_eq']
    by_cases h : t = c <;> simp [h]

theorem adjStep_eq (pk : Option PK) (lasso : Lasso K) (B : Nat → Nat → K) (before : List Nat) (t r c : Nat) :
    adjStep pk lasso B before t r c =
      if r = t ∧ c ∈ predictors pk before t then lasso (predictors pk before t) t c else B r c := by
  simp only [adjStep]
  split
  · rename_i h
    rw [List.length_eq_zero_iff.1 h]
    simp
  · rfl

/-- Which entries can be nonzero. -/
theorem adjStep_apply (pk : Option PK) (lasso : Lasso K) (B : Nat → Nat → K) (before : List Nat) (t r c : Nat)
    (h : adjStep pk lasso B before t r c ≠ B r c) :
    r = t ∧ c ∈ before ∧ ∀ q, pk = some q → r ≠ c → q r c ≠ 0 := by
  rw [adjStep_eq] at h
  split at h
  · rename_i hc
    obtain ⟨rfl, hc⟩ := hc
    rw [mem_predictors] at hc
    exact ⟨rfl, hc.1, fun q hq _ => (hc.2 q hq).2⟩
  · exact absurd rfl h

theorem estimateAdj_apply (pk : Option PK) (lasso : Lasso K) (order : List Nat) (r c : Nat)
    (h : estimateAdj pk lasso order r c ≠ 0) :
    (∃ i, order[i]? = some r ∧ c ∈ order.take i) ∧ ∀ q, pk = some q → r ≠ c → q r c ≠ 0 := by
  unfold estimateAdj at h
  generalize List.range' 1 (order.length - 1) = is at h
  have gen : ∀ (is : List Nat) (B : Nat → Nat → K),
      (B r c ≠ 0 → (∃ i, order[i]? = some r ∧ c ∈ order.take i) ∧ ∀ q, pk = some q → r ≠ c → q r c ≠ 0) →
      is.foldl (adjIter pk lasso order) B r c ≠ 0 →
      (∃ i, order[i]? = some r ∧ c ∈ order.take i) ∧ ∀ q, pk = some q → r ≠ c → q r c ≠ 0 := by
    intro is
    induction is with
    | nil => intro B hB h; exact hB h
    | cons i is ih =>
      intro B hB h
      rw [List.foldl_cons] at h
      refine ih _ ?_ h
      intro h2
      cases ht : order[i]? with
      | none => simp only [adjIter, ht] at h2; exact hB h2
      | some t =>
        simp only [adjIter, ht] at h2
        by_cases he : adjStep pk lasso B (order.take i) t r c = B r c
        · rw [he] at h2; exact hB h2
        · obtain ⟨hr, hc, hq⟩ := adjStep_apply pk lasso B _ t r c he
          subst hr
          exact ⟨⟨i, ht, hc⟩, hq⟩
  exact gen is _ (fun h => absurd rfl h) h

theorem before_of_take {order : List Nat} {i r c : Nat} (hi : order[i]? = some r) (hc : c ∈ order.take i) :
    Before order c r := by
  rw [← List.take_append_drop i order]
  apply Before.of_mem_append hc
  have : (order.drop i)[0]? = some r := by simpa using hi
  exact List.mem_of_getElem? this

theorem estimateAdj_before {pk : Option PK} {lasso : Lasso K} {order : List Nat} {r c : Nat}
    (h : estimateAdj pk lasso order r c ≠ 0) : Before order c r := by
  obtain ⟨⟨i, hi, hc⟩, _⟩ := estimateAdj_apply pk lasso order r c h
  exact before_of_take hi hc

/-- Row `t` is written only at the position of `t`. -/
theorem foldl_row {pk : Option PK} {lasso : Lasso K} {order pre post : List Nat} {t : Nat}
    (hn : (pre ++ t :: post).Nodup) (ho : order = pre ++ t :: post) (c : Nat) :
    ∀ (is : List Nat) (B : Nat → Nat → K), is.Nodup →
      is.foldl (adjIter pk lasso order) B t c =
      if pre.length ∈ is ∧ c ∈ predictors pk pre t then lasso (predictors pk pre t) t c else B t c := by
  have hpos : ∀ i, order[i]? = some t ↔ i = pre.length := by
    intro i
    subst ho
    constructor
    · intro hi
      have h2 : (pre ++ t :: post)[pre.length]? = some t := by simp
      exact (List.getElem?_inj (by
        by_contra hc
        rw [List.getElem?_eq_none (by omega)] at hi; cases hi) hn).1 (hi.trans h2.symm)
    · rintro rfl; simp
  intro is
  induction is with
  | nil => intro B _; simp
  | cons i is ih =>
    intro B hnd
    rw [List.nodup_cons] at hnd
    rw [List.foldl_cons, ih _ hnd.2]
    by_cases hi : i = pre.length
    · have h1 := (hpos i).2 hi
      have h3 : order.take i = pre := by subst ho; subst hi; simp
      unfold adjIter
      rw [h1]
      subst hi
      simp only [h3, adjStep_eq, hnd.1, false_and, if_false, true_and, List.mem_cons, true_or]
    · have hne : pre.length ∈ i :: is ↔ pre.length ∈ is := by
        simp [Ne.symm hi]
      simp only [hne]
      congr 1
      unfold adjIter
      cases hi2 : order[i]? with
      | none => rfl
      | some t' =>
        have : t ≠ t' := by
          rintro rfl
          exact hi ((hpos i).1 hi2)
        simp [adjStep_eq, this]

theorem estimateAdj_row {pk : Option PK} {lasso : Lasso K} {order pre post : List Nat} {t : Nat}
    (hn : (pre ++ t :: post).Nodup) (ho : order = pre ++ t :: post) (c : Nat) :
    estimateAdj pk lasso order t c =
      if c ∈ predictors pk pre t then lasso (predictors pk pre t) t c else 0 := by
  unfold estimateAdj
  rw [foldl_row hn ho c _ _ List.nodup_range']
  by_cases hp : pre = []
  · subst hp
    have : predictors pk [] t = [] := by unfold predictors; split <;> rfl
    simp [this]
  · have : pre.length ∈ List.range' 1 (order.length - 1) := by
      have := List.length_pos_iff.2 hp
      subst ho
      rw [List.mem_range'_1]
      simp; omega
    simp [this]

end adjacency

theorem fit_of_order {K : Type} [Field K] {cfg : Config} {score : Score} (lasso : Lasso K) {n : Nat}
    {order : List Nat} (h : fitOrder cfg score n = .ok order) :
    fit cfg score lasso n = .ok (order, estimateAdj cfg.pk lasso order) := by
  simp only [fit, h]

theorem fit_ok {K : Type} [Field K] {cfg : Config} {score : Score} {lasso : Lasso K} {n : Nat} {order : List Nat}
    {B : Nat → Nat → K} (h : fit cfg score lasso n = .ok (order, B)) :
    fitOrder cfg score n = .ok order ∧ B = estimateAdj cfg.pk lasso order := by
  unfold fit at h
  split at h
  · cases h
  · rename_i o ho
    injection h with h
    injection h with h1 h2
    subst h1
    exact ⟨ho, h2.symm⟩

/-! ### Greedy selection -/

/-- Better score under the measure: larger for `pwling`, smaller for `kernel`. -/
def Beats {K : Type} [LT K] : Measure → K → K → Prop
  | .kernel, a, b => a < b
  | _, a, b => b < a

theorem pick_spec {K : Type} [Field K] [LinearOrder K] [IsStrictOrderedRing K] {s : Nat → K} {Uc : List Nat} (hsort : Uc.Pairwise (· < ·)) {i m : Nat} (measure : Measure)
    (hi : (if measure = .kernel then argmin (Uc.map (fun x => some (s x))) else argmax (Uc.map (fun x => some (s x))))
      = some i) (hm : Uc[i]? = some m) :
    ∀ x ∈ Uc, ¬ Beats measure (s x) (s m) ∧ (x < m → Beats measure (s m) (s x)) := by
  intro x hx
  obtain ⟨j, hj⟩ := List.mem_iff_getElem?.1 hx
  have e : Uc.map (fun x => some (s x)) = (Uc.map s).map some := by simp [Function.comp_def]
  have hlt : x < m → j < i := by
    intro h
    by_contra hc
    rcases Nat.lt_or_ge i j with hij | hij
    · have hjl : j < Uc.length := by
        by_contra h'; rw [List.getElem?_eq_none (by omega)] at hj; cases hj
      have hil : i < Uc.length := by omega
      rw [List.getElem?_eq_getElem hjl] at hj
      rw [List.getElem?_eq_getElem hil] at hm
      injection hj with hj; injection hm with hm
      have := List.pairwise_iff_getElem.1 hsort i j hil hjl hij
      omega
    · have : i = j := by omega
      subst this
      rw [hj] at hm; injection hm with hm; omega
  rw [e] at hi
  cases measure with
  | kernel =>
    rw [if_pos rfl] at hi
    obtain ⟨v, hv, hall⟩ := argmin_spec hi
    have hv' : v = s m := by rw [List.getElem?_map, hm] at hv; simpa using hv.symm
    subst hv'
    have := hall j (s x) (by simp [hj])
    exact ⟨not_lt.2 this.1, fun h => this.2 (hlt h)⟩
  | pwling =>
    rw [if_neg (by decide)] at hi
    obtain ⟨v, hv, hall⟩ := argmax_spec hi
    have hv' : v = s m := by rw [List.getElem?_map, hm] at hv; simpa using hv.symm
    subst hv'
    have := hall j (s x) (by simp [hj])
    exact ⟨not_lt.2 this.1, fun h => this.2 (hlt h)⟩
  | fast =>
    rw [if_neg (by decide)] at hi
    obtain ⟨v, hv, hall⟩ := argmax_spec hi
    have hv' : v = s m := by rw [List.getElem?_map, hm] at hv; simpa using hv.symm
    subst hv'
    have := hall j (s x) (by simp [hj])
    exact ⟨not_lt.2 this.1, fun h => this.2 (hlt h)⟩

theorem search_best {cfg : Config} {score : Score} {s : List Nat → List Nat → List Nat → List Nat → Nat → ℚ}
    (hnan : ∀ K U Uc Vj i, score K U Uc Vj i = some (s K U Uc Vj i)) (hm : cfg.measure ≠ .fast)
    {po : List (Nat × Nat)} {K U : List Nat} {m : Nat} (h : searchOrder cfg score po K U = some m)
    (hsort : (searchCandidate cfg po U).1.Pairwise (· < ·)) :
    ∀ x ∈ (searchCandidate cfg po U).1,
      ¬ Beats cfg.measure (s K U (searchCandidate cfg po U).1 (searchCandidate cfg po U).2 x)
          (s K U (searchCandidate cfg po U).1 (searchCandidate cfg po U).2 m) ∧
        (x < m → Beats cfg.measure (s K U (searchCandidate cfg po U).1 (searchCandidate cfg po U).2 m)
          (s K U (searchCandidate cfg po U).1 (searchCandidate cfg po U).2 x)) := by
  have hself : ∀ (mm : Measure) (v : ℚ), ¬ Beats mm v v := by
    intro mm v; cases mm <;> simp [Beats]
  unfold searchOrder at h
  generalize hSC : searchCandidate cfg po U = SC at h hsort ⊢
  obtain ⟨Uc, Vj⟩ := SC
  simp only at hsort h ⊢
  cases hme : cfg.measure with
  | fast => exact absurd hme hm
  | pwling =>
    simp only [hme] at h
    split at h
    · injection h with h
      subst h
      intro x hx
      simp at hx; subst hx
      exact ⟨hself _ _, fun h => absurd h (lt_irrefl _)⟩
    · obtain ⟨i, h1, h2⟩ := Option.bind_eq_some_iff.1 h
      refine pick_spec (s := s K U Uc Vj) hsort .pwling ?_ h2
      rw [if_neg (by decide), ← h1]
      congr 1
      exact List.map_congr_left (fun x _ => (hnan K U Uc Vj x).symm)
  | kernel =>
    simp only [hme] at h
    split at h
    · injection h with h
      subst h
      intro x hx
      simp at hx; subst hx
      exact ⟨hself _ _, fun h => absurd h (lt_irrefl _)⟩
    · obtain ⟨i, h1, h2⟩ := Option.bind_eq_some_iff.1 h
      refine pick_spec (s := s K U Uc Vj) hsort .kernel ?_ h2
      rw [if_pos rfl, ← h1]
      congr 1
      exact List.map_congr_left (fun x _ => (hnan K U Uc Vj x).symm)

theorem searchCandidate_hard_sublist {cfg : Config} (hs : cfg.soft = false) (po : List (Nat × Nat)) (U : List Nat) :
    (searchCandidate cfg po U).1.Sublist U ∧ (searchCandidate cfg po U).2 = [] := by
  unfold searchCandidate
  split
  · exact ⟨List.Sublist.refl _, rfl⟩
  · simp only [hs, if_true]
    split
    · exact ⟨List.filter_sublist, rfl⟩
    · exact ⟨List.Sublist.refl _, rfl⟩

/-- All required predecessors of `x` are among `pre`. -/
def Ready (cfg : Config) (n : Nat) (pre : List Nat) (x : Nat) : Prop :=
  ∀ pk, cfg.pk = some pk → ∀ a, MustPrecede n pk a x → a ∈ pre

/-- What is recorded about one step. -/
def BestStep (cfg : Config) (s : List Nat → List Nat → List Nat → List Nat → Nat → ℚ) (n : Nat) (pre : List Nat)
    (m : Nat) : Prop :=
  ∃ U Uc : List Nat, U.Pairwise (· < ·) ∧ (∀ x, x ∈ U ↔ x < n ∧ x ∉ pre) ∧ Uc.Pairwise (· < ·) ∧
    (∀ x, x ∈ Uc ↔ x < n ∧ x ∉ pre ∧ Ready cfg n pre x) ∧ m ∈ Uc ∧
    ∀ x ∈ Uc, ¬ Beats cfg.measure (s pre U Uc [] x) (s pre U Uc [] m) ∧
      (x < m → Beats cfg.measure (s pre U Uc [] m) (s pre U Uc [] x))

theorem orderLoop_best {cfg : Config} {score : Score} {s : List Nat → List Nat → List Nat → List Nat → Nat → ℚ}
    (hnan : ∀ K U Uc Vj i, score K U Uc Vj i = some (s K U Uc Vj i)) (hm : cfg.measure ≠ .fast)
    (hs : cfg.soft = false) {n : Nat} :
    ∀ {r : Nat} {K U : List Nat} {po : List (Nat × Nat)} {order : List Nat}, Part n K U → U.length = r →
      U.Pairwise (· < ·) → (∀ pk, cfg.pk = some pk → ∀ a b, (a, b) ∈ po ↔ MustPrecede n pk a b ∧ a ∉ K) →
      orderLoop cfg score r K U po = .ok order →
      ∃ rest, order = K ++ rest ∧ ∀ pre m post, order = pre ++ m :: post → K.length ≤ pre.length →
        BestStep cfg s n pre m
  | 0, K, U, po, order, hp, hr, _, _, h => by
    simp only [orderLoop] at h
    injection h with h; subst h
    refine ⟨[], by simp, ?_⟩
    intro pre m post he hl
    rw [he] at hl; simp at hl
  | r + 1, K, U, po, order, hp, hr, hsort, hpo, h => by
    simp only [orderLoop] at h
    split at h
    · cases h
    · rename_i m hsr
      have hmU := search_mem hsr
      obtain ⟨rest, ho, hrest⟩ := orderLoop_best hnan hm hs (hp.step hmU) (length_filter_ne hp.2.1 hmU hr)
        (hsort.filter _) (by
          intro pk hpk a b
          simp only [hpk, hs, Option.isSome_some, Bool.not_false, Bool.and_self, if_true, List.mem_filter,
            decide_eq_true_eq, hpo pk hpk, List.mem_append, List.mem_singleton, not_or, and_assoc]) h
      refine ⟨m :: rest, by rw [ho]; simp, ?_⟩
      intro pre m' post he hl
      by_cases hlen : (K ++ [m]).length ≤ pre.length
      · exact hrest pre m' post he hlen
      · have hl2 : pre.length = K.length := by simp at hlen; omega
        have e : K ++ m :: rest = pre ++ m' :: post := by rw [← he, ho]; simp
        obtain ⟨e1, e2⟩ := List.append_inj e hl2.symm
        injection e2 with e2 _
        subst e1; subst e2
        obtain ⟨hsub, hV⟩ := searchCandidate_hard_sublist hs po U
        have hb := search_best hnan hm hsr (hsort.sublist hsub)
        rw [hV] at hb
        have hmem : ∀ x, x ∈ U ↔ x < n ∧ x ∉ K := by
          intro x
          constructor
          · intro hx; exact ⟨(hp.2.2.2 x).1 (Or.inr hx), fun hk => hp.2.2.1 x hk hx⟩
          · rintro ⟨h1, h2⟩; exact ((hp.2.2.2 x).2 h1).resolve_left h2
        refine ⟨U, _, hsort, hmem, hsort.sublist hsub, ?_, search_mem_candidates hm hsr, hb⟩
        intro x
        cases hpk : cfg.pk with
        | none =>
          have : (searchCandidate cfg po U).1 = U := by simp [searchCandidate, hpk]
          rw [this, hmem]
          simp [Ready, hpk]
        | some pk =>
          rw [searchCandidate_hard hpk hs, hmem, and_assoc]
          refine and_congr_right fun _ => and_congr_right fun _ => ?_
          simp only [Ready, hpk, Option.some.injEq, forall_eq', hpo pk hpk, not_and, not_not]

theorem fitOrder_best {cfg : Config} {score : Score} {s : List Nat → List Nat → List Nat → List Nat → Nat → ℚ}
    (hnan : ∀ K U Uc Vj i, score K U Uc Vj i = some (s K U Uc Vj i)) (hm : cfg.measure ≠ .fast)
    (hs : cfg.soft = false) {n : Nat} {order : List Nat} (h : fitOrder cfg score n = .ok order) {pre post : List Nat}
    {m : Nat} (he : order = pre ++ m :: post) : BestStep cfg s n pre m := by
  have hsort : (List.range n).Pairwise (· < ·) := List.pairwise_lt_range
  unfold fitOrder at h
  cases hpk : cfg.pk with
  | none =>
    simp only [hpk] at h
    obtain ⟨_, _, hb⟩ := orderLoop_best hnan hm hs (Part.init n) (by simp) hsort (by simp [hpk]) h
    exact hb pre m post he (by simp)
  | some pk =>
    simp only [hpk, hs] at h
    cases hex : extractPartialOrders n pk with
    | error e => simp [hex] at h
    | ok po =>
      simp only [hex] at h
      obtain ⟨_, _, hb⟩ := orderLoop_best hnan hm hs (Part.init n) (by simp) hsort (by
        intro pk' hpk' a b
        rw [hpk] at hpk'; injection hpk' with hpk'; subst hpk'
        rw [extract_mem hex]; simp) h
      exact hb pre m post he (by simp)

/-! ### Greedy selection with soft prior knowledge -/

theorem soft_sublist {cfg : Config} {pk : PK} (hpk : cfg.pk = some pk) (hs : cfg.soft = true) (po : List (Nat × Nat))
    (U : List Nat) : (searchCandidate cfg po U).1.Sublist U ∧ (searchCandidate cfg po U).2.Sublist U := by
  unfold searchCandidate
  simp only [hpk, hs, Bool.true_eq_false, if_false]
  refine ⟨?_, List.filter_sublist⟩
  split <;> exact List.filter_sublist

theorem soft_candidate_iff {cfg : Config} {pk : PK} (hpk : cfg.pk = some pk) (hs : cfg.soft = true)
    (po : List (Nat × Nat)) {n : Nat} {K U : List Nat} (hU : ∀ x, x ∈ U ↔ x < n ∧ x ∉ K) (x : Nat) :
    x ∈ (searchCandidate cfg po U).1 ↔ SoftCandidate n pk K x := by
  have hexo : ∀ j, (pkSum ((U.filter (fun k => decide (k ≠ j))).map (pk j)) = some 0) ↔ KnownExogenous n pk K j := by
    intro j
    rw [pkSum_eq_zero]
    simp only [List.mem_map, List.mem_filter, decide_eq_true_eq, hU, KnownExogenous]
    constructor
    · intro h y h1 h2 h3; exact h _ ⟨y, ⟨⟨h1, h2⟩, h3⟩, rfl⟩
    · rintro h _ ⟨y, ⟨⟨h1, h2⟩, h3⟩, rfl⟩; exact h y h1 h2 h3
  have hsink : ∀ j, (pkSum ((U.filter (fun k => decide (k ≠ j))).map (fun k => pk k j)) = some 0) ↔
      KnownSink n pk K j := by
    intro j
    rw [pkSum_eq_zero]
    simp only [List.mem_map, List.mem_filter, decide_eq_true_eq, hU, KnownSink]
    constructor
    · intro h y h1 h2 h3; exact h _ ⟨y, ⟨⟨h1, h2⟩, h3⟩, rfl⟩
    · rintro h _ ⟨y, ⟨⟨h1, h2⟩, h3⟩, rfl⟩; exact h y h1 h2 h3
  have hend : ∀ j, (0 < pkNanSum ((U.filter (fun k => decide (k ≠ j))).map (pk j))) ↔ KnownEndogenous n pk K j := by
    intro j
    rw [pkNanSum_pos]
    simp only [List.mem_map, List.mem_filter, decide_eq_true_eq, hU, KnownEndogenous]
    constructor
    · rintro ⟨_, ⟨y, ⟨⟨h1, h2⟩, h3⟩, rfl⟩, h4⟩; exact ⟨y, h1, h2, h3, h4⟩
    · rintro ⟨y, h1, h2, h3, h4⟩; exact ⟨_, ⟨y, ⟨⟨h1, h2⟩, h3⟩, rfl⟩, h4⟩
  have hno : (U.filter (fun j => decide (pkSum ((U.filter (fun k => decide (k ≠ j))).map (pk j)) = some 0))).length = 0 ↔
      ∀ y, y < n → y ∉ K → ¬ KnownExogenous n pk K y := by
    rw [List.length_eq_zero_iff, List.filter_eq_nil_iff]
    simp only [decide_eq_true_eq, hexo, hU]
    exact ⟨fun h y h1 h2 => h y ⟨h1, h2⟩, fun h y h1 => h y h1.1 h1.2⟩
  unfold searchCandidate
  simp only [hpk, hs, Bool.true_eq_false, if_false]
  split
  · rename_i h
    rw [hno] at h
    simp only [List.mem_filter, decide_eq_true_eq, List.mem_append, hend, hsink, hU, SoftCandidate]
    constructor
    · rintro ⟨⟨h1, h2⟩, h3⟩
      exact ⟨h1, h2, Or.inr ⟨h, fun h4 => h3 (Or.inl ⟨⟨h1, h2⟩, h4⟩), fun h4 => h3 (Or.inr ⟨⟨h1, h2⟩, h4⟩)⟩⟩
    · rintro ⟨h1, h2, h3 | ⟨_, h3, h4⟩⟩
      · exact absurd h3 (h x h1 h2)
      · refine ⟨⟨h1, h2⟩, ?_⟩
        rintro (⟨_, h5⟩ | ⟨_, h5⟩)
        · exact h3 h5
        · exact h4 h5
  · rename_i h
    rw [hno] at h
    simp only [List.mem_filter, decide_eq_true_eq, hexo, hU, SoftCandidate]
    constructor
    · rintro ⟨⟨h1, h2⟩, h3⟩; exact ⟨h1, h2, Or.inl h3⟩
    · rintro ⟨h1, h2, h3 | ⟨h3, _⟩⟩
      · exact ⟨⟨h1, h2⟩, h3⟩
      · exact absurd h3 h

theorem soft_untouched_iff {cfg : Config} {pk : PK} (hpk : cfg.pk = some pk) (hs : cfg.soft = true)
    (po : List (Nat × Nat)) {n : Nat} {K U : List Nat} (hU : ∀ x, x ∈ U ↔ x < n ∧ x ∉ K) (x : Nat) :
    x ∈ (searchCandidate cfg po U).2 ↔ SoftUntouched n pk K x := by
  have hc := soft_candidate_iff hpk hs po hU
  have e : (searchCandidate cfg po U).2 = U.filter (fun i => decide (i ∉ (searchCandidate cfg po U).1) &&
      decide (pkSum ((searchCandidate cfg po U).1.map (pk i)) = some 0)) := by
    unfold searchCandidate
    simp only [hpk, hs, Bool.true_eq_false, if_false]
  rw [e, List.mem_filter, hU, Bool.and_eq_true, decide_eq_true_eq, decide_eq_true_eq, pkSum_eq_zero, hc]
  simp only [List.mem_map, SoftUntouched, forall_exists_index, and_imp, forall_apply_eq_imp_iff₂, and_assoc, hc]

/-- What is recorded about one step with soft prior knowledge. -/
def SoftStep (cfg : Config) (pk : PK) (s : List Nat → List Nat → List Nat → List Nat → Nat → ℚ) (n : Nat)
    (pre : List Nat) (m : Nat) : Prop :=
  ∃ U Uc Vj : List Nat, U.Pairwise (· < ·) ∧ (∀ x, x ∈ U ↔ x < n ∧ x ∉ pre) ∧ Uc.Pairwise (· < ·) ∧
    (∀ x, x ∈ Uc ↔ SoftCandidate n pk pre x) ∧ Vj.Pairwise (· < ·) ∧ (∀ x, x ∈ Vj ↔ SoftUntouched n pk pre x) ∧
    m ∈ Uc ∧ ∀ x ∈ Uc, ¬ Beats cfg.measure (s pre U Uc Vj x) (s pre U Uc Vj m) ∧
      (x < m → Beats cfg.measure (s pre U Uc Vj m) (s pre U Uc Vj x))

theorem orderLoop_soft {cfg : Config} {pk : PK} (hpk : cfg.pk = some pk) {score : Score}
    {s : List Nat → List Nat → List Nat → List Nat → Nat → ℚ}
    (hnan : ∀ K U Uc Vj i, score K U Uc Vj i = some (s K U Uc Vj i)) (hm : cfg.measure ≠ .fast)
    (hs : cfg.soft = true) {n : Nat} :
    ∀ {r : Nat} {K U : List Nat} {po : List (Nat × Nat)} {order : List Nat}, Part n K U → U.length = r →
      U.Pairwise (· < ·) → orderLoop cfg score r K U po = .ok order →
      ∃ rest, order = K ++ rest ∧ ∀ pre m post, order = pre ++ m :: post → K.length ≤ pre.length →
        SoftStep cfg pk s n pre m
  | 0, K, U, po, order, hp, hr, _, h => by
    simp only [orderLoop] at h
    injection h with h; subst h
    refine ⟨[], by simp, ?_⟩
    intro pre m post he hl
    rw [he] at hl; simp at hl
  | r + 1, K, U, po, order, hp, hr, hsort, h => by
    simp only [orderLoop] at h
    split at h
    · cases h
    · rename_i m hsr
      have hmU := search_mem hsr
      obtain ⟨rest, ho, hrest⟩ := orderLoop_soft hpk hnan hm hs (hp.step hmU) (length_filter_ne hp.2.1 hmU hr)
        (hsort.filter _) h
      refine ⟨m :: rest, by rw [ho]; simp, ?_⟩
      intro pre m' post he hl
      by_cases hlen : (K ++ [m]).length ≤ pre.length
      · exact hrest pre m' post he hlen
      · have hl2 : pre.length = K.length := by simp at hlen; omega
        have e : K ++ m :: rest = pre ++ m' :: post := by rw [← he, ho]; simp
        obtain ⟨e1, e2⟩ := List.append_inj e hl2.symm
        injection e2 with e2 _
        subst e1; subst e2
        obtain ⟨hsub, hsub'⟩ := soft_sublist hpk hs po U
        have hmem : ∀ x, x ∈ U ↔ x < n ∧ x ∉ K := by
          intro x
          constructor
          · intro hx; exact ⟨(hp.2.2.2 x).1 (Or.inr hx), fun hk => hp.2.2.1 x hk hx⟩
          · rintro ⟨h1, h2⟩; exact ((hp.2.2.2 x).2 h1).resolve_left h2
        exact ⟨U, _, _, hsort, hmem, hsort.sublist hsub, soft_candidate_iff hpk hs po hmem, hsort.sublist hsub',
          soft_untouched_iff hpk hs po hmem, search_mem_candidates hm hsr,
          search_best hnan hm hsr (hsort.sublist hsub)⟩

theorem fitOrder_soft_step {cfg : Config} {pk : PK} (hpk : cfg.pk = some pk) {score : Score}
    {s : List Nat → List Nat → List Nat → List Nat → Nat → ℚ}
    (hnan : ∀ K U Uc Vj i, score K U Uc Vj i = some (s K U Uc Vj i)) (hm : cfg.measure ≠ .fast)
    (hs : cfg.soft = true) {n : Nat} {order : List Nat} (h : fitOrder cfg score n = .ok order) {pre post : List Nat}
    {m : Nat} (he : order = pre ++ m :: post) : SoftStep cfg pk s n pre m := by
  unfold fitOrder at h
  simp only [hpk, hs, if_true] at h
  obtain ⟨_, _, hb⟩ := orderLoop_soft hpk hnan hm hs (Part.init n) (by simp) List.pairwise_lt_range h
  exact hb pre m post he (by simp)

end Verif.Direct
