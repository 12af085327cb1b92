import Verif.Proofs.Order
import Verif.Model.Simulator
import Verif.Spec.Graph
import Mathlib.Algebra.Order.BigOperators.Group.List
import Mathlib.Tactic.Ring
import Mathlib.Tactic.Linarith
import Mathlib.Tactic.Positivity
import Mathlib.Data.List.Nodup

/-! Lemmas about the simulator. -/
set_option autoImplicit false
set_option linter.unusedSectionVars false
namespace Verif.Simulator

variable {K : Type} [Field K] [LinearOrder K] [IsStrictOrderedRing K]

theorem rowSum_zero (G : Nat → Nat → K) (idx : List Nat) (i : Nat) :
    rowSum G idx i = 0 ↔ ∀ j ∈ idx, G i j = 0 := by
  unfold rowSum
  induction idx with
  | nil => simp
  | cons x l ih =>
    have h1 : 0 ≤ |G i x| := abs_nonneg _
    have h2 : 0 ≤ (l.map (fun j => |G i j|)).sum := List.sum_nonneg (by simp)
    simp only [List.map_cons, List.sum_cons, List.mem_cons, forall_eq_or_imp]
    rw [← ih]
    constructor
    · intro h
      exact ⟨abs_eq_zero.1 (by linarith), by linarith⟩
    · rintro ⟨h3, h4⟩
      rw [h3, h4]; simp

theorem before_cons {l : List Nat} {x a b : Nat} (h : Before l a b) : Before (x :: l) a b := by
  have := Before.of_append_right (l := [x]) h
  simpa using this

theorem orderLoop_spec (G : Nat → Nat → K) (f : Nat) : ∀ (idx acc : List Nat), idx.Nodup → idx.length = f →
    ∃ t, orderLoop G f idx acc = acc ++ t ∧ t.Nodup ∧ (∀ a ∈ t, a ∈ idx) ∧
      (∀ b ∈ t, ∀ a ∈ idx, G b a ≠ 0 → Before t a b) ∧
      (Acyclic (fun a b => G b a ≠ 0 ∧ a ∈ idx ∧ b ∈ idx) → t.length = f) := by
  induction f with
  | zero => intro idx acc _ _; exact ⟨[], by simp [orderLoop], by simp, by simp, by simp, by simp⟩
  | succ f ih =>
    intro idx acc hnd hlen
    unfold orderLoop
    cases hfind : idx.find? (fun i => decide (rowSum G idx i = 0)) with
    | none =>
      refine ⟨[], by simp, by simp, by simp, by simp, fun hac => ?_⟩
      have hne : idx ≠ [] := by intro h; simp [h] at hlen
      obtain ⟨i, hi, hmin⟩ := exists_minimal hac idx hne
      have := List.find?_eq_none.1 hfind i hi
      simp only [decide_eq_true_eq] at this
      exact absurd ((rowSum_zero G idx i).2 (fun j hj => by
        by_contra h0
        exact hmin j hj ⟨h0, hj, hi⟩)) this
    | some i =>
      have hi := List.mem_of_find?_eq_some hfind
      have hz := List.find?_some hfind
      simp only [decide_eq_true_eq] at hz
      have hz := (rowSum_zero G idx i).1 hz
      obtain ⟨t, h1, h2, h3, h4, h5⟩ := ih (idx.erase i) (acc ++ [i]) (hnd.erase i)
        (by rw [List.length_erase_of_mem hi]; omega)
      have hit : i ∉ t := by
        intro h; exact (hnd.not_mem_erase) (h3 i h)
      refine ⟨i :: t, by simp [h1], List.nodup_cons.2 ⟨hit, h2⟩, ?_, ?_, ?_⟩
      · intro a ha
        rcases List.mem_cons.1 ha with rfl | ha
        · exact hi
        · exact List.mem_of_mem_erase (h3 a ha)
      · intro b hb a ha hne
        rcases List.mem_cons.1 hb with rfl | hb'
        · exact absurd (hz a ha) hne
        · by_cases hai : a = i
          · subst hai
            have := Before.of_mem_append (l := [a]) (l' := t) (a := a) (by simp) hb'
            simpa using this
          · exact before_cons (h4 b hb' a ((List.mem_erase_of_ne hai).2 ha) hne)
      · intro hac
        have : Acyclic (fun a b => G b a ≠ 0 ∧ a ∈ idx.erase i ∧ b ∈ idx.erase i) := by
          intro x hx
          exact hac x (Relation.TransGen.mono (fun a b h =>
            ⟨h.1, List.mem_of_mem_erase h.2.1, List.mem_of_mem_erase h.2.2⟩) _ _ hx)
        simp [h5 this]

theorem edge_eq (n : Nat) (G : Nat → Nat → K) :
    (fun a b => G b a ≠ 0 ∧ a ∈ List.range n ∧ b ∈ List.range n) = Edge n G 0 := by
  funext a b
  apply propext
  unfold Edge
  simp only [List.mem_range, abs_pos]
  tauto

theorem calcOrder_some (G : Nat → Nat → K) (n : Nat) (o : List Nat) (h : calcOrder G n = some o) :
    IsOrder n o ∧ ∀ a b, Edge n G 0 a b → Before o a b := by
  obtain ⟨t, h1, h2, h3, h4, _⟩ := orderLoop_spec G n (List.range n) [] List.nodup_range (by simp)
  unfold calcOrder at h
  simp only [h1, List.nil_append] at h
  split at h
  · rename_i hl
    simp only [Option.some.injEq] at h
    subst h
    have hsub : t ⊆ List.range n := h3
    have hperm : t.Perm (List.range n) := (h2.subperm hsub).perm_of_length_le (by simp [hl])
    refine ⟨IsOrder.perm.2 hperm, fun a b hab => ?_⟩
    have hb : b ∈ t := hperm.mem_iff.2 (List.mem_range.2 hab.2.1)
    exact h4 b hb a (List.mem_range.2 hab.1) (abs_pos.1 hab.2.2)
  · cases h

theorem calcOrder_acyclic (G : Nat → Nat → K) (n : Nat) :
    (∃ o, calcOrder G n = some o) ↔ Acyclic (Edge n G 0) := by
  constructor
  · rintro ⟨o, ho⟩
    obtain ⟨h1, h2⟩ := calcOrder_some G n o ho
    exact acyclic_of_before h1.1 h2
  · intro hac
    obtain ⟨t, h1, h2, h3, h4, h5⟩ := orderLoop_spec G n (List.range n) [] List.nodup_range (by simp)
    rw [edge_eq] at h5
    refine ⟨t, ?_⟩
    unfold calcOrder
    simp only [h1, List.nil_append, h5 hac, if_true]

/-! ### The loop -/

/-- The change of models only refers to known variables (checked at causal_based_simulator.py:243-258). -/
def Known (n : Nat) (cm : Nat → Option (Change K)) : Prop := ∀ v c, cm v = some c → ∀ p ∈ c.parents, p < n

theorem parent_edge (I : Impl K) (cm : Nat → Option (Change K)) (hk : Known I.n cm) (v p : Nat) (hv : v < I.n)
    (hp : p ∈ parentsOf I cm v) : Edge I.n (changedGraph I.graph cm) 0 p v := by
  unfold parentsOf at hp
  unfold Edge changedGraph
  cases hc : cm v with
  | none =>
    simp only [hc] at hp ⊢
    simp only [parents, List.mem_filter, List.mem_range, decide_eq_true_eq] at hp
    exact ⟨hp.1, hv, lt_trans (by positivity) hp.2⟩
  | some c =>
    simp only [hc] at hp ⊢
    refine ⟨hk v c hc p hp, hv, ?_⟩
    simp [hp]

theorem columns_congr (s s' : Nat → Option (Col K)) (l : List Nat) (h : ∀ p ∈ l, s p = s' p) :
    columns s l = columns s' l := by
  unfold columns
  induction l with
  | nil => rfl
  | cons x l ih =>
    rw [List.mapM_cons, List.mapM_cons, h x (by simp), ih (fun p hp => h p (by simp [hp]))]

theorem columns_some (s : Nat → Option (Col K)) (l : List Nat) (h : ∀ p ∈ l, ∃ c, s p = some c) :
    ∃ X, columns s l = some X := by
  unfold columns
  induction l with
  | nil => exact ⟨[], rfl⟩
  | cons x l ih =>
    obtain ⟨c, hc⟩ := h x (by simp)
    obtain ⟨X, hX⟩ := ih (fun p hp => h p (by simp [hp]))
    exact ⟨c :: X, by rw [List.mapM_cons, hc, hX]; rfl⟩

theorem columns_map (s : Nat → Option (Col K)) (g : Nat → Col K) (l : List Nat) (h : ∀ p ∈ l, s p = some (g p)) :
    columns s l = some (l.map g) := by
  unfold columns
  induction l with
  | nil => rfl
  | cons x l ih =>
    rw [List.mapM_cons, h x (by simp), ih (fun p hp => h p (by simp [hp]))]; rfl

variable (I : Impl K) (fitM : Nat → List (Col K) → Col K → Predictor K)

theorem simVar_congr (ce : Nat → Option (Col K)) (cm : Nat → Option (Change K)) (sh : Option (Nat → Nat))
    (s s' : Nat → Option (Col K)) (v : Nat) (h : ∀ p ∈ parentsOf I cm v, s p = s' p) :
    simVar I fitM ce cm sh s v = simVar I fitM ce cm sh s' v := by
  unfold simVar
  rw [columns_congr s s' _ h]

theorem error_some (ce : Nat → Option (Col K)) (sh : Option (Nat → Nat)) (v : Nat) (hd : I.discrete v = false) :
    ∃ e, errorOf I fitM ce sh v = some e := by
  have h1 : ∃ e, (trainVar I fitM v).residual = some e := by
    unfold trainVar
    split
    · exact ⟨_, rfl⟩
    · simp [hd]
  obtain ⟨e, he⟩ := h1
  unfold errorOf
  cases hc : ce v <;> cases sh <;> simp [he]

theorem model_some (cm : Nat → Option (Change K)) (v : Nat) (h : (parentsOf I cm v).isEmpty = false) :
    ∃ m, modelOf I fitM cm v = some m := by
  unfold modelOf
  unfold parentsOf at h
  cases hc : cm v with
  | none =>
    simp only [hc] at h
    simp only
    unfold trainVar
    rw [h]
    exact ⟨_, rfl⟩
  | some c => exact ⟨_, rfl⟩

theorem simVar_ok (ce : Nat → Option (Col K)) (cm : Nat → Option (Change K)) (sh : Option (Nat → Nat))
    (s : Nat → Option (Col K)) (v : Nat) (h : ∀ p ∈ parentsOf I cm v, ∃ c, s p = some c) :
    ∃ c, simVar I fitM ce cm sh s v = Except.ok c := by
  unfold simVar
  cases he : (parentsOf I cm v).isEmpty with
  | true =>
    simp only [if_true]
    cases hd : I.discrete v with
    | true => exact ⟨_, rfl⟩
    | false =>
      obtain ⟨e, he⟩ := error_some I fitM ce sh v hd
      simp [he]
  | false =>
    obtain ⟨m, hm⟩ := model_some I fitM cm v he
    obtain ⟨X, hX⟩ := columns_some s _ h
    simp only [Bool.false_eq_true, if_false, hm, hX]
    cases hd : I.discrete v with
    | true => exact ⟨_, rfl⟩
    | false =>
      obtain ⟨e, he⟩ := error_some I fitM ce sh v hd
      simp [he]

theorem simLoop_ok (ce : Nat → Option (Col K)) (cm : Nat → Option (Change K)) (sh : Option (Nat → Nat)) :
    ∀ (vs : List Nat) (s : Nat → Option (Col K)), vs.Nodup →
      (∀ v ∈ vs, ∀ p ∈ parentsOf I cm v, (p ∉ vs ∧ ∃ c, s p = some c) ∨ Before vs p v) →
      ∃ s', simLoop I fitM ce cm sh vs s = Except.ok s' ∧ (∀ u, u ∉ vs → s' u = s u) ∧
        ∀ v ∈ vs, ∃ c, s' v = some c ∧ simVar I fitM ce cm sh s' v = Except.ok c := by
  intro vs
  induction vs with
  | nil => intro s _ _; exact ⟨s, rfl, fun _ _ => rfl, by simp⟩
  | cons v vs ih =>
    intro s hnd hp
    have hvn := (List.nodup_cons.1 hnd).1
    have hp0 : ∀ p ∈ parentsOf I cm v, p ∉ v :: vs ∧ ∃ c, s p = some c := by
      intro p hpv
      rcases hp v (by simp) p hpv with h | h
      · exact h
      · exfalso
        obtain ⟨x, y, z, hl⟩ := h
        cases x with
        | nil =>
          simp only [List.nil_append, List.cons.injEq] at hl
          have : v ∈ vs := by rw [hl.2]; simp
          exact hvn this
        | cons a x =>
          simp only [List.cons_append, List.cons.injEq] at hl
          have : v ∈ vs := by rw [hl.2]; simp
          exact hvn this
    obtain ⟨c, hc⟩ := simVar_ok I fitM ce cm sh s v (fun p h => (hp0 p h).2)
    have hstep : ∀ w ∈ vs, ∀ p ∈ parentsOf I cm w,
        (p ∉ vs ∧ ∃ c', (fun u => if u = v then some c else s u) p = some c') ∨ Before vs p w := by
      intro w hw p hpw
      by_cases hpv : p = v
      · subst hpv; exact Or.inl ⟨hvn, c, by simp⟩
      · rcases hp w (by simp [hw]) p hpw with h | h
        · obtain ⟨h1, c', h2⟩ := h
          exact Or.inl ⟨fun h => h1 (by simp [h]), c', by simp [hpv, h2]⟩
        · right
          obtain ⟨x, y, z, hl⟩ := h
          cases x with
          | nil =>
            simp only [List.nil_append, List.cons.injEq] at hl
            exact absurd hl.1.symm hpv
          | cons a x =>
            simp only [List.cons_append, List.cons.injEq] at hl
            exact ⟨x, y, z, hl.2⟩
    obtain ⟨s', h1, h2, h3⟩ := ih (fun u => if u = v then some c else s u) (List.nodup_cons.1 hnd).2 hstep
    refine ⟨s', ?_, ?_, ?_⟩
    · unfold simLoop; rw [hc]; exact h1
    · intro u hu
      have hu1 : u ≠ v := fun h => hu (by simp [h])
      rw [h2 u (fun h => hu (by simp [h]))]
      simp [hu1]
    · intro w hw
      rcases List.mem_cons.1 hw with rfl | hw
      · refine ⟨c, by rw [h2 w hvn]; simp, ?_⟩
        rw [← hc]
        refine simVar_congr I fitM ce cm sh _ _ w (fun p hp => ?_)
        have hpn := (hp0 p hp).1
        have hpw : p ≠ w := fun h => hpn (by simp [h])
        rw [h2 p (fun h => hpn (by simp [h]))]
        simp [hpw]
      · exact h3 w hw

/-- A run in which every variable satisfies its equation. -/
def Solution (ce : Nat → Option (Col K)) (cm : Nat → Option (Change K)) (sh : Option (Nat → Nat))
    (s : Nat → Option (Col K)) : Prop :=
  ∀ v, v < I.n → ∃ c, s v = some c ∧ simVar I fitM ce cm sh s v = Except.ok c

theorem run_acyclic (ce : Nat → Option (Col K)) (cm : Nat → Option (Change K)) (sh : Option (Nat → Nat))
    (hk : Known I.n cm) (hac : Acyclic (Edge I.n (changedGraph I.graph cm) 0)) :
    ∃ s, run I fitM ce cm sh = Except.ok s ∧ Solution I fitM ce cm sh s := by
  obtain ⟨o, ho⟩ := (calcOrder_acyclic (changedGraph I.graph cm) I.n).2 hac
  obtain ⟨h1, h2⟩ := calcOrder_some _ _ _ ho
  have hp : ∀ v ∈ o, ∀ p ∈ parentsOf I cm v,
      (p ∉ o ∧ ∃ c, (fun _ : Nat => (none : Option (Col K))) p = some c) ∨ Before o p v := by
    intro v hv p hp
    exact Or.inr (h2 p v (parent_edge I cm hk v p ((h1.2 v).1 hv) hp))
  obtain ⟨s, h3, _, h4⟩ := simLoop_ok I fitM ce cm sh o (fun _ => none) h1.1 hp
  refine ⟨s, ?_, fun v hv => h4 v ((h1.2 v).2 hv)⟩
  unfold run getOrder
  rw [ho]
  exact h3

theorem run_cyclic (ce : Nat → Option (Col K)) (cm : Nat → Option (Change K)) (sh : Option (Nat → Nat))
    (hac : ¬ Acyclic (Edge I.n (changedGraph I.graph cm) 0)) :
    run I fitM ce cm sh = Except.error Err.valueError := by
  unfold run getOrder
  cases ho : calcOrder (changedGraph I.graph cm) I.n with
  | none => rfl
  | some o => exact absurd ((calcOrder_acyclic _ _).1 ⟨o, ho⟩) hac

/-- Induction along an acyclic graph on `0, …, n-1`. -/
theorem acyclic_induction {E : Nat → Nat → Prop} (n : Nat) (hac : Acyclic E) (P : Nat → Prop)
    (h : ∀ v, v < n → (∀ p, p < n → E p v → P p) → P v) : ∀ v, v < n → P v := by
  by_contra hc
  push Not at hc
  obtain ⟨v, hv, hP⟩ := hc
  classical
  have hne : (List.range n).filter (fun u => decide (¬ P u)) ≠ [] := by
    intro h0
    have : v ∈ (List.range n).filter (fun u => decide (¬ P u)) := by simp [hv, hP]
    rw [h0] at this
    cases this
  obtain ⟨u, hu, hmin⟩ := exists_minimal hac _ hne
  simp only [List.mem_filter, List.mem_range, decide_eq_true_eq] at hu
  refine hu.2 (h u hu.1 (fun p hp hE => ?_))
  by_contra hPp
  exact hmin p (by simp [hp, hPp]) hE

end Verif.Simulator
