import Verif.Proofs.Parce
import Verif.Spec.ParceTests
import Mathlib.Algebra.Order.Ring.Rat
import Mathlib.Algebra.Field.Rat

/-! # BottomUpParceLiNGAM (C32, C61) -/
set_option linter.unusedSectionVars false
set_option autoImplicit false
namespace Verif.Parce

open Direct (PK Part)
variable {F : Type} [Field F] {𝕜 : Type} [Field 𝕜] [LinearOrder 𝕜]

/-- C32: `fit` finishes for every outcome of the tests (one iteration per variable suffices). -/
theorem C32_terminates (c : Cfg 𝕜) (lasso : Direct.Lasso F) (n fuel : Nat) (h0 : n ≠ 0) (hf : n ≤ fuel) :
    ∃ r, fit c lasso n fuel = some r := by
  unfold fit
  split
  · exact ⟨_, rfl⟩
  · rename_i po _
    split
    · exact ⟨_, rfl⟩
    · obtain ⟨r, hr⟩ := search_terminates (c := c) (thresh := c.alpha / ((n : 𝕜) - 1)) fuel [] (List.range n) po (Part.init n)
        (by simp; omega) (by simpa using hf)
      rw [hr]
      cases r with
      | error e => exact ⟨_, rfl⟩
      | ok K => exact ⟨_, rfl⟩

/-- C32: without prior knowledge and with at least two variables `fit` does not raise. -/
theorem C32_no_error (c : Cfg 𝕜) (hpk : c.pk = none) (lasso : Direct.Lasso F) (n : Nat) (hn : 2 ≤ n) :
    ∃ o B, fit c lasso n n = some (.ok (o, B)) := by
  obtain ⟨r, hr⟩ := C32_terminates c lasso n n (by omega) (le_refl _)
  have key : ∀ (fuel : Nat) (K U : List Nat) (po : List (Nat × Nat)) (e : Err), Part n K U → 2 ≤ U.length →
      searchOrder c (c.alpha / ((n : 𝕜) - 1)) fuel K U po ≠ some (.error e) := by
    intro fuel
    induction fuel with
    | zero => intro K U po e _ _ h; simp [searchOrder] at h
    | succ fuel ih =>
      intro K U po e hp hU h
      have hc : searchCandidate c po U = U := by unfold searchCandidate; rw [hpk]
      unfold searchOrder at h
      simp only [hc, hpk, Option.isSome_none, Bool.false_eq_true, if_false] at h
      split at h
      · cases h
      · rcases findExo_cases c U U with ⟨x, e', hx, hf, _⟩ | ⟨hf, hlen, _⟩
        · rw [hf] at h
          simp only [dropEq_single] at h
          split at h
          · cases h
          · exact ih _ _ _ _ (Part.cons hp hx) (by omega) h
        · rw [hf] at h
          simp only [dropEq_self U hlen] at h
          simp at h
  unfold fit at hr ⊢
  have hpo : priorOrders c n = .ok [] := by unfold priorOrders; rw [hpk]
  rw [hpo] at hr ⊢
  simp only [if_neg (show ¬ n = 1 by omega)] at hr ⊢
  cases hs : searchOrder c (c.alpha / ((n : 𝕜) - 1)) n [] (List.range n) [] with
  | none => rw [hs] at hr; cases hr
  | some s =>
    cases s with
    | error e => exact absurd hs (key n [] (List.range n) [] e (Part.init n) (by simpa using hn))
    | ok K => exact ⟨_, _, rfl⟩

/-- C32: a single variable makes `fit` raise (division by zero). -/
theorem C32_one_variable (c : Cfg) (hpk : c.pk = none) (lasso : Direct.Lasso F) (fuel : Nat) :
    fit c lasso 1 fuel = some (.error .zeroDivision) := by
  unfold fit priorOrders; rw [hpk]; rfl

/-- C32: the flattened causal order lists every variable exactly once; the unresolved block, if present, has at least two
variables and comes first. -/
theorem C32_order {c : Cfg} {lasso : Direct.Lasso F} {n fuel : Nat} (h0 : n ≠ 0) {o : Order} {B : Nat → Nat → Option F}
    (h : fit c lasso n fuel = some (.ok (o, B))) :
    IsOrder n o.items.flatten ∧ (o.block = [] ∨ (2 ≤ o.block.length ∧ o.items.head? = some o.block)) := by
  obtain ⟨h1, h2⟩ := fit_order h0 h
  have hflat : o.items.flatten = o.flat := by
    have hmap : ∀ l : List Nat, (l.map (fun i => [i])).flatten = l := by
      intro l; induction l with
      | nil => rfl
      | cons x l ih => simp [ih]
    unfold Order.items Order.flat
    split
    · rename_i hb; rw [hb]; simp [hmap]
    · simp [hmap]
  refine ⟨by rw [hflat]; exact h1, ?_⟩
  rcases h2 with h2 | h2
  · exact Or.inl h2
  · right
    refine ⟨h2, ?_⟩
    have hne : o.block ≠ [] := by rintro he; rw [he] at h2; simp at h2
    unfold Order.items
    rw [if_neg hne]; rfl

/-- C32: NaN exactly at pairs of different variables of the unresolved block; every other nonzero entry belongs to a
resolved variable and an earlier one, and is not excluded by prior knowledge. -/
theorem C32_matrix {c : Cfg} {lasso : Direct.Lasso F} {n fuel : Nat} (h0 : n ≠ 0) {o : Order} {B : Nat → Nat → Option F}
    (h : fit c lasso n fuel = some (.ok (o, B))) (i j : Nat) (hi : i < n) :
    (B i j = none ↔ i ∈ o.block ∧ j ∈ o.block ∧ i ≠ j) ∧
    (∀ w, B i j = some w → w ≠ 0 → i ∈ o.rest ∧ Before o.flat j i ∧ ∀ q, c.pk = some q → q i j ≠ 0) := by
  obtain ⟨h1, h2⟩ := fit_order h0 h
  obtain ⟨po, _, _, _, _, rfl⟩ := fit_ok h
  rcases List.mem_append.1 ((h1.2 i).2 hi) with hb | hr
  · rw [adjacency_block c.pk lasso h2 h1.1 hb]
    constructor
    · split <;> simp_all
    · intro w hw hw0
      split at hw
      · cases hw
      · simp only [Option.some.injEq] at hw; exact absurd hw.symm hw0
  · obtain ⟨a, b, hab⟩ := List.append_of_mem hr
    rw [adjacency_rest c.pk lasso h2 h1.1 hab]
    constructor
    · have hib : i ∉ o.block := fun hc => (List.nodup_append.1 h1.1).2.2 i hc i hr rfl
      simp [hib]
    · intro w hw hw0
      simp only [Option.some.injEq] at hw
      split at hw
      · rename_i hp
        rw [Direct.mem_predictors] at hp
        refine ⟨hr, ?_, fun q hq => (hp.2 q hq).2⟩
        unfold Order.flat
        rw [hab, ← List.append_assoc]
        exact Before.of_mem_append hp.1 (by simp)
      · exact absurd hw.symm hw0

/-- C32: the row of a resolved variable holds the coefficients of its regression on everything before it (including
the block), restricted by prior knowledge. -/
theorem C32_rows {c : Cfg} {lasso : Direct.Lasso F} {n fuel : Nat} (h0 : n ≠ 0) {o : Order} {B : Nat → Nat → Option F}
    (h : fit c lasso n fuel = some (.ok (o, B))) (pre post : List Nat) (i : Nat) (hi : o.flat = pre ++ i :: post)
    (hr : i ∈ o.rest) (j : Nat) :
    B i j = some (if j ∈ Direct.predictors c.pk pre i then lasso (Direct.predictors c.pk pre i) i j else 0) := by
  obtain ⟨h1, h2⟩ := fit_order h0 h
  obtain ⟨po, _, _, _, _, rfl⟩ := fit_ok h
  obtain ⟨a, b, hab⟩ := List.append_of_mem hr
  have hpre : o.block ++ a = pre := by
    have he : (o.block ++ a) ++ i :: b = pre ++ i :: post := by
      rw [← hi]; unfold Order.flat; rw [hab]; simp
    have hnd := h1.1
    rw [hi] at hnd
    have hk1 : (pre ++ i :: post)[(o.block ++ a).length]? = some i := by rw [← he]; simp
    have hk2 : (pre ++ i :: post)[pre.length]? = some i := by simp
    have hl := (List.getElem?_inj (List.getElem?_eq_some_iff.1 hk1).1 hnd).1 (hk1.trans hk2.symm)
    exact (List.append_inj he hl).1
  rw [adjacency_rest c.pk lasso h2 h1.1 hab, hpre]

/-- C32: prior knowledge is respected by the order, except among the variables left unresolved. -/
theorem C32_prior_respected {c : Cfg} {pk : PK} (hpk : c.pk = some pk) {lasso : Direct.Lasso F} {n fuel : Nat}
    (h0 : n ≠ 0) {o : Order} {B : Nat → Nat → Option F} (h : fit c lasso n fuel = some (.ok (o, B))) (a b : Nat)
    (hab : MustPrecede n pk a b) : Before o.flat a b ∨ (a ∈ o.block ∧ b ∈ o.block) := by
  obtain ⟨h1, h2⟩ := fit_order h0 h
  obtain ⟨po, hpo, hn1, hs, _, _⟩ := fit_ok h
  unfold priorOrders at hpo
  rw [hpk] at hpo
  simp only at hpo
  have hR : ∀ a b, MustPrecede n pk a b → a < n ∧ b < n ∧ a ≠ b := by
    rintro a b ⟨ha, hb, hp⟩
    refine ⟨ha, hb, ?_⟩
    rintro rfl
    have h11 : pk a a = 1 := by
      rcases hp with h | ⟨h, h'⟩
      · exact h
      · exact absurd h h'
    obtain ⟨e, he⟩ := Direct.extract_error.2 ⟨a, a, ha, hb, h11, h11⟩
    rw [he] at hpo; cases hpo
  have key := search_prior hpk hR fuel [] (List.range n) po o.rest (Part.init n) (by simp; omega)
    (by intro a b; rw [Direct.extract_mem hpo]; simp) (by simp) hs
  by_cases ha : a ∈ o.rest
  · exact Or.inl ((key a b hab ha).of_append_right)
  · have ha' : a ∈ o.block := (List.mem_append.1 ((h1.2 a).2 hab.1)).resolve_right ha
    by_cases hb : b ∈ o.rest
    · exact Or.inl (Before.of_mem_append ha' hb)
    · exact Or.inr ⟨ha', (List.mem_append.1 ((h1.2 b).2 hab.2.1)).resolve_right hb⟩

/-- C61, partial: if among any two or more candidates some statistic is finite, every variable placed in the order
(except the very first of a fully resolved order) passed its test when the variables behind it were removed, and it was
the most independent of the candidates then. Without that hypothesis the claim is false, see
`C61_all_infinite_accepted`. -/
theorem C61_accepted_passed_partial {c : Cfg} {lasso : Direct.Lasso F} {n fuel : Nat} (h0 : n ≠ 0)
    (hfin : c.fc = false → ∀ Uc : List Nat, 2 ≤ Uc.length → ∃ j ∈ Uc, (c.hsic Uc j).1 ≠ ⊤) {o : Order}
    {B : Nat → Nat → Option F} (h : fit c lasso n fuel = some (.ok (o, B))) (pre post : List Nat) (x : Nat)
    (hx : o.rest = pre ++ x :: post) (hfirst : o.block ++ pre ≠ []) :
    ∃ Uc V e, (∀ i, i ∈ V ↔ i < n ∧ i ∉ post) ∧ x ∈ Uc ∧ Uc.Sublist V ∧ (c.pk = none → Uc = V) ∧ Passed c n e ∧
      ((Uc = [x] ∧ e = c.single V x) ∨
       (c.fc = true ∧ e = c.fcorr Uc x ∧ ∀ j ∈ Uc, e ≤ c.fcorr Uc j) ∨
       (c.fc = false ∧ e = (c.hsic Uc x).2 ∧ ∀ j ∈ Uc, (c.hsic Uc x).1 ≤ (c.hsic Uc j).1)) := by
  obtain ⟨h1, h2⟩ := fit_order h0 h
  obtain ⟨po, hpo, hn1, hs, _, _⟩ := fit_ok h
  have hfin' : ∀ Uc : List Nat, 2 ≤ Uc.length → ∃ j ∈ Uc, cost c Uc j ≠ ⊤ := by
    intro Uc hU
    cases hfc : c.fc with
    | true =>
      obtain ⟨j, hj⟩ := List.exists_mem_of_length_pos (l := Uc) (by omega)
      exact ⟨j, hj, by simp [cost, hfc]⟩
    | false =>
      obtain ⟨j, hj, hj'⟩ := hfin hfc Uc hU
      exact ⟨j, hj, by simpa [cost, hfc] using hj'⟩
  have hy : ∃ y, y < n ∧ y ∉ x :: post := by
    obtain ⟨y, hy⟩ := List.exists_mem_of_ne_nil _ hfirst
    have hnd := h1.1
    unfold Order.flat at hnd
    rw [hx, ← List.append_assoc] at hnd
    refine ⟨y, (h1.2 y).1 ?_, fun hc => (List.nodup_append.1 hnd).2.2 y hy y hc rfl⟩
    unfold Order.flat; rw [hx, ← List.append_assoc]; exact List.mem_append_left _ hy
  obtain ⟨Uc, V, e, e1, e2, e3, e4, e5, e6⟩ := search_accepted hfin' fuel [] (List.range n) po o.rest (Part.init n)
    (by simp; omega) hs pre x post hx ⟨post, by simp⟩ hy
  refine ⟨Uc, V, e, e1, e2, e3, e4, ?_, ?_⟩
  · unfold Passed
    unfold isReject at e6
    cases hfc : c.fc with
    | true => rw [hfc] at e6; simpa using e6
    | false => rw [hfc] at e6; simpa using e6
  · rcases e5 with ⟨e5, e7⟩ | ⟨_, e7, _, e8⟩
    · exact Or.inl ⟨e5, e7⟩
    · right
      cases hfc : c.fc with
      | true =>
        left
        simp only [cost, eval, hfc, if_true, WithTop.coe_le_coe] at e7 e8
        exact ⟨rfl, e7, fun j hj => by rw [e7]; exact e8 j hj⟩
      | false =>
        right
        simp only [cost, eval, hfc, Bool.false_eq_true, if_false] at e7 e8
        exact ⟨rfl, e7, e8⟩

/-- C61 fails: if every candidate's test reports p-value 0 (infinite statistic) – the strongest possible rejection – then,
whatever the regressions, `fit` accepts all variables at once: nothing is reported as unresolved. -/
theorem C61_all_infinite_accepted (c : Cfg) (hpk : c.pk = none) (hfc : c.fc = false)
    (hinf : ∀ Uc j, c.hsic Uc j = (⊤, 0)) (lasso : Direct.Lasso F) (n : Nat) (hn : 2 ≤ n) :
    ∃ B, fit c lasso n n = some (.ok (⟨[], List.range n⟩, B)) := by
  have hc : searchCandidate c [] (List.range n) = List.range n := by unfold searchCandidate; rw [hpk]
  have hf : findExo c (List.range n) (List.range n) = (List.range n, ⊤) := by
    rcases findExo_cases c (List.range n) (List.range n) with ⟨x, e, hx, hf, hb⟩ | ⟨hf, _, _⟩
    · exfalso
      rcases hb with ⟨hb, _⟩ | ⟨_, _, hb, _⟩
      · have := congrArg List.length hb; simp at this; omega
      · simp [cost, hfc, hinf] at hb
    · exact hf
  have hpo : priorOrders c n = .ok [] := by unfold priorOrders; rw [hpk]
  unfold fit
  rw [hpo]
  simp only [if_neg (show ¬ n = 1 by omega)]
  obtain ⟨m, rfl⟩ : ∃ m, n = m + 1 := ⟨n - 1, by omega⟩
  have hs : searchOrder c (c.alpha / (((m + 1 : Nat) : ℚ) - 1)) (m + 1) [] (List.range (m + 1)) [] =
      some (.ok (List.range (m + 1))) := by
    unfold searchOrder
    simp only [hc, hf, hpk, dropEq_self (List.range (m + 1)) (by simp; omega)]
    simp [isReject, hfc]
  rw [hs]
  have hres : (List.range (m + 1)).filter (fun i => decide (i ∉ List.range (m + 1))) = [] := by
    rw [List.filter_eq_nil_iff]; intro a ha; simpa using ha
  simp only [hres]
  exact ⟨_, rfl⟩

/-! ### Concrete cases meeting the hypotheses -/

/-- Tests by HSIC: variable 2 passes first, then the remaining two are rejected. -/
def exampleCfg (pk : Option PK) : Cfg where
  pk := pk
  fc := false
  alpha := 1 / 10
  indCorr := 1 / 100
  single := fun _ _ => 0
  hsic := fun _ j => if j = 2 then ((1 : ℚ), 1 / 2) else ((9 : ℚ), 1 / 100)
  fcorr := fun _ _ => 0

/-- A block `[0, 1]` remains; NaN inside it; row 2 is regressed on the block. -/
example : (fit (exampleCfg none) (fun _ t c => ((t + c : Nat) : ℚ)) 3 3).map (fun r => r.toOption.map (fun r =>
    (r.1.block, r.1.rest, [r.2 0 1, r.2 1 1, r.2 2 0, r.2 2 1, r.2 0 2]))) =
    some (some ([0, 1], [2], [none, some 0, some 2, some 3, some 0])) := by decide +kernel

/-- With prior knowledge "0 precedes 2": respected, because 2 is resolved after the block. -/
example : (fit (exampleCfg (some (fun i j => if i = 0 ∧ j = 2 then 0 else -1))) (fun _ t c => ((t + c : Nat) : ℚ)) 3 3).map
    (fun r => r.toOption.map (fun r => (r.1.block, r.1.rest))) = some (some ([0, 1], [2])) := by decide +kernel

/-- The hypothesis of `C61_accepted_passed_partial` is met by `exampleCfg`. -/
example (pk : Option PK) : (exampleCfg pk).fc = false →
    ∀ Uc : List Nat, 2 ≤ Uc.length → ∃ j ∈ Uc, ((exampleCfg pk).hsic Uc j).1 ≠ ⊤ := by
  intro _ Uc hU
  obtain ⟨j, hj⟩ := List.exists_mem_of_length_pos (l := Uc) (by omega)
  refine ⟨j, hj, ?_⟩
  unfold exampleCfg
  simp only
  split <;> exact WithTop.coe_ne_top

/-- The hypotheses of `C61_all_infinite_accepted` are met. -/
example : ∃ c : Cfg, c.pk = none ∧ c.fc = false ∧ ∀ Uc j, c.hsic Uc j = (⊤, 0) :=
  ⟨⟨none, false, 1 / 10, 0, fun _ _ => 0, fun _ _ => (⊤, 0), fun _ _ => 0⟩, rfl, rfl, fun _ _ => rfl⟩

end Verif.Parce
