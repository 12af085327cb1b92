import Verif.Model.Parce
import Verif.Proofs.DirectLingam

set_option linter.unusedSectionVars false
set_option autoImplicit false
namespace Verif.Parce

open Direct (PK Part)

variable {𝕜 : Type} [Field 𝕜] [LinearOrder 𝕜]

theorem searchCandidate_sublist (c : Cfg 𝕜) (po : List (Nat × Nat)) (U : List Nat) : (searchCandidate c po U).Sublist U := by
  unfold searchCandidate
  split
  · exact List.Sublist.refl _
  · split
    · exact List.filter_sublist
    · exact List.Sublist.refl _

theorem mem_searchCandidate {c : Cfg 𝕜} {pk : PK} (hpk : c.pk = some pk) {po : List (Nat × Nat)} {U : List Nat} {i : Nat} :
    i ∈ searchCandidate c po U ↔ i ∈ U ∧ ∀ b, (i, b) ∉ po := by
  unfold searchCandidate
  rw [hpk]
  simp only
  split
  · rw [List.mem_filter, decide_eq_true_eq, List.mem_map]
    constructor
    · rintro ⟨h1, h2⟩; exact ⟨h1, fun b hb => h2 ⟨(i, b), hb, rfl⟩⟩
    · rintro ⟨h1, h2⟩; exact ⟨h1, by rintro ⟨⟨a, b⟩, hb, rfl⟩; exact h2 b hb⟩
  · rename_i h
    have : po = [] := by simpa using h
    subst this; simp

/-- The value compared for a candidate: the F-correlation or the Fisher statistic. -/
def cost (c : Cfg 𝕜) (Uc : List Nat) (j : Nat) : WithTop 𝕜 :=
  if c.fc then ((c.fcorr Uc j : 𝕜) : WithTop 𝕜) else (c.hsic Uc j).1

/-- The value reported for a candidate: the F-correlation or the Fisher p-value. -/
def eval (c : Cfg 𝕜) (Uc : List Nat) (j : Nat) : 𝕜 := if c.fc then c.fcorr Uc j else (c.hsic Uc j).2

/-- The component of the state that candidates are compared with. -/
def bound (c : Cfg 𝕜) (st : Option Nat × WithTop 𝕜 × WithTop 𝕜) : WithTop 𝕜 := if c.fc then st.2.1 else st.2.2

theorem exoStep_eq (c : Cfg 𝕜) (Uc : List Nat) (st : Option Nat × WithTop 𝕜 × WithTop 𝕜) (j : Nat) :
    (cost c Uc j < bound c st → (exoStep c Uc st j).1 = some j ∧ (exoStep c Uc st j).2.1 = ((eval c Uc j : 𝕜) : WithTop 𝕜) ∧
      bound c (exoStep c Uc st j) = cost c Uc j) ∧ (¬ cost c Uc j < bound c st → exoStep c Uc st j = st) := by
  unfold exoStep cost bound eval
  cases c.fc with
  | true => constructor <;> intro h <;> simp only [if_true] at * <;> simp [h]
  | false => constructor <;> intro h <;> simp only [Bool.false_eq_true, if_false] at * <;> simp [h]

theorem foldl_exoStep (c : Cfg 𝕜) (Uc : List Nat) : ∀ (l : List Nat) (st : Option Nat × WithTop 𝕜 × WithTop 𝕜),
    let r := l.foldl (exoStep c Uc) st
    (r = st ∧ ∀ j ∈ l, bound c st ≤ cost c Uc j) ∨
      ∃ x ∈ l, r.1 = some x ∧ r.2.1 = ((eval c Uc x : 𝕜) : WithTop 𝕜) ∧ cost c Uc x < bound c st ∧
        bound c r = cost c Uc x ∧ ∀ j ∈ l, cost c Uc x ≤ cost c Uc j
  | [], st => by simp
  | a :: l, st => by
    simp only [List.foldl_cons]
    obtain ⟨h1, h2⟩ := exoStep_eq c Uc st a
    by_cases ha : cost c Uc a < bound c st
    · obtain ⟨e1, e2, e3⟩ := h1 ha
      right
      rcases foldl_exoStep c Uc l (exoStep c Uc st a) with ⟨hr, hall⟩ | ⟨x, hx, hr, hr1, hlt, hr2, hall⟩
      · rw [hr]
        refine ⟨a, by simp, e1, e2, ha, e3, ?_⟩
        intro j hj
        rcases List.mem_cons.1 hj with rfl | hj
        · exact le_refl _
        · rw [← e3]; exact hall j hj
      · rw [e3] at hlt
        refine ⟨x, by simp [hx], hr, hr1, hlt.trans ha, hr2, ?_⟩
        intro j hj
        rcases List.mem_cons.1 hj with rfl | hj
        · exact hlt.le
        · exact hall j hj
    · rw [h2 ha]
      rcases foldl_exoStep c Uc l st with ⟨hr, hall⟩ | ⟨x, hx, hr, hr1, hlt, hr2, hall⟩
      · left
        refine ⟨hr, fun j hj => ?_⟩
        rcases List.mem_cons.1 hj with rfl | hj
        · exact not_lt.1 ha
        · exact hall j hj
      · right
        refine ⟨x, by simp [hx], hr, hr1, hlt, hr2, ?_⟩
        intro j hj
        rcases List.mem_cons.1 hj with rfl | hj
        · exact hlt.le.trans (not_lt.1 ha)
        · exact hall j hj

/-- The value on which acceptance of `x` is decided: by itself if it is the only candidate, else the best of several. -/
def Best (c : Cfg 𝕜) (Uc U : List Nat) (x : Nat) (e : 𝕜) : Prop :=
  (Uc = [x] ∧ e = c.single U x) ∨
    (Uc.length ≠ 1 ∧ e = eval c Uc x ∧ cost c Uc x < ⊤ ∧ ∀ j ∈ Uc, cost c Uc x ≤ cost c Uc j)

theorem findExo_cases (c : Cfg 𝕜) (Uc U : List Nat) :
    (∃ x e, x ∈ Uc ∧ findExo c Uc U = ([x], ((e : 𝕜) : WithTop 𝕜)) ∧ Best c Uc U x e) ∨
    (findExo c Uc U = (Uc, ⊤) ∧ Uc.length ≠ 1 ∧ ∀ j ∈ Uc, cost c Uc j = ⊤) := by
  unfold findExo
  split
  · rename_i x
    exact Or.inl ⟨x, c.single U x, by simp, rfl, Or.inl ⟨rfl, rfl⟩⟩
  · rename_i Uc' hne
    have hlen : Uc.length ≠ 1 := by
      intro h
      obtain ⟨x, hx⟩ := List.length_eq_one_iff.1 h
      exact hne x hx
    have hb : bound c (none, ⊤, ⊤) = ⊤ := by unfold bound; split <;> rfl
    rcases foldl_exoStep c Uc Uc (none, ⊤, ⊤) with ⟨hr, hall⟩ | ⟨x, hx, hr, hr1, hlt, _, hall⟩
    · right
      simp only [hr]
      rw [hb] at hall
      exact ⟨trivial, hlen, fun j hj => top_le_iff.1 (hall j hj)⟩
    · left
      rw [hb] at hlt
      refine ⟨x, eval c Uc x, hx, ?_, Or.inr ⟨hlen, rfl, hlt, hall⟩⟩
      simp only [hr, hr1]

theorem dropEq_single {α : Type} (arr : List α) (key : α → Nat) (x : Nat) :
    dropEq arr key [x] = .ok (arr.filter (fun a => decide (key a ≠ x))) := rfl

theorem dropEq_self (U : List Nat) (h : U.length ≠ 1) : dropEq U (fun x => x) U = .ok [] := by
  have key : ∀ U : List Nat, ((U.zip U).filter (fun p => decide (p.1 ≠ p.2))).map Prod.fst = [] := by
    intro U
    induction U with
    | nil => rfl
    | cons a U ih => simpa using ih
  unfold dropEq
  split
  · simp at h
  · rw [if_pos rfl, key]

/-- How one iteration of the search can go. -/
theorem search_cases {c : Cfg 𝕜} {thresh : 𝕜} {fuel : Nat} {K U : List Nat} {po : List (Nat × Nat)} {K' : List Nat}
    (hU : 2 ≤ U.length) (h : searchOrder c thresh (fuel + 1) K U po = some (.ok K')) :
    (isReject c thresh (findExo c (searchCandidate c po U) U).2 = true ∧ K' = K) ∨
    (∃ x e, x ∈ searchCandidate c po U ∧ Best c (searchCandidate c po U) U x e ∧ isReject c thresh ((e : 𝕜) : WithTop 𝕜) = false ∧
      (((U.filter (fun i => decide (i ≠ x))).length ≤ 1 ∧ K' = U.filter (fun i => decide (i ≠ x)) ++ x :: K) ∨
       (1 < (U.filter (fun i => decide (i ≠ x))).length ∧
        searchOrder c thresh fuel (x :: K) (U.filter (fun i => decide (i ≠ x)))
          (if c.pk.isSome then po.filter (fun p => decide (p.2 ≠ x)) else po) = some (.ok K')))) ∨
    (searchCandidate c po U = U ∧ (∀ j ∈ U, cost c U j = ⊤) ∧ isReject c thresh ⊤ = false ∧ K' = U ++ K) := by
  unfold searchOrder at h
  simp only at h
  by_cases hrej : isReject c thresh (findExo c (searchCandidate c po U) U).2 = true
  · rw [if_pos hrej] at h
    simp only [Option.some.injEq, Except.ok.injEq] at h
    exact Or.inl ⟨hrej, h.symm⟩
  · right
    rw [if_neg hrej] at h
    rcases findExo_cases c (searchCandidate c po U) U with ⟨x, e, hx, hf, hb⟩ | ⟨hf, hlen, hall⟩
    · left
      rw [hf] at h hrej
      simp only [dropEq_single] at h
      refine ⟨x, e, hx, hb, by simpa using hrej, ?_⟩
      have hpo : (if c.pk.isSome = true then Except.ok (po.filter (fun a => decide (a.2 ≠ x))) else Except.ok po : Except Err _)
          = .ok (if c.pk.isSome = true then po.filter (fun a => decide (a.2 ≠ x)) else po) := by
        split <;> rfl
      rw [hpo] at h
      simp only at h
      split at h
      · rename_i hl
        simp only [Option.some.injEq, Except.ok.injEq] at h
        exact Or.inl ⟨hl, by rw [← h]; simp⟩
      · rename_i hl
        exact Or.inr ⟨by omega, h⟩
    · right
      rw [hf] at h hrej
      simp only at h
      have hsub := searchCandidate_sublist c po U
      cases hd : dropEq U (fun x => x) (searchCandidate c po U) with
      | error e => rw [hd] at h; cases h
      | ok U' =>
        have hleq : U.length = (searchCandidate c po U).length := by
          unfold dropEq at hd
          split at hd
          · rename_i hm; rw [hm] at hlen; simp at hlen
          · split at hd
            · assumption
            · cases hd
        have heq : searchCandidate c po U = U := hsub.eq_of_length hleq.symm
        rw [heq] at hd hall
        rw [dropEq_self U (by omega)] at hd
        cases hd
        rw [heq, dropEq_self U (by omega)] at h
        simp only at h
        refine ⟨heq, hall, by simpa using hrej, ?_⟩
        split at h
        · cases h
        · simpa using h.symm

theorem Part.cons {n : Nat} {K U : List Nat} {m : Nat} (h : Part n K U) (hm : m ∈ U) :
    Part n (m :: K) (U.filter (fun i => decide (i ≠ m))) := by
  obtain ⟨h1, h2, h3, h4⟩ := h.step hm
  have hp : (K ++ [m]).Perm (m :: K) := List.perm_append_comm
  exact ⟨hp.nodup_iff.1 h1, h2, fun i hi => h3 i (hp.mem_iff.2 hi), fun i => by rw [← h4 i, hp.mem_iff]⟩

/-- The search terminates. -/
theorem search_terminates {c : Cfg 𝕜} {thresh : 𝕜} {n : Nat} : ∀ (fuel : Nat) (K U : List Nat) (po : List (Nat × Nat)),
    Part n K U → 2 ≤ U.length → U.length ≤ fuel → ∃ r, searchOrder c thresh fuel K U po = some r
  | 0, _, U, _, _, h1, h2 => by omega
  | fuel + 1, K, U, po, hp, h1, h2 => by
    unfold searchOrder
    simp only
    split
    · exact ⟨_, rfl⟩
    · rcases findExo_cases c (searchCandidate c po U) U with ⟨x, e, hx, hf, _⟩ | ⟨hf, hlen, _⟩
      · rw [hf]
        simp only [dropEq_single]
        have hpo : (if c.pk.isSome = true then Except.ok (po.filter (fun a => decide (a.2 ≠ x))) else Except.ok po : Except Err _)
            = .ok (if c.pk.isSome = true then po.filter (fun a => decide (a.2 ≠ x)) else po) := by
          split <;> rfl
        rw [hpo]
        simp only
        split
        · exact ⟨_, rfl⟩
        · have hxU := (searchCandidate_sublist c po U).subset hx
          have hl : (U.filter (fun i => decide (i ≠ x))).length = U.length - 1 :=
            Direct.length_filter_ne hp.2.1 hxU (by omega)
          exact search_terminates fuel _ _ _ (Part.cons hp hxU) (by omega) (by omega)
      · rw [hf]
        simp only
        cases hd : dropEq U (fun x => x) (searchCandidate c po U) with
        | error e => exact ⟨_, rfl⟩
        | ok U' =>
          simp only
          have hleq : U.length = (searchCandidate c po U).length := by
            unfold dropEq at hd
            split at hd
            · rename_i hm; rw [hm] at hlen; simp at hlen
            · split at hd
              · assumption
              · cases hd
          have heq : searchCandidate c po U = U := (searchCandidate_sublist c po U).eq_of_length hleq.symm
          rw [heq, dropEq_self U (by omega)] at hd
          cases hd
          split
          · exact ⟨_, rfl⟩
          · exact ⟨_, rfl⟩

/-- The structure of the result: some of the variables in front of `K`, and never all but one. -/
theorem search_struct {c : Cfg 𝕜} {thresh : 𝕜} {n : Nat} : ∀ (fuel : Nat) (K U : List Nat) (po : List (Nat × Nat)) (K' : List Nat),
    Part n K U → 2 ≤ U.length → searchOrder c thresh fuel K U po = some (.ok K') →
    ∃ U', Part n K' U' ∧ (U' = [] ∨ 2 ≤ U'.length)
  | 0, _, _, _, _, _, _, h => by simp [searchOrder] at h
  | fuel + 1, K, U, po, K', hp, hU, h => by
    rcases search_cases hU h with ⟨_, rfl⟩ | ⟨x, e, hx, _, _, hh⟩ | ⟨_, _, _, rfl⟩
    · exact ⟨U, hp, Or.inr hU⟩
    · have hxU := (searchCandidate_sublist c po U).subset hx
      have hp' := Part.cons hp hxU
      rcases hh with ⟨hl, rfl⟩ | ⟨hl, hs⟩
      · refine ⟨[], ?_, Or.inl rfl⟩
        generalize U.filter (fun i => decide (i ≠ x)) = V at *
        obtain ⟨h1, h2, h3, h4⟩ := hp'
        refine ⟨?_, List.nodup_nil, by simp, ?_⟩
        · rw [List.nodup_append]
          refine ⟨h2, h1, ?_⟩
          rintro a ha b hb rfl
          exact h3 a hb ha
        · intro i
          rw [← h4 i, List.mem_append]
          simp only [List.not_mem_nil, or_false]
          exact or_comm
      · exact search_struct fuel _ _ _ _ hp' (by omega) hs
    · refine ⟨[], ?_, Or.inl rfl⟩
      obtain ⟨h1, h2, h3, h4⟩ := hp
      refine ⟨?_, List.nodup_nil, by simp, ?_⟩
      · rw [List.nodup_append]
        refine ⟨h2, h1, ?_⟩
        rintro a ha b hb rfl
        exact h3 a hb ha
      · intro i
        rw [← h4 i, List.mem_append]
        simp only [List.not_mem_nil, or_false]
        exact or_comm

/-- The result of the search ends with what was placed before. -/
theorem search_suffix {c : Cfg 𝕜} {thresh : 𝕜} : ∀ (fuel : Nat) (K U : List Nat) (po : List (Nat × Nat)) (K' : List Nat),
    2 ≤ U.length → searchOrder c thresh fuel K U po = some (.ok K') → ∃ r, K' = r ++ K
  | 0, _, _, _, _, _, h => by simp [searchOrder] at h
  | fuel + 1, K, U, po, K', hU, h => by
    rcases search_cases hU h with ⟨_, rfl⟩ | ⟨x, e, _, _, _, hh⟩ | ⟨_, _, _, rfl⟩
    · exact ⟨[], rfl⟩
    · rcases hh with ⟨_, rfl⟩ | ⟨hl, hs⟩
      · exact ⟨U.filter (fun i => decide (i ≠ x)) ++ [x], by simp⟩
      · obtain ⟨r, rfl⟩ := search_suffix fuel _ _ _ _ (by omega) hs
        exact ⟨r ++ [x], by simp⟩
    · exact ⟨U, rfl⟩

/-- Prior knowledge is respected: if `a` has to precede `b` and `a` is placed, then `b` is placed after it. -/
theorem search_prior {c : Cfg 𝕜} {pk : PK} (hpk : c.pk = some pk) {thresh : 𝕜} {n : Nat} {R : Nat → Nat → Prop}
    (hR : ∀ a b, R a b → a < n ∧ b < n ∧ a ≠ b) :
    ∀ (fuel : Nat) (K U : List Nat) (po : List (Nat × Nat)) (K' : List Nat), Part n K U → 2 ≤ U.length →
    (∀ a b, (a, b) ∈ po ↔ R a b ∧ b ∉ K) → (∀ a b, R a b → a ∈ K → Before K a b) →
    searchOrder c thresh fuel K U po = some (.ok K') → ∀ a b, R a b → a ∈ K' → Before K' a b
  | 0, _, _, _, _, _, _, _, _, h => by simp [searchOrder] at h
  | fuel + 1, K, U, po, K', hp, hU, hpo, hK, h => by
    have hcand : ∀ a b, a ∈ searchCandidate c po U → R a b → b ∈ K := by
      intro a b ha hab
      by_contra hc
      exact ((mem_searchCandidate hpk).1 ha).2 b ((hpo a b).2 ⟨hab, hc⟩)
    rcases search_cases hU h with ⟨_, rfl⟩ | ⟨x, e, hx, _, _, hh⟩ | ⟨heq, _, _, rfl⟩
    · exact hK
    · have hxU := (searchCandidate_sublist c po U).subset hx
      have hp' := Part.cons hp hxU
      have hK' : ∀ a b, R a b → a ∈ x :: K → Before (x :: K) a b := by
        intro a b hab ha
        rcases List.mem_cons.1 ha with rfl | ha
        · exact Before.of_mem_append (l := [a]) (by simp) (hcand a b hx hab)
        · exact (hK a b hab ha).of_append_right (l := [x])
      rcases hh with ⟨hl, rfl⟩ | ⟨hl, hs⟩
      · intro a b hab ha
        rcases List.mem_append.1 ha with ha | ha
        · refine Before.of_mem_append ha ?_
          have hb := (hp'.2.2.2 b).2 (hR a b hab).2.1
          rcases hb with hb | hb
          · exact hb
          · exfalso
            have hab' := (hR a b hab).2.2
            generalize U.filter (fun i => decide (i ≠ x)) = V at *
            match V, hl, ha, hb with
            | [], _, ha, _ => simp at ha
            | [y], _, ha, hb =>
              simp only [List.mem_singleton] at ha hb
              exact hab' (ha.trans hb.symm)
        · exact (hK' a b hab ha).of_append_right
      · refine search_prior hpk hR fuel _ _ _ _ hp' (by omega) ?_ hK' hs
        intro a b
        rw [hpk]
        simp only [Option.isSome_some, if_true, List.mem_filter, decide_eq_true_eq, hpo, List.mem_cons, not_or]
        tauto
    · intro a b hab ha
      rcases List.mem_append.1 ha with ha | ha
      · exact Before.of_mem_append ha (hcand a b (by rw [heq]; exact ha) hab)
      · exact (hK a b hab ha).of_append_right

end Verif.Parce

namespace Verif.Parce
open Direct (PK Part)

variable {𝕜 : Type} [Field 𝕜] [LinearOrder 𝕜]
variable {F : Type} [Field F]

theorem adjStep_row (pk : Option PK) (lasso : Direct.Lasso F) (items : List (List Nat)) (B : Nat → Nat → F) (i t c : Nat) :
    adjStep pk lasso items B i t c =
      if items[i]? = some [t] ∧ c ∈ Direct.predictors pk (items.take i).flatten t
      then lasso (Direct.predictors pk (items.take i).flatten t) t c else B t c := by
  cases hi : items[i]? with
  | none => simp [adjStep, hi]
  | some l =>
    match l with
    | [] => simp [adjStep, hi]
    | [x] =>
      simp only [adjStep, hi]
      rw [Direct.adjStep_eq]
      by_cases h : t = x
      · subst h; simp
      · have h' : x ≠ t := fun e => h e.symm
        simp [h, h']
    | x :: y :: l => simp [adjStep, hi]

theorem foldl_row (pk : Option PK) (lasso : Direct.Lasso F) (items : List (List Nat)) (t c p : Nat)
    (hpos : ∀ i, items[i]? = some [t] ↔ i = p) : ∀ (is : List Nat) (B : Nat → Nat → F), is.Nodup →
    is.foldl (adjStep pk lasso items) B t c =
      if p ∈ is ∧ c ∈ Direct.predictors pk (items.take p).flatten t
      then lasso (Direct.predictors pk (items.take p).flatten t) t c else B t c
  | [], B, _ => by simp
  | i :: is, B, hn => by
    rw [List.foldl_cons, foldl_row pk lasso items t c p hpos is _ (List.nodup_cons.1 hn).2, adjStep_row]
    simp only [hpos]
    by_cases h1 : i = p
    · subst h1
      have : i ∉ is := (List.nodup_cons.1 hn).1
      simp [this]
    · have : p ≠ i := fun h => h1 h.symm
      simp [h1, this]

theorem foldl_row_none (pk : Option PK) (lasso : Direct.Lasso F) (items : List (List Nat)) (t c : Nat)
    (hpos : ∀ i : Nat, items[i]? ≠ some [t]) : ∀ (is : List Nat) (B : Nat → Nat → F),
    is.foldl (adjStep pk lasso items) B t c = B t c
  | [], B => by simp
  | i :: is, B => by
    rw [List.foldl_cons, foldl_row_none pk lasso items t c hpos is _, adjStep_row, if_neg (fun h => hpos i h.1)]

theorem mem_items {o : Order} (hb : o.block = [] ∨ 2 ≤ o.block.length) (i t : Nat) (h : o.items[i]? = some [t]) :
    t ∈ o.rest ∧ o.rest[i - (if o.block = [] then 0 else 1)]? = some t ∧ (if o.block = [] then 0 else 1) ≤ i := by
  unfold Order.items at h
  rcases hb with hb | hb
  · rw [hb] at h ⊢
    simp only [if_true, List.nil_append, List.getElem?_map, Option.map_eq_some_iff, List.cons.injEq, and_true,
      exists_eq_right] at h
    simp only [if_true, Nat.sub_zero, Nat.zero_le, and_true]
    exact ⟨List.mem_of_getElem? h, h⟩
  · have hne : o.block ≠ [] := by rintro he; rw [he] at hb; simp at hb
    rw [if_neg hne] at h ⊢
    cases i with
    | zero =>
      simp only [List.cons_append, List.getElem?_cons_zero, Option.some.injEq] at h
      rw [h] at hb; simp at hb
    | succ i =>
      simp only [List.cons_append, List.nil_append, List.getElem?_cons_succ, List.getElem?_map, Option.map_eq_some_iff,
        List.cons.injEq, and_true, exists_eq_right] at h
      exact ⟨List.mem_of_getElem? h, by simpa using h, by omega⟩

/-- Entries of the rows of resolved variables: the regression on everything before. -/
theorem adjacency_rest (pk : Option PK) (lasso : Direct.Lasso F) {o : Order} (hb : o.block = [] ∨ 2 ≤ o.block.length)
    (hn : o.flat.Nodup) {a b : List Nat} {t : Nat} (ht : o.rest = a ++ t :: b) (c : Nat) :
    adjacency pk lasso o t c = some (if c ∈ Direct.predictors pk (o.block ++ a) t
      then lasso (Direct.predictors pk (o.block ++ a) t) t c else 0) := by
  have hnr : o.rest.Nodup := (List.nodup_append.1 hn).2.1
  have htb : t ∉ o.block := fun h => (List.nodup_append.1 hn).2.2 t h t (by rw [ht]; simp) rfl
  have hoff : ∀ i, o.items[i]? = some [t] ↔ i = (if o.block = [] then 0 else 1) + a.length := by
    intro i
    have h1 : o.rest[a.length]? = some t := by rw [ht]; simp
    constructor
    · intro h
      obtain ⟨_, h2, h3⟩ := mem_items hb i t h
      have hlt : i - (if o.block = [] then 0 else 1) < o.rest.length := (List.getElem?_eq_some_iff.1 h2).1
      have := (List.getElem?_inj hlt hnr).1 (h2.trans h1.symm)
      omega
    · rintro rfl
      unfold Order.items
      split
      · simpa using h1
      · rw [Nat.add_comm]; simpa using h1
  have htake : (o.items.take ((if o.block = [] then 0 else 1) + a.length)).flatten = o.block ++ a := by
    have hmap : ∀ l : List Nat, (l.map (fun i => [i])).flatten = l := by
      intro l; induction l with
      | nil => rfl
      | cons x l ih => simp [ih]
    have htk : (o.rest.map (fun i => [i])).take a.length = a.map (fun i => [i]) := by
      rw [ht]; simp
    unfold Order.items
    split
    · rename_i h; rw [h]; simp only [List.nil_append, Nat.zero_add]; rw [htk, hmap]
    · rw [Nat.add_comm]; simp only [List.cons_append, List.nil_append, List.take_succ_cons, List.flatten_cons]; rw [htk, hmap]
  unfold adjacency
  simp only
  rw [if_neg (fun h => htb h.1), foldl_row pk lasso o.items t c _ hoff _ _ List.nodup_range', htake]
  congr 1
  have hlen : o.items.length = (if o.block = [] then 0 else 1) + o.rest.length := by
    unfold Order.items; split <;> simp [Nat.add_comm]
  have hrl : a.length < o.rest.length := by rw [ht]; simp
  by_cases hz : (if o.block = [] then 0 else 1) + a.length = 0
  · have hbn : o.block = [] := by
      by_contra hc; rw [if_neg hc] at hz; omega
    have han : a = [] := by
      rw [if_pos hbn] at hz; exact List.length_eq_zero_iff.1 (by omega)
    have : c ∉ Direct.predictors pk (o.block ++ a) t := by
      rw [hbn, han, Direct.mem_predictors]; simp
    rw [if_neg (fun h => this h.2), if_neg this]
  · have hmem : (if o.block = [] then 0 else 1) + a.length ∈ List.range' 1 (o.items.length - 1) := by
      rw [List.mem_range'_1, hlen]
      omega
    simp only [hmem, true_and]

/-- Entries of the rows of unresolved variables: NaN inside the block, zero elsewhere. -/
theorem adjacency_block (pk : Option PK) (lasso : Direct.Lasso F) {o : Order} (hb : o.block = [] ∨ 2 ≤ o.block.length)
    (hn : o.flat.Nodup) {t : Nat} (ht : t ∈ o.block) (c : Nat) :
    adjacency pk lasso o t c = if c ∈ o.block ∧ t ≠ c then none else some 0 := by
  have htr : t ∉ o.rest := fun h => (List.nodup_append.1 hn).2.2 t ht t h rfl
  unfold adjacency
  simp only [ht, true_and]
  split
  · rfl
  · rw [foldl_row_none pk lasso o.items t c (fun i h => htr (mem_items hb i t h).1)]

/-- What `fit` returns. -/
theorem fit_ok {c : Cfg 𝕜} {lasso : Direct.Lasso F} {n fuel : Nat} {o : Order} {B : Nat → Nat → Option F}
    (h : fit c lasso n fuel = some (.ok (o, B))) :
    ∃ po, priorOrders c n = .ok po ∧ n ≠ 1 ∧
      searchOrder c (c.alpha / ((n : 𝕜) - 1)) fuel [] (List.range n) po = some (.ok o.rest) ∧
      o.block = (let res := (List.range n).filter (fun i => decide (i ∉ o.rest)); if 1 < res.length then res else []) ∧
      B = adjacency c.pk lasso o := by
  unfold fit at h
  split at h
  · cases h
  · rename_i po hpo
    split at h
    · cases h
    · rename_i hn
      split at h
      · cases h
      · cases h
      · rename_i K hK
        simp only [Option.some.injEq, Except.ok.injEq, Prod.mk.injEq] at h
        obtain ⟨rfl, rfl⟩ := h
        exact ⟨po, hpo, hn, hK, rfl, rfl⟩

/-- The order returned by `fit`. -/
theorem fit_order {c : Cfg 𝕜} {lasso : Direct.Lasso F} {n fuel : Nat} (h0 : n ≠ 0) {o : Order} {B : Nat → Nat → Option F}
    (h : fit c lasso n fuel = some (.ok (o, B))) :
    IsOrder n o.flat ∧ (o.block = [] ∨ 2 ≤ o.block.length) := by
  obtain ⟨po, _, h1, hs, hbl, _⟩ := fit_ok h
  obtain ⟨U', ⟨p1, p2, p3, p4⟩, hU'⟩ := search_struct fuel [] (List.range n) po o.rest (Part.init n) (by simp; omega) hs
  have hres : ∀ i, i ∈ (List.range n).filter (fun i => decide (i ∉ o.rest)) ↔ i ∈ U' := by
    intro i
    rw [List.mem_filter, decide_eq_true_eq, List.mem_range, ← p4 i]
    constructor
    · rintro ⟨h1, h2⟩; tauto
    · intro h; exact ⟨Or.inr h, fun hc => p3 i hc h⟩
  have hperm : ((List.range n).filter (fun i => decide (i ∉ o.rest))).Perm U' :=
    (List.perm_ext_iff_of_nodup (List.nodup_range.filter _) p2).2 hres
  have hblock : o.block = (List.range n).filter (fun i => decide (i ∉ o.rest)) := by
    rw [hbl]
    simp only
    split
    · rfl
    · rename_i hl
      rcases hU' with rfl | hU'
      · exact (List.perm_nil.1 hperm).symm
      · rw [hperm.length_eq] at hl; omega
  constructor
  · constructor
    · unfold Order.flat
      rw [List.nodup_append]
      refine ⟨by rw [hblock]; exact List.nodup_range.filter _, p1, ?_⟩
      rintro a ha b hb rfl
      rw [hblock, hres] at ha
      exact p3 a hb ha
    · intro i
      unfold Order.flat
      rw [List.mem_append, hblock, hres, ← p4 i]
      exact or_comm
  · rw [hblock]
    rcases hU' with rfl | hU'
    · exact Or.inl (List.perm_nil.1 hperm)
    · right; rw [hperm.length_eq]; exact hU'

/-- Every accepted variable was the best candidate at its time and passed the test, provided that no statistic is
infinite. -/
theorem search_accepted {c : Cfg 𝕜} {thresh : 𝕜} {n : Nat} (hfin : ∀ Uc, 2 ≤ Uc.length → ∃ j ∈ Uc, cost c Uc j ≠ ⊤) :
    ∀ (fuel : Nat) (K U : List Nat) (po : List (Nat × Nat)) (K' : List Nat), Part n K U → 2 ≤ U.length →
    searchOrder c thresh fuel K U po = some (.ok K') →
    ∀ q x s, K' = q ++ x :: s → (∃ s', s = s' ++ K) → (∃ y, y < n ∧ y ∉ x :: s) →
      ∃ Uc V e, (∀ i, i ∈ V ↔ i < n ∧ i ∉ s) ∧ x ∈ Uc ∧ Uc.Sublist V ∧ (c.pk = none → Uc = V) ∧ Best c Uc V x e ∧
        isReject c thresh ((e : 𝕜) : WithTop 𝕜) = false
  | 0, _, _, _, _, _, _, h => by simp [searchOrder] at h
  | fuel + 1, K, U, po, K', hp, hU, h => by
    intro q x s hK' hs' hy
    have hVm : ∀ i, i ∈ U ↔ i < n ∧ i ∉ K := by
      intro i
      rw [← hp.2.2.2 i]
      constructor
      · intro h; exact ⟨Or.inr h, fun hc => hp.2.2.1 i hc h⟩
      · tauto
    have hlenK : ∀ (q : List Nat) s', K = q ++ x :: (s' ++ K) → False := by
      intro q s' h
      have := congrArg List.length h
      simp at this; omega
    rcases search_cases hU h with ⟨_, rfl⟩ | ⟨z, e, hz, hb, hr, hh⟩ | ⟨heq, hall, _, _⟩
    · obtain ⟨s', rfl⟩ := hs'
      exact (hlenK q s' hK').elim
    · have hzU := (searchCandidate_sublist c po U).subset hz
      have hp' := Part.cons hp hzU
      have hbase : s = K → x = z → ∃ Uc V e, (∀ i, i ∈ V ↔ i < n ∧ i ∉ s) ∧ x ∈ Uc ∧ Uc.Sublist V ∧ (c.pk = none → Uc = V) ∧
          Best c Uc V x e ∧ isReject c thresh ((e : 𝕜) : WithTop 𝕜) = false := by
        rintro rfl rfl
        refine ⟨_, U, e, hVm, hz, searchCandidate_sublist c po U, ?_, hb, hr⟩
        intro hn
        unfold searchCandidate; rw [hn]
      obtain ⟨s', rfl⟩ := hs'
      rcases hh with ⟨hl, hK2⟩ | ⟨hl, hs⟩
      · -- the last variable is put in front
        rw [hK2] at hK'
        generalize hV : U.filter (fun i => decide (i ≠ z)) = V at *
        match V, hl, hK', hp' with
        | [], _, hK', _ =>
          cases q with
          | nil =>
            simp only [List.nil_append, List.cons.injEq] at hK'
            exact hbase hK'.2.symm hK'.1.symm
          | cons a q =>
            simp only [List.nil_append, List.cons_append, List.cons.injEq] at hK'
            exact (hlenK q s' hK'.2).elim
        | [w], _, hK', hp' =>
          cases q with
          | nil =>
            exfalso
            simp only [List.nil_append, List.cons_append, List.cons.injEq] at hK'
            obtain ⟨y, hyn, hy⟩ := hy
            rw [← hK'.1, ← hK'.2] at hy
            have := (hp'.2.2.2 y).2 hyn
            simp only [List.mem_cons, List.not_mem_nil, or_false] at this hy
            tauto
          | cons a q =>
            simp only [List.nil_append, List.cons_append, List.cons.injEq] at hK'
            cases q with
            | nil =>
              simp only [List.nil_append, List.cons.injEq] at hK'
              exact hbase hK'.2.2.symm hK'.2.1.symm
            | cons b q =>
              simp only [List.cons_append, List.cons.injEq] at hK'
              exact (hlenK q s' hK'.2.2).elim
      · by_cases hsz : ∃ s'', s' ++ K = s'' ++ z :: K
        · exact search_accepted hfin fuel _ _ _ _ hp' (by omega) hs q x (s' ++ K) hK' hsz hy
        · -- `s = K` and `x = z`
          obtain ⟨U2, hpp, _⟩ := search_struct fuel _ _ _ _ hp' (by omega) hs
          have hsuf : ∃ r, K' = r ++ z :: K := search_suffix fuel _ _ _ _ (by omega) hs
          obtain ⟨r, hr'⟩ := hsuf
          rw [hr'] at hK'
          have hss : s' = [] := by
            by_contra hne
            apply hsz
            obtain ⟨s0, w, rfl⟩ := List.eq_nil_or_concat s' |>.resolve_left hne
            have : (r ++ [z]) ++ K = (q ++ x :: (s0 ++ [w])) ++ K := by simpa using hK'
            have h2 := List.append_cancel_right this
            have h3 : r ++ [z] = (q ++ x :: s0) ++ [w] := by simpa using h2
            have := (List.append_inj' h3 rfl).2
            simp only [List.cons.injEq, and_true] at this
            exact ⟨s0, by rw [this]; simp⟩
          subst hss
          have : r ++ [z] = q ++ [x] := by
            have : (r ++ [z]) ++ K = (q ++ [x]) ++ K := by simpa using hK'
            exact List.append_cancel_right this
          have := (List.append_inj' this rfl).2
          simp only [List.cons.injEq, and_true] at this
          exact hbase (by simp) this.symm
    · obtain ⟨j, hj, hj'⟩ := hfin U hU
      exact absurd (hall j hj) hj'

end Verif.Parce
