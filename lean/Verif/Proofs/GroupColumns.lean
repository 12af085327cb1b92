import Verif.Props.GroupUnits
import Verif.Proofs.DirectLingam

/-!
# Columns in another order: lemmas for MultiGroupDirectLiNGAM (C215)
-/
set_option linter.unusedSectionVars false
set_option autoImplicit false
namespace Verif.GroupData
open Verif.Pairwise (Col Lin Lars FitErr statistic sumNan pick predict pairDiff residual removeEffect getD_of_lt)

/-! ### Lists -/

theorem filter_columns {π : Nat → Nat} {U U' : List Nat} (hp : (U'.map π).Perm U) {p p' : Nat → Bool} (h : ∀ i ∈ U', p' i = p (π i)) :
    ((U'.filter p').map π).Perm (U.filter p) := by
  have e : (U'.filter p').map π = (U'.map π).filter p := by
    rw [List.filter_map]
    congr 1
    exact List.filter_congr fun i hi => h i hi
  rw [e]
  exact hp.filter _

theorem mem_columns {π : Nat → Nat} {U' L L' : List Nat} (hinj : ∀ i ∈ U', ∀ j ∈ U', π i = π j → i = j) (hsub : ∀ i ∈ L', i ∈ U')
    (hL : (L'.map π).Perm L) {i : Nat} (hi : i ∈ U') : i ∈ L' ↔ π i ∈ L := by
  rw [← hL.mem_iff]
  refine ⟨fun h => List.mem_map_of_mem h, fun h => ?_⟩
  obtain ⟨j, hj, e⟩ := List.mem_map.1 h
  exact hinj j (hsub j hj) i hi e ▸ hj

theorem others_columns {π : Nat → Nat} {U U' : List Nat} (hp : (U'.map π).Perm U) (hinj : ∀ i ∈ U', ∀ j ∈ U', π i = π j → i = j)
    {j : Nat} (hj : j ∈ U') : ((U'.filter (fun k => decide (k ≠ j))).map π).Perm (U.filter (fun k => decide (k ≠ π j))) :=
  filter_columns hp fun i hi => by
    have : i ≠ j ↔ π i ≠ π j := ⟨fun h e => h (hinj i hi j hj e), fun h e => h (by rw [e])⟩
    simp only [this]

theorem pkSum_perm {l l' : List Int} (h : l.Perm l') : Direct.pkSum l = Direct.pkSum l' := by
  unfold Direct.pkSum
  rw [h.sum_eq, h.any_eq]

theorem pkNanSum_perm {l l' : List Int} (h : l.Perm l') : Direct.pkNanSum l = Direct.pkNanSum l' := by
  unfold Direct.pkNanSum
  rw [(h.filter _).sum_eq]

/-! ### Candidates -/

/-- The configuration for columns in another order: the prior knowledge is about the same variables. -/
def reorderCfg (π : Nat → Nat) (cfg : Direct.Config) : Direct.Config :=
  { cfg with pk := cfg.pk.map (fun pk i j => pk (π i) (π j)) }

theorem hard_candidates {cfg : Direct.Config} {pk : Direct.PK} (hpk : cfg.pk = some pk) (hs : cfg.soft = false) (po : List (Nat × Nat))
    (U : List Nat) : Direct.searchCandidate cfg po U = (U.filter (fun i => decide (i ∉ po.map Prod.snd)), []) := by
  unfold Direct.searchCandidate
  rw [hpk]
  simp only [hs, if_true]
  split
  · rfl
  · rename_i h
    have : po = [] := by
      rcases po with _ | ⟨a, l⟩
      · rfl
      · simp at h
    subst this
    simp

theorem candidates_columns {cfg : Direct.Config} {π : Nat → Nat} {U U' : List Nat} {po po' : List (Nat × Nat)} (hp : (U'.map π).Perm U)
    (hinj : ∀ i ∈ U', ∀ j ∈ U', π i = π j → i = j) (hpo : ∀ b ∈ U', b ∈ po'.map Prod.snd ↔ π b ∈ po.map Prod.snd) :
    ((Direct.searchCandidate (reorderCfg π cfg) po' U').1.map π).Perm (Direct.searchCandidate cfg po U).1 ∧
      ((Direct.searchCandidate (reorderCfg π cfg) po' U').2.map π).Perm (Direct.searchCandidate cfg po U).2 ∧
      (∀ i ∈ (Direct.searchCandidate (reorderCfg π cfg) po' U').1, i ∈ U') ∧
      ∀ i ∈ (Direct.searchCandidate (reorderCfg π cfg) po' U').2, i ∈ U' := by
  cases hpk : cfg.pk with
  | none =>
    have hpk' : (reorderCfg π cfg).pk = none := by simp [reorderCfg, hpk]
    unfold Direct.searchCandidate
    rw [hpk, hpk']
    exact ⟨hp, .refl _, fun i h => h, fun i h => (by cases h)⟩
  | some pk =>
    have hpk' : (reorderCfg π cfg).pk = some (fun i j => pk (π i) (π j)) := by simp [reorderCfg, hpk]
    by_cases hs : cfg.soft = false
    · rw [hard_candidates hpk hs, hard_candidates hpk' (by exact hs)]
      exact ⟨filter_columns hp fun i hi => by simp only [hpo i hi], .refl _, fun i h => (List.mem_filter.1 h).1, fun i h => (by cases h)⟩
    · have hs' : (reorderCfg π cfg).soft = true := by simpa [reorderCfg] using hs
      have hs : cfg.soft = true := by simpa using hs
      unfold Direct.searchCandidate
      rw [hpk, hpk']
      simp only [hs, hs', Bool.true_eq_false, if_false]
      have row : ∀ j ∈ U', Direct.pkSum ((U'.filter (fun k => decide (k ≠ j))).map (fun k => pk (π j) (π k))) =
          Direct.pkSum ((U.filter (fun k => decide (k ≠ π j))).map (pk (π j))) := fun j hj => by
        have := (others_columns hp hinj hj).map (pk (π j))
        rw [List.map_map] at this
        exact pkSum_perm this
      have rowN : ∀ j ∈ U', Direct.pkNanSum ((U'.filter (fun k => decide (k ≠ j))).map (fun k => pk (π j) (π k))) =
          Direct.pkNanSum ((U.filter (fun k => decide (k ≠ π j))).map (pk (π j))) := fun j hj => by
        have := (others_columns hp hinj hj).map (pk (π j))
        rw [List.map_map] at this
        exact pkNanSum_perm this
      have colS : ∀ j ∈ U', Direct.pkSum ((U'.filter (fun k => decide (k ≠ j))).map (fun k => pk (π k) (π j))) =
          Direct.pkSum ((U.filter (fun k => decide (k ≠ π j))).map (fun k => pk k (π j))) := fun j hj => by
        have := (others_columns hp hinj hj).map (fun k => pk k (π j))
        rw [List.map_map] at this
        exact pkSum_perm this
      have hexo := filter_columns (p' := fun j => decide (Direct.pkSum ((U'.filter (fun k => decide (k ≠ j))).map (fun k => pk (π j) (π k))) = some 0))
        (p := fun j => decide (Direct.pkSum ((U.filter (fun k => decide (k ≠ j))).map (pk j)) = some 0)) hp
        fun j hj => by simp only [row j hj]
      have hend := filter_columns (p' := fun j => decide (0 < Direct.pkNanSum ((U'.filter (fun k => decide (k ≠ j))).map (fun k => pk (π j) (π k)))))
        (p := fun j => decide (0 < Direct.pkNanSum ((U.filter (fun k => decide (k ≠ j))).map (pk j)))) hp
        fun j hj => by simp only [rowN j hj]
      have hsink := filter_columns (p' := fun i => decide (Direct.pkSum ((U'.filter (fun k => decide (k ≠ i))).map (fun k => pk (π k) (π i))) = some 0))
        (p := fun i => decide (Direct.pkSum ((U.filter (fun k => decide (k ≠ i))).map (fun k => pk k i)) = some 0)) hp
        fun j hj => by simp only [colS j hj]
      generalize hE' : U'.filter (fun j => decide (Direct.pkSum ((U'.filter (fun k => decide (k ≠ j))).map (fun k => pk (π j) (π k))) = some 0)) = exo' at *
      generalize hE : U.filter (fun j => decide (Direct.pkSum ((U.filter (fun k => decide (k ≠ j))).map (pk j)) = some 0)) = exo at *
      generalize hN' : U'.filter (fun j => decide (0 < Direct.pkNanSum ((U'.filter (fun k => decide (k ≠ j))).map (fun k => pk (π j) (π k))))) = end' at *
      generalize hN : U.filter (fun j => decide (0 < Direct.pkNanSum ((U.filter (fun k => decide (k ≠ j))).map (pk j)))) = end0 at *
      generalize hS' : U'.filter (fun i => decide (Direct.pkSum ((U'.filter (fun k => decide (k ≠ i))).map (fun k => pk (π k) (π i))) = some 0)) = sink' at *
      generalize hS : U.filter (fun i => decide (Direct.pkSum ((U.filter (fun k => decide (k ≠ i))).map (fun k => pk k i)) = some 0)) = sink at *
      have sub1 : ∀ i ∈ exo', i ∈ U' := fun i h => by rw [← hE'] at h; exact (List.mem_filter.1 h).1
      have sub2 : ∀ i ∈ end' ++ sink', i ∈ U' := fun i h => by
        rcases List.mem_append.1 h with h | h
        · rw [← hN'] at h; exact (List.mem_filter.1 h).1
        · rw [← hS'] at h; exact (List.mem_filter.1 h).1
      have hES : ((end' ++ sink').map π).Perm (end0 ++ sink) := by
        rw [List.map_append]
        exact hend.append hsink
      have hlen : exo'.length = exo.length := by simpa using hexo.length_eq
      have hrest := filter_columns (p' := fun i => decide (i ∉ end' ++ sink')) (p := fun i => decide (i ∉ end0 ++ sink)) hp
        fun i hi => by simp only [mem_columns hinj sub2 hES hi]
      have hUc : ((if exo'.length = 0 then U'.filter (fun i => decide (i ∉ end' ++ sink')) else exo').map π).Perm
          (if exo.length = 0 then U.filter (fun i => decide (i ∉ end0 ++ sink)) else exo) := by
        rw [hlen]
        split
        · exact hrest
        · exact hexo
      have hsubc : ∀ i ∈ (if exo'.length = 0 then U'.filter (fun i => decide (i ∉ end' ++ sink')) else exo'), i ∈ U' := by
        intro i h
        split at h
        · exact (List.mem_filter.1 h).1
        · exact sub1 i h
      generalize (if exo'.length = 0 then U'.filter (fun i => decide (i ∉ end' ++ sink')) else exo') = Uc' at *
      generalize (if exo.length = 0 then U.filter (fun i => decide (i ∉ end0 ++ sink)) else exo) = Uc at *
      refine ⟨hUc, filter_columns hp fun i hi => ?_, hsubc, fun i h => (List.mem_filter.1 h).1⟩
      have e : Direct.pkSum (Uc'.map (fun k => pk (π i) (π k))) = Direct.pkSum (Uc.map (pk (π i))) := by
        have := hUc.map (pk (π i))
        rw [List.map_map] at this
        exact pkSum_perm this
      simp only [mem_columns hinj hsubc hUc hi, e]

/-! ### Evidence -/

/-- The working data `g'` has the columns of `g` in the order given by `π`, as far as the columns `U'` are concerned. -/
def Reordered (π : Nat → Nat) (U' : List Nat) (g g' : Work) : Prop :=
  ∃ (N : Nat) (c c' : Nat → Col N), g = ⟨N, c⟩ ∧ g' = ⟨N, c'⟩ ∧ ∀ i ∈ U', c' i = c (π i)

theorem statistic_reordered {N : Nat} {X X' : Nat → Col N} {π : Nat → Nat} {U U' Uc Uc' Vj Vj' : List Nat} (hp : (U'.map π).Perm U)
    (hinj : ∀ i ∈ U', ∀ j ∈ U', π i = π j → i = j) (hX : ∀ i ∈ U', X' i = X (π i)) (hc : (Uc'.map π).Perm Uc) (hv : (Vj'.map π).Perm Vj)
    (hcs : ∀ i ∈ Uc', i ∈ U') (hvs : ∀ i ∈ Vj', i ∈ U') {i : Nat} (hi : i ∈ U') :
    statistic X' U' Uc' Vj' i = statistic X U Uc Vj (π i) := by
  unfold statistic
  have h1 : (U.filter (fun j => decide (π i ≠ j))).Perm ((U'.filter (fun j => decide (i ≠ j))).map π) :=
    (filter_columns hp fun j hj => by
      have : i ≠ j ↔ π i ≠ π j := ⟨fun h e => h (hinj i hi j hj e), fun h e => h (by rw [e])⟩
      simp only [this]).symm
  rw [Pairwise.sumNan_perm (h1.map (fun j => (pairDiff X Uc Vj (π i) j).map (fun d => (min 0 d) ^ 2))), List.map_map]
  congr 1
  refine List.map_congr_left fun j hj => ?_
  have hj := (List.mem_filter.1 hj).1
  simp only [Function.comp_apply]
  congr 1
  unfold pairDiff
  simp only [hX i hi, hX j hj, mem_columns hinj hcs hc hi, mem_columns hinj hcs hc hj, mem_columns hinj hvs hv hi, mem_columns hinj hvs hv hj]

theorem evidence_reordered {gs gs' : List Work} {π : Nat → Nat} {U U' Uc Uc' Vj Vj' : List Nat} (hp : (U'.map π).Perm U)
    (hinj : ∀ i ∈ U', ∀ j ∈ U', π i = π j → i = j) (hg : List.Forall₂ (Reordered π U') gs gs') (hc : (Uc'.map π).Perm Uc)
    (hv : (Vj'.map π).Perm Vj) (hcs : ∀ i ∈ Uc', i ∈ U') (hvs : ∀ i ∈ Vj', i ∈ U') {i : Nat} (hi : i ∈ U') :
    evidence gs' U' Uc' Vj' i = evidence gs U Uc Vj (π i) := by
  have ht : totalSize gs' = totalSize gs := by
    unfold totalSize
    congr 1
    induction hg with
    | nil => rfl
    | cons h _ ih =>
      obtain ⟨N, c, c', rfl, rfl, _⟩ := h
      simp only [List.map_cons, ih]
  unfold evidence
  rw [ht]
  generalize totalSize gs = T
  clear ht
  congr 1
  induction hg with
  | nil => rfl
  | cons h _ ih =>
    obtain ⟨N, c, c', rfl, rfl, hcol⟩ := h
    simp only [List.map_cons]
    rw [ih, statistic_reordered hp hinj hcol hc hv hcs hvs hi]

theorem remove_reordered {g g' : Work} {π : Nat → Nat} {U U' : List Nat} (hp : (U'.map π).Perm U)
    (hinj : ∀ i ∈ U', ∀ j ∈ U', π i = π j → i = j) (h : Reordered π U' g g') {m : Nat} (hm : m ∈ U') :
    Reordered π (U'.filter (fun i => decide (i ≠ m))) (g.remove U (π m)) (g'.remove U' m) := by
  obtain ⟨N, c, c', rfl, rfl, hcol⟩ := h
  refine ⟨N, _, _, rfl, rfl, fun i hi => ?_⟩
  obtain ⟨hi, hne⟩ := List.mem_filter.1 hi
  have hne : i ≠ m := by simpa using hne
  have hiU : π i ∈ U := hp.mem_iff.1 (List.mem_map_of_mem hi)
  unfold removeEffect
  rw [if_pos ⟨hi, hne⟩, if_pos ⟨hiU, fun e => hne (hinj i hi m hm e)⟩]
  simp only [hcol i hi, hcol m hm]

/-! ### The search -/

/-- Along the run there is never a tie: at every step there is no candidate, or one candidate has less evidence against it than
all others (numbers, not NaN). -/
def NoTies (cfg : Direct.Config) : Nat → List Work → List Nat → List (Nat × Nat) → Prop
  | 0, _, _, _ => True
  | r + 1, gs, U, po =>
    (Direct.searchCandidate cfg po U).1 = [] ∨
    ∃ m ∈ (Direct.searchCandidate cfg po U).1,
      (∀ c ∈ (Direct.searchCandidate cfg po U).1, c ≠ m → ∃ v w,
        evidence gs U (Direct.searchCandidate cfg po U).1 (Direct.searchCandidate cfg po U).2 m = some v ∧
        evidence gs U (Direct.searchCandidate cfg po U).1 (Direct.searchCandidate cfg po U).2 c = some w ∧ v < w) ∧
      NoTies cfg r (gs.map (Work.remove U m)) (U.filter (fun i => decide (i ≠ m)))
        (if cfg.pk.isSome && !cfg.soft then po.filter (fun p => decide (p.1 ≠ m)) else po)

theorem searchOrder_best {cfg : Direct.Config} {po : List (Nat × Nat)} {gs : List Work} {U : List Nat} {m : Nat}
    (hm : m ∈ (Direct.searchCandidate cfg po U).1) (hnd : (Direct.searchCandidate cfg po U).1.Nodup)
    (h : ∀ c ∈ (Direct.searchCandidate cfg po U).1, c ≠ m → ∃ v w,
        evidence gs U (Direct.searchCandidate cfg po U).1 (Direct.searchCandidate cfg po U).2 m = some v ∧
        evidence gs U (Direct.searchCandidate cfg po U).1 (Direct.searchCandidate cfg po U).2 c = some w ∧ v < w) :
    searchOrder cfg po gs U = some m := by
  unfold searchOrder
  revert hm h hnd
  generalize Direct.searchCandidate cfg po U = q
  obtain ⟨Uc, Vj⟩ := q
  simp only
  intro hm hnd h
  match Uc, hm, hnd, h with
  | [c], hm, _, _ => simp at hm; simp [hm]
  | c :: c' :: cs, hm, hnd, h =>
    simp only [pick, Option.some.injEq]
    have hother : ∃ d ∈ c :: c' :: cs, d ≠ m := by
      by_cases e : c = m
      · refine ⟨c', by simp, fun e' => ?_⟩
        rw [e, e'] at hnd
        simp at hnd
      · exact ⟨c, by simp, e⟩
    obtain ⟨d, hd, hdm⟩ := hother
    obtain ⟨v, _, hv, _, _⟩ := h d hd hdm
    refine Pairwise.pickGo_unique (v := -1 * v) (by rw [hv]; rfl) _ _ ?_ ?_
    · simp at hm ⊢; tauto
    · intro j hj hne
      obtain ⟨v', w, h1, h2, h3⟩ := h j hj hne
      rw [hv, Option.some.injEq] at h1
      subst h1
      exact ⟨-1 * w, by rw [h2]; rfl, by linarith⟩

theorem searchOrder_none {cfg : Direct.Config} {po : List (Nat × Nat)} {gs : List Work} {U : List Nat}
    (h : (Direct.searchCandidate cfg po U).1 = []) : searchOrder cfg po gs U = none := by
  unfold searchOrder
  revert h
  generalize Direct.searchCandidate cfg po U = q
  obtain ⟨Uc, Vj⟩ := q
  simp only
  rintro rfl
  rfl

theorem candidates_nodup {cfg : Direct.Config} {po : List (Nat × Nat)} {U : List Nat} (h : U.Nodup) :
    (Direct.searchCandidate cfg po U).1.Nodup := by
  unfold Direct.searchCandidate
  split
  · exact h
  · split
    · split
      · exact h.filter _
      · exact h
    · simp only
      split
      · exact h.filter _
      · exact h.filter _

/-- The requirements `po'` are those of `po` for the columns in the other order. -/
def PoReordered (n : Nat) (π : Nat → Nat) (po po' : List (Nat × Nat)) : Prop :=
  (∀ p ∈ po, p.1 < n ∧ p.2 < n) ∧ (∀ p ∈ po', p.1 < n ∧ p.2 < n) ∧ ∀ a b, a < n → b < n → ((a, b) ∈ po' ↔ (π a, π b) ∈ po)

theorem PoReordered.targets {n : Nat} {π : Nat → Nat} {po po' : List (Nat × Nat)} (hπ : ((List.range n).map π).Perm (List.range n))
    (h : PoReordered n π po po') {b : Nat} (hb : b < n) : b ∈ po'.map Prod.snd ↔ π b ∈ po.map Prod.snd := by
  obtain ⟨h1, h2, h3⟩ := h
  constructor
  · intro hm
    obtain ⟨⟨a, b'⟩, hp, rfl⟩ := List.mem_map.1 hm
    exact List.mem_map.2 ⟨(π a, π b'), (h3 a b' (h2 _ hp).1 hb).1 hp, rfl⟩
  · intro hm
    obtain ⟨⟨a, b'⟩, hp, e⟩ := List.mem_map.1 hm
    simp only at e
    subst e
    obtain ⟨a', ha', rfl⟩ := List.mem_map.1 (hπ.mem_iff.2 (List.mem_range.2 (h1 _ hp).1))
    exact List.mem_map.2 ⟨(a', b), (h3 a' b (List.mem_range.1 ha') hb).2 hp, rfl⟩

theorem PoReordered.drop {n : Nat} {π : Nat → Nat} {po po' : List (Nat × Nat)} (hinj : ∀ i, i < n → ∀ j, j < n → π i = π j → i = j)
    (h : PoReordered n π po po') {m : Nat} (hm : m < n) :
    PoReordered n π (po.filter (fun p => decide (p.1 ≠ π m))) (po'.filter (fun p => decide (p.1 ≠ m))) := by
  obtain ⟨h1, h2, h3⟩ := h
  refine ⟨fun p hp => h1 p (List.mem_filter.1 hp).1, fun p hp => h2 p (List.mem_filter.1 hp).1, fun a b ha hb => ?_⟩
  have : a ≠ m ↔ π a ≠ π m := ⟨fun h e => h (hinj a ha m hm e), fun h e => h (by rw [e])⟩
  simp only [List.mem_filter, h3 a b ha hb, decide_eq_true_eq, this]

theorem orderLoop_reordered {cfg : Direct.Config} {n : Nat} {π : Nat → Nat} (hπ : ((List.range n).map π).Perm (List.range n))
    (hinj : ∀ i, i < n → ∀ j, j < n → π i = π j → i = j) :
    ∀ (r : Nat) (gs gs' : List Work) (K' U U' : List Nat) (po po' : List (Nat × Nat)), (U'.map π).Perm U → U.Nodup → (∀ i ∈ U', i < n) →
      List.Forall₂ (Reordered π U') gs gs' → PoReordered n π po po' → NoTies cfg r gs U po →
      (∀ e, orderLoop cfg r gs (K'.map π) U po = .error e → orderLoop (reorderCfg π cfg) r gs' K' U' po' = .error e) ∧
      ∀ o, orderLoop cfg r gs (K'.map π) U po = .ok o → ∃ o', orderLoop (reorderCfg π cfg) r gs' K' U' po' = .ok o' ∧ o'.map π = o
  | 0, _, _, K', _, _, _, _, _, _, _, _, _, _ => by
    refine ⟨fun e h => (by simp [orderLoop] at h), fun o h => ⟨K', rfl, ?_⟩⟩
    simpa [orderLoop] using h
  | r + 1, gs, gs', K', U, U', po, po', hp, hnd, hlt, hg, hpo, ht => by
    have hinjU : ∀ i ∈ U', ∀ j ∈ U', π i = π j → i = j := fun i hi j hj => hinj i (hlt i hi) j (hlt j hj)
    have hndU' : U'.Nodup := List.Nodup.of_map π (hp.nodup_iff.2 hnd)
    obtain ⟨hc, hv, hcs, hvs⟩ := candidates_columns (cfg := cfg) hp hinjU (po := po) (po' := po') fun b hb => hpo.targets hπ (hlt b hb)
    rcases ht with h0 | ⟨m, hm, hbest, hrest⟩
    · have h0' : (Direct.searchCandidate (reorderCfg π cfg) po' U').1 = [] := by
        have := hc.length_eq
        rw [h0] at this
        simpa using this
      unfold orderLoop
      rw [searchOrder_none h0, searchOrder_none h0']
      exact ⟨fun e h => by simpa using h, fun o h => by simp at h⟩
    · obtain ⟨m', hm', rfl⟩ := List.mem_map.1 (hc.mem_iff.2 hm)
      have hmU' : m' ∈ U' := hcs m' hm'
      have s1 := searchOrder_best hm (candidates_nodup hnd) hbest
      have s2 : searchOrder (reorderCfg π cfg) po' gs' U' = some m' := by
        refine searchOrder_best hm' (candidates_nodup hndU') fun c hcm hne => ?_
        rw [evidence_reordered hp hinjU hg hc hv hcs hvs hmU', evidence_reordered hp hinjU hg hc hv hcs hvs (hcs c hcm)]
        exact hbest (π c) (hc.mem_iff.1 (List.mem_map_of_mem hcm)) fun e => hne (hinjU c (hcs c hcm) m' hmU' e)
      unfold orderLoop
      rw [s1, s2]
      simp only
      have hK : K'.map π ++ [π m'] = (K' ++ [m']).map π := by simp
      rw [hK]
      have hb : ((reorderCfg π cfg).pk.isSome && !(reorderCfg π cfg).soft) = (cfg.pk.isSome && !cfg.soft) := by
        simp [reorderCfg]
      rw [hb]
      refine orderLoop_reordered hπ hinj r _ _ _ _ _ _ _ (others_columns hp hinjU hmU') (hnd.filter _)
        (fun i hi => hlt i (List.mem_filter.1 hi).1) ?_ ?_ hrest
      · rw [List.forall₂_map_left_iff, List.forall₂_map_right_iff]
        exact hg.imp fun g g' h => remove_reordered hp hinjU h hmU'
      · split
        · exact hpo.drop hinj (hlt m' hmU')
        · exact hpo

/-! ### The matrices -/

theorem predictors_reordered {pk : Option Direct.PK} {π : Nat → Nat} {before : List Nat} {t : Nat}
    (hinj : ∀ p ∈ before, π t = π p → t = p) :
    (Direct.predictors (pk.map (fun pk i j => pk (π i) (π j))) before t).map π = Direct.predictors pk (before.map π) (π t) := by
  unfold Direct.predictors
  cases pk with
  | none => rfl
  | some pk =>
    simp only [Option.map_some]
    rw [List.filter_map]
    congr 1
    refine List.filter_congr fun p hp => ?_
    simp only [Function.comp_apply]
    have : t = p ↔ π t = π p := ⟨fun h => by rw [h], hinj p hp⟩
    simp only [this]

theorem estimateAdj_reordered {K : Type} [Field K] {pk : Option Direct.PK} {lasso lasso' : Direct.Lasso K} {π : Nat → Nat} {o : List Nat}
    (hinj : ∀ i ∈ o, ∀ j ∈ o, π i = π j → i = j)
    (h : ∀ ps t p, (∀ q ∈ ps, q ∈ o) → t ∈ o → p ∈ ps → lasso' ps t p = lasso (ps.map π) (π t) (π p)) {i j : Nat} (hi : i ∈ o) (hj : j ∈ o) :
    Direct.estimateAdj (pk.map (fun pk i j => pk (π i) (π j))) lasso' o i j = Direct.estimateAdj pk lasso (o.map π) (π i) (π j) := by
  unfold Direct.estimateAdj
  rw [List.length_map]
  suffices hs : ∀ (l : List Nat) (B B' : Nat → Nat → K), (∀ r ∈ o, ∀ c ∈ o, B' r c = B (π r) (π c)) → ∀ r ∈ o, ∀ c ∈ o,
      l.foldl (Direct.adjIter (pk.map (fun pk i j => pk (π i) (π j))) lasso' o) B' r c =
        l.foldl (Direct.adjIter pk lasso (o.map π)) B (π r) (π c) from hs _ _ _ (by simp) i hi j hj
  intro l
  induction l with
  | nil => intro B B' hB; exact hB
  | cons k l ih =>
    intro B B' hB
    simp only [List.foldl_cons]
    refine ih _ _ fun r hr c hc => ?_
    unfold Direct.adjIter
    rw [List.getElem?_map]
    cases ht : o[k]? with
    | none => exact hB r hr c hc
    | some t =>
      have hto : t ∈ o := List.mem_of_getElem? ht
      simp only [Option.map_some]
      have htake : ∀ p ∈ o.take k, p ∈ o := fun p hp => List.mem_of_mem_take hp
      have hps := predictors_reordered (pk := pk) (π := π) (before := o.take k) (t := t) fun p hp e => hinj t hto p (htake p hp) e
      rw [List.map_take] at hps
      unfold Direct.adjStep
      rw [← hps, List.length_map]
      have hsub : ∀ q ∈ Direct.predictors (pk.map (fun pk i j => pk (π i) (π j))) (o.take k) t, q ∈ o := fun q hq =>
        htake q (Pairwise.predictors_sub.subset hq)
      generalize Direct.predictors (pk.map (fun pk i j => pk (π i) (π j))) (o.take k) t = ps at *
      split
      · exact hB r hr c hc
      · beta_reduce
        have e1 : r = t ↔ π r = π t := ⟨fun h => by rw [h], hinj r hr t hto⟩
        have e2 : c ∈ ps ↔ π c ∈ ps.map π := mem_columns hinj hsub (.refl _) hc
        by_cases hcond : r = t ∧ c ∈ ps
        · rw [if_pos hcond, if_pos ⟨e1.1 hcond.1, e2.1 hcond.2⟩]
          exact h ps t c hsub hto hcond.2
        · rw [if_neg hcond, if_neg fun hh => hcond ⟨e1.2 hh.1, e2.2 hh.2⟩]
          exact hB r hr c hc

theorem predict_reordered {N : Nat} (lin : Lin N) (lars : Lars N) (X : Nat → Fin N → ℝ) (π : Nat → Nat) (ps : List Nat) (t k : Nat) :
    predict lin lars (fun j => X (π j)) ps t k = predict lin lars X (ps.map π) (π t) k := by
  unfold predict
  simp only [List.map_map, Function.comp_def]
  have hlt : ∀ i ∈ Pairwise.kept lin lars (ps.map (fun p => Pairwise.scaled (X (π p)))) (Pairwise.scaled (X (π t))), i < ps.length := by
    intro i hi
    unfold Pairwise.kept at hi
    have := List.mem_range.1 (List.mem_filter.1 hi).1
    simpa using this
  generalize Pairwise.kept lin lars (ps.map (fun p => Pairwise.scaled (X (π p)))) (Pairwise.scaled (X (π t))) = idx at *
  have e : idx.map (fun i => X (π (ps.getD i 0))) = idx.map (fun i => X ((ps.map π).getD i 0)) := by
    refine List.map_congr_left fun i hi => ?_
    have hi := hlt i hi
    rw [getD_of_lt hi, getD_of_lt (l := ps.map π) (by simpa using hi), List.getElem_map]
  rw [e]

theorem idxOf_map_inj {π : Nat → Nat} : ∀ (l : List Nat) (x : Nat), (∀ y ∈ l, π y = π x → y = x) → (l.map π).idxOf (π x) = l.idxOf x
  | [], _, _ => rfl
  | y :: l, x, h => by
    rw [List.map_cons, List.idxOf_cons, List.idxOf_cons, idxOf_map_inj l x fun z hz => h z (by simp [hz])]
    have : (π y == π x) = (y == x) := by
      by_cases e : y = x
      · simp [e]
      · have : π y ≠ π x := fun e' => e (h y (by simp) e')
        simp [e, this]
    rw [this]

/-- The same data with the columns in another order. -/
def DataSet.reorder (π : Nat → Nat) (d : DataSet) : DataSet := ⟨d.rows, fun j => d.col (π j)⟩

theorem matrix_reordered (cfg : Direct.Config) (lin : ∀ N, Lin N) (lars : ∀ N, Lars N) {π : Nat → Nat} {o : List Nat}
    (hinj : ∀ i ∈ o, ∀ j ∈ o, π i = π j → i = j) (d : DataSet) :
    (∀ e, matrix cfg lin lars (o.map π) d = .error e → matrix (reorderCfg π cfg) lin lars o (d.reorder π) = .error e) ∧
    ∀ B, matrix cfg lin lars (o.map π) d = .ok B → ∃ B', matrix (reorderCfg π cfg) lin lars o (d.reorder π) = .ok B' ∧
      ∀ i ∈ o, ∀ j ∈ o, B' i j = B (π i) (π j) := by
  have hany : (List.range' 1 (o.length - 1)).any (fun i =>
      decide ((Direct.predictors (reorderCfg π cfg).pk (o.take i) (o.getD i 0)).length ≠ 0 ∧
        (d.reorder π).rows ≤ (Direct.predictors (reorderCfg π cfg).pk (o.take i) (o.getD i 0)).length + 1)) =
      (List.range' 1 ((o.map π).length - 1)).any (fun i =>
      decide ((Direct.predictors cfg.pk ((o.map π).take i) ((o.map π).getD i 0)).length ≠ 0 ∧
        d.rows ≤ (Direct.predictors cfg.pk ((o.map π).take i) ((o.map π).getD i 0)).length + 1)) := by
    rw [List.length_map]
    rw [Bool.eq_iff_iff]
    simp only [List.any_eq_true, List.mem_range'_1]
    refine exists_congr fun i => and_congr_right fun hi => ?_
    have hio : i < o.length := by omega
    have hmem : o.getD i 0 ∈ o := by rw [getD_of_lt hio]; exact List.getElem_mem hio
    have e : (Direct.predictors (reorderCfg π cfg).pk (o.take i) (o.getD i 0)).length =
        (Direct.predictors cfg.pk ((o.map π).take i) ((o.map π).getD i 0)).length := by
      rw [← List.map_take, show (o.map π).getD i 0 = π (o.getD i 0) by
        rw [getD_of_lt hio, getD_of_lt (l := o.map π) (by simpa using hio), List.getElem_map]]
      rw [← predictors_reordered (pk := cfg.pk) fun p hp e => hinj _ hmem p (List.mem_of_mem_take hp) e, List.length_map]
      rfl
    rw [e]
    rfl
  unfold matrix
  simp only
  rw [hany]
  split
  · exact ⟨fun e h => h, fun B h => (by cases h)⟩
  · refine ⟨fun e h => (by cases h), fun B h => ?_⟩
    simp only [Except.ok.injEq] at h
    subst h
    refine ⟨_, rfl, fun i hi j hj => ?_⟩
    refine estimateAdj_reordered hinj (fun ps t p hps _ hp => ?_) hi hj
    rw [idxOf_map_inj ps p fun y hy e => hinj y (hps y hy) p (hps p hp) e]
    exact predict_reordered (lin d.rows) (lars d.rows) d.col π ps t (ps.idxOf p)

theorem matrices_reordered (cfg : Direct.Config) (lin : ∀ N, Lin N) (lars : ∀ N, Lars N) {π : Nat → Nat} {o : List Nat}
    (hinj : ∀ i ∈ o, ∀ j ∈ o, π i = π j → i = j) : ∀ ds : List DataSet,
    (∀ e, matrices cfg lin lars (o.map π) ds = .error e → matrices (reorderCfg π cfg) lin lars o (ds.map (DataSet.reorder π)) = .error e) ∧
    ∀ Bs, matrices cfg lin lars (o.map π) ds = .ok Bs → ∃ Bs', matrices (reorderCfg π cfg) lin lars o (ds.map (DataSet.reorder π)) = .ok Bs' ∧
      List.Forall₂ (fun B B' => ∀ i ∈ o, ∀ j ∈ o, B' i j = B (π i) (π j)) Bs Bs'
  | [] => by
    refine ⟨fun e h => (by cases h), fun Bs h => ⟨[], rfl, ?_⟩⟩
    simp only [matrices, Except.ok.injEq] at h
    subst h
    exact .nil
  | d :: ds => by
    obtain ⟨m1, m2⟩ := matrix_reordered cfg lin lars hinj d
    obtain ⟨i1, i2⟩ := matrices_reordered cfg lin lars hinj ds
    rw [List.map_cons]
    unfold matrices
    cases hm : matrix cfg lin lars (o.map π) d with
    | error e =>
      rw [m1 e hm]
      exact ⟨fun e h => h, fun Bs h => by cases h⟩
    | ok B =>
      obtain ⟨B', hB, hr⟩ := m2 B hm
      rw [hB]
      simp only
      cases hms : matrices cfg lin lars (o.map π) ds with
      | error e =>
        rw [i1 e hms]
        exact ⟨fun e h => h, fun Bs h => by cases h⟩
      | ok Bs =>
        obtain ⟨Bs', hBs, hrs⟩ := i2 Bs hms
        rw [hBs]
        refine ⟨fun e h => (by cases h), fun Bs0 h => ?_⟩
        simp only [Except.ok.injEq] at h
        subst h
        exact ⟨_, rfl, .cons hr hrs⟩

/-- The requirements that `fit` starts with. -/
def startPo (cfg : Direct.Config) (n : Nat) : Except Direct.Err (List (Nat × Nat)) :=
  match cfg.pk with
  | none => .ok []
  | some pk => if cfg.soft then .ok [] else Direct.extractPartialOrders n pk

theorem fitOrder_start (cfg : Direct.Config) (n : Nat) (ds : List DataSet) : fitOrder cfg n ds =
    match startPo cfg n with
    | .error e => .error e
    | .ok po => orderLoop cfg n (ds.map DataSet.copy) [] (List.range n) po := by
  unfold fitOrder startPo
  cases cfg.pk with
  | none => rfl
  | some pk =>
    simp only
    split
    · rfl
    · cases Direct.extractPartialOrders n pk <;> rfl

theorem error_kind {n : Nat} {pk : Direct.PK} {e : Direct.Err} (h : Direct.extractPartialOrders n pk = .error e) : e = .inconsistent := by
  unfold Direct.extractPartialOrders at h
  simp only at h
  split at h
  · simpa using h.symm
  · split at h <;> cases h

theorem startPo_reordered {n : Nat} {π : Nat → Nat} (hπ : ((List.range n).map π).Perm (List.range n))
    (hinj : ∀ i, i < n → ∀ j, j < n → π i = π j → i = j) (cfg : Direct.Config) :
    (∀ e, startPo cfg n = .error e → startPo (reorderCfg π cfg) n = .error e) ∧
    ∀ po, startPo cfg n = .ok po → ∃ po', startPo (reorderCfg π cfg) n = .ok po' ∧ PoReordered n π po po' := by
  have hlt : ∀ i, i < n → π i < n := fun i hi => List.mem_range.1 (hπ.mem_iff.1 (List.mem_map_of_mem (List.mem_range.2 hi)))
  have hsurj : ∀ i, i < n → ∃ j, j < n ∧ π j = i := fun i hi => by
    obtain ⟨j, hj, e⟩ := List.mem_map.1 (hπ.mem_iff.2 (List.mem_range.2 hi))
    exact ⟨j, List.mem_range.1 hj, e⟩
  have hempty : PoReordered n π [] [] := ⟨fun p h => (by cases h), fun p h => (by cases h), fun a b _ _ => by simp⟩
  unfold startPo
  cases hpk : cfg.pk with
  | none =>
    have hpk' : (reorderCfg π cfg).pk = none := by simp [reorderCfg, hpk]
    rw [hpk']
    refine ⟨fun e h => (by cases h), fun po h => ⟨[], rfl, ?_⟩⟩
    simp only [Except.ok.injEq] at h
    subst h
    exact hempty
  | some pk =>
    have hpk' : (reorderCfg π cfg).pk = some (fun i j => pk (π i) (π j)) := by simp [reorderCfg, hpk]
    rw [hpk', show (reorderCfg π cfg).soft = cfg.soft from rfl]
    simp only
    split
    · refine ⟨fun e h => (by cases h), fun po h => ⟨[], rfl, ?_⟩⟩
      simp only [Except.ok.injEq] at h
      subst h
      exact hempty
    · constructor
      · intro e h
        obtain ⟨a, b, ha, hb, h1, h2⟩ := Direct.extract_error.1 ⟨e, h⟩
        obtain ⟨a', ha', rfl⟩ := hsurj a ha
        obtain ⟨b', hb', rfl⟩ := hsurj b hb
        obtain ⟨e', h'⟩ := Direct.extract_error (n := n) (pk := fun i j => pk (π i) (π j)) |>.2 ⟨a', b', ha', hb', h1, h2⟩
        rw [h', error_kind h, error_kind h']
      · intro po h
        cases h' : Direct.extractPartialOrders n (fun i j => pk (π i) (π j)) with
        | error e =>
          obtain ⟨a, b, ha, hb, h1, h2⟩ := Direct.extract_error.1 ⟨e, h'⟩
          obtain ⟨e', h''⟩ := Direct.extract_error (n := n) (pk := pk) |>.2 ⟨π a, π b, hlt a ha, hlt b hb, h1, h2⟩
          rw [h''] at h
          cases h
        | ok po' =>
          refine ⟨po', rfl, fun p hp => ?_, fun p hp => ?_, fun a b ha hb => ?_⟩
          · have := (Direct.extract_mem h p.1 p.2).1 hp
            exact ⟨this.1, this.2.1⟩
          · have := (Direct.extract_mem h' p.1 p.2).1 hp
            exact ⟨this.1, this.2.1⟩
          · rw [Direct.extract_mem h, Direct.extract_mem h']
            unfold MustPrecede
            simp only [ha, hb, hlt a ha, hlt b hb, true_and]

end Verif.GroupData
