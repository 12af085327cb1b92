import Verif.Proofs.GroupColumns
import Verif.Spec.JointOrder

/-!
# The order of the columns in MultiGroupDirectLiNGAM and DirectLiNGAM (C215)

Without ties the columns may come in any order: the order found and all matrices are the same for the same variables, with and
without prior knowledge, and `fit` fails in the same cases.  For data with a unique joint order this order is the one returned.
-/
set_option linter.unusedSectionVars false
set_option autoImplicit false
namespace Verif.GroupData
open Verif.Pairwise (Col Lin Lars FitErr statistic sumNan pick predict pairDiff residual removeEffect getD_of_lt Indep)

/-- `fit` on reordered columns, for a run without ties. -/
theorem fit_reordered (cfg : Direct.Config) (lin : ∀ N, Lin N) (lars : ∀ N, Lars N) {n : Nat} {π : Nat → Nat}
    (hπ : ((List.range n).map π).Perm (List.range n)) {ds : List DataSet}
    (ht : ∀ po, startPo cfg n = .ok po → NoTies cfg n (ds.map DataSet.copy) (List.range n) po) :
    (∀ e, fit cfg lin lars n ds = .error e → fit (reorderCfg π cfg) lin lars n (ds.map (DataSet.reorder π)) = .error e) ∧
    ∀ o Bs, fit cfg lin lars n ds = .ok (o, Bs) → ∃ o' Bs', fit (reorderCfg π cfg) lin lars n (ds.map (DataSet.reorder π)) = .ok (o', Bs') ∧
      o'.map π = o ∧ List.Forall₂ (fun B B' => ∀ i j, i < n → j < n → B' i j = B (π i) (π j)) Bs Bs' := by
  have hinj : ∀ i, i < n → ∀ j, j < n → π i = π j → i = j := fun i hi j hj e =>
    List.inj_on_of_nodup_map (hπ.nodup_iff.2 List.nodup_range) (List.mem_range.2 hi) (List.mem_range.2 hj) e
  obtain ⟨s1, s2⟩ := startPo_reordered hπ hinj cfg
  unfold fit
  rw [fitOrder_start, fitOrder_start]
  cases hs : startPo cfg n with
  | error e =>
    rw [s1 e hs]
    exact ⟨fun e h => h, fun o Bs h => by cases h⟩
  | ok po =>
    obtain ⟨po', hs', hpo⟩ := s2 po hs
    rw [hs']
    simp only
    have hg : List.Forall₂ (Reordered π (List.range n)) (ds.map DataSet.copy) ((ds.map (DataSet.reorder π)).map DataSet.copy) := by
      rw [List.map_map, List.forall₂_map_left_iff, List.forall₂_map_right_iff, List.forall₂_same]
      exact fun d _ => ⟨d.rows, _, _, rfl, rfl, fun i _ => rfl⟩
    obtain ⟨l1, l2⟩ := orderLoop_reordered (cfg := cfg) hπ hinj n _ _ [] _ _ _ _ hπ List.nodup_range (fun i hi => List.mem_range.1 hi) hg hpo (ht po hs)
    rw [List.map_nil] at l1 l2
    cases ho : orderLoop cfg n (ds.map DataSet.copy) [] (List.range n) po with
    | error e =>
      rw [l1 e ho]
      exact ⟨fun e h => h, fun o Bs h => by cases h⟩
    | ok o =>
      obtain ⟨o', ho', rfl⟩ := l2 o ho
      rw [ho']
      simp only
      have hperm : o'.Perm (List.range n) := by
        refine fitOrder_perm (cfg := reorderCfg π cfg) (ds := ds.map (DataSet.reorder π)) ?_
        rw [fitOrder_start, hs']
        exact ho'
      have hlt : ∀ i ∈ o', i < n := fun i hi => List.mem_range.1 (hperm.mem_iff.1 hi)
      obtain ⟨m1, m2⟩ := matrices_reordered cfg lin lars (π := π) (o := o') (fun i hi j hj => hinj i (hlt i hi) j (hlt j hj)) ds
      cases hm : matrices cfg lin lars (o'.map π) ds with
      | error e =>
        rw [m1 e hm]
        exact ⟨fun e h => h, fun o Bs h => by cases h⟩
      | ok Bs =>
        obtain ⟨Bs', hB, hr⟩ := m2 Bs hm
        rw [hB]
        refine ⟨fun e h => (by cases h), fun o Bs0 h => ?_⟩
        simp only [Except.ok.injEq, Prod.mk.injEq] at h
        obtain ⟨rfl, rfl⟩ := h
        exact ⟨o', Bs', rfl, rfl, hr.imp fun B B' h i j hi hj =>
          h i (hperm.mem_iff.2 (List.mem_range.2 hi)) j (hperm.mem_iff.2 (List.mem_range.2 hj))⟩

/-! ### Data with a unique joint order -/

/-- What the prior knowledge requires. -/
def Requires (cfg : Direct.Config) (n : Nat) (a b : Nat) : Prop := ∃ pk, cfg.pk = some pk ∧ MustPrecede n pk a b

/-- The data of a data set. -/
def DataSet.sample (d : DataSet) : SizedSample := ⟨d.rows, d.col⟩

theorem statistic_candidates {N : Nat} (X : Nat → Col N) (U Uc : List Nat) (i : Nat) : statistic X U Uc [] i = statistic X U U [] i := by
  unfold statistic pairDiff
  simp

/-- The working data `g` holds the sample `d` in the columns `U`. -/
def Holds (U : List Nat) (d : SizedSample) (g : Work) : Prop :=
  Indep U d.2 ∧ ∃ c : Nat → Col d.1, g = ⟨d.1, c⟩ ∧ ∀ i ∈ U, c i = some (d.2 i)

theorem evidence_eq {U Uc : List Nat} (hnd : U.Nodup) {ds : List SizedSample} {gs : List Work} (h : List.Forall₂ (Holds U) ds gs) {i : Nat} (hi : i ∈ U) :
    evidence gs U Uc [] i = some (jointPenalty ds U i) := by
  have ht : ((totalSize gs : Nat) : ℝ) = (ds.map (fun d => (d.1 : ℝ))).sum := by
    unfold totalSize
    induction h with
    | nil => simp
    | cons h _ ih =>
      obtain ⟨_, c, rfl, _⟩ := h
      simp only [List.map_cons, List.sum_cons, Nat.cast_add, ih]
  unfold evidence jointPenalty
  rw [ht]
  generalize (ds.map (fun d => (d.1 : ℝ))).sum = T
  clear ht
  induction h with
  | nil => simp [sumNan]
  | @cons d g ds gs h _ ih =>
    obtain ⟨hi1, c, rfl, hc⟩ := h
    simp only [List.map_cons, List.sum_cons, sumNan, statistic_candidates c U Uc i, Pairwise.statistic_eq hnd hi1 hc hi, Option.map_some, ih]
    simp only [Option.some.injEq]
    ring

theorem candidates_required {cfg : Direct.Config} (hard : cfg.pk ≠ none → cfg.soft = false) {n : Nat} {U : List Nat} {po : List (Nat × Nat)}
    (hpo : ∀ a b, (a, b) ∈ po ↔ a ∈ U ∧ Requires cfg n a b) :
    Direct.searchCandidate cfg po U = (U.filter (fun i => decide (i ∉ po.map Prod.snd)), []) ∧
      ∀ i, i ∈ (Direct.searchCandidate cfg po U).1 ↔ i ∈ U ∧ ∀ a ∈ U, ¬ Requires cfg n a i := by
  have h1 : Direct.searchCandidate cfg po U = (U.filter (fun i => decide (i ∉ po.map Prod.snd)), []) := by
    cases hpk : cfg.pk with
    | none =>
      have : po = [] := by
        rcases po with _ | ⟨⟨a, b⟩, l⟩
        · rfl
        · obtain ⟨_, pk, h, _⟩ := (hpo a b).1 (by simp)
          rw [hpk] at h
          cases h
      subst this
      unfold Direct.searchCandidate
      rw [hpk]
      simp
    | some pk => exact hard_candidates hpk (hard (by rw [hpk]; simp)) po U
  refine ⟨h1, fun i => ?_⟩
  rw [h1]
  simp only [List.mem_filter, decide_eq_true_eq]
  refine and_congr_right fun _ => ?_
  constructor
  · exact fun h a ha hr => h (List.mem_map.2 ⟨(a, i), (hpo a i).2 ⟨ha, hr⟩, rfl⟩)
  · intro h hm
    obtain ⟨⟨a, b⟩, hp, rfl⟩ := List.mem_map.1 hm
    exact h a ((hpo a b).1 hp).1 ((hpo a b).1 hp).2

theorem orderLoop_joint {cfg : Direct.Config} (hard : cfg.pk ≠ none → cfg.soft = false) {n : Nat} {ds : List SizedSample} {U l : List Nat}
    (hj : JointOrder (Requires cfg n) ds U l) : ∀ (gs : List Work) (K : List Nat) (po : List (Nat × Nat)), U.Nodup →
      List.Forall₂ (Holds U) ds gs → (∀ a b, (a, b) ∈ po ↔ a ∈ U ∧ Requires cfg n a b) →
      orderLoop cfg l.length gs K U po = .ok (K ++ l) ∧ NoTies cfg l.length gs U po := by
  induction hj with
  | nil ds => intro gs K po _ _ _; exact ⟨by simp [orderLoop], trivial⟩
  | @cons ds ds' U l m hm allowed best res rest ih =>
    intro gs K po hnd hh hpo
    obtain ⟨hcand, hmem⟩ := candidates_required hard hpo
    have hmc : m ∈ (Direct.searchCandidate cfg po U).1 := (hmem m).2 ⟨hm, allowed⟩
    have hbest : ∀ c ∈ (Direct.searchCandidate cfg po U).1, c ≠ m → ∃ v w,
        evidence gs U (Direct.searchCandidate cfg po U).1 (Direct.searchCandidate cfg po U).2 m = some v ∧
        evidence gs U (Direct.searchCandidate cfg po U).1 (Direct.searchCandidate cfg po U).2 c = some w ∧ v < w := by
      intro c hc hne
      have hv : (Direct.searchCandidate cfg po U).2 = [] := by rw [hcand]
      rw [hv]
      exact ⟨_, _, evidence_eq hnd hh hm, evidence_eq hnd hh ((hmem c).1 hc).1, best c ((hmem c).1 hc).1 hne ((hmem c).1 hc).2⟩
    have hh' : List.Forall₂ (Holds (U.filter (fun i => decide (i ≠ m)))) ds' (gs.map (Work.remove U m)) := by
      clear ih rest best hbest
      induction hh generalizing ds' with
      | nil => cases res; exact .nil
      | @cons d g ds gs h _ ih2 =>
        cases res with
        | @cons _ d' _ ds' hr hrs =>
          refine .cons ?_ (ih2 hrs)
          obtain ⟨hind, c, rfl, hc⟩ := h
          obtain ⟨N, x, x', rfl, rfl, hx⟩ := hr
          simp only at hind hc c
          refine ⟨Pairwise.indep_rest hnd hind hm fun i hi hne => (hx i hi hne).1, _, rfl, fun i hi => ?_⟩
          obtain ⟨hiU, hne⟩ := List.mem_filter.1 hi
          have hne : i ≠ m := by simpa using hne
          have hres := hx i hiU hne
          show (if i ∈ U ∧ i ≠ m then residual (c i) (c m) else c i) = some (x' i)
          rw [if_pos ⟨hiU, hne⟩, hc i hiU, hc m hm]
          exact (Pairwise.slopeResidual_iff (Pairwise.indep_ne hind hm) (Pairwise.indep_var hnd hind hm)).1 hres
    have hpo' : ∀ a b, (a, b) ∈ (if cfg.pk.isSome && !cfg.soft then po.filter (fun p => decide (p.1 ≠ m)) else po) ↔
        a ∈ U.filter (fun i => decide (i ≠ m)) ∧ Requires cfg n a b := by
      intro a b
      cases hpk : cfg.pk with
      | none =>
        have hno : ¬ Requires cfg n a b := fun ⟨pk, h, _⟩ => by rw [hpk] at h; cases h
        simp [hpo, hno]
      | some pk =>
        have := hard (by rw [hpk]; simp)
        simp only [this, Option.isSome_some, Bool.not_false, Bool.and_self, if_true, List.mem_filter, hpo, decide_eq_true_eq]
        tauto
    obtain ⟨i1, i2⟩ := ih _ (K ++ [m]) _ (hnd.filter _) hh' hpo'
    constructor
    · simp only [List.length_cons]
      unfold orderLoop
      rw [searchOrder_best hmc (candidates_nodup hnd) hbest]
      simpa using i1
    · exact Or.inr ⟨m, hmc, hbest, i2⟩

theorem joint_perm {pre : Nat → Nat → Prop} {ds : List SizedSample} {U l : List Nat} (h : JointOrder pre ds U l) : U.Nodup → l.Perm U := by
  induction h with
  | nil => intro _; exact .refl _
  | @cons ds ds' U l m hm _ _ res rest ih =>
    intro hnd
    have e : U.filter (fun i => decide (i ≠ m)) = U.erase m := by
      rw [hnd.erase_eq_filter]
      refine List.filter_congr fun i _ => ?_
      by_cases h : i = m <;> simp [h]
    exact ((ih (hnd.filter _)).cons m).trans (e ▸ (List.perm_cons_erase hm).symm)

theorem start_required {cfg : Direct.Config} (hard : cfg.pk ≠ none → cfg.soft = false) {n : Nat} {po : List (Nat × Nat)}
    (h : startPo cfg n = .ok po) : ∀ a b, (a, b) ∈ po ↔ a ∈ List.range n ∧ Requires cfg n a b := by
  intro a b
  unfold startPo at h
  cases hpk : cfg.pk with
  | none =>
    rw [hpk] at h
    simp only [Except.ok.injEq] at h
    subst h
    have hno : ¬ Requires cfg n a b := fun ⟨pk, h, _⟩ => by rw [hpk] at h; cases h
    simp [hno]
  | some pk =>
    rw [hpk] at h
    simp only [hard (by rw [hpk]; simp), Bool.false_eq_true, if_false] at h
    rw [Direct.extract_mem h]
    constructor
    · exact fun hm => ⟨List.mem_range.2 hm.1, pk, hpk, hm⟩
    · rintro ⟨_, pk', h', hm⟩
      rw [hpk] at h'
      cases h'
      exact hm

theorem holds_start {n : Nat} {ds : List DataSet} (hid : ∀ d ∈ ds, Identified n d.col) :
    List.Forall₂ (Holds (List.range n)) (ds.map DataSet.sample) (ds.map DataSet.copy) := by
  rw [List.forall₂_map_left_iff, List.forall₂_map_right_iff, List.forall₂_same]
  exact fun d hd => ⟨Pairwise.indep_range (hid d hd), _, rfl, fun i _ => rfl⟩

/-- The prior knowledge requests no path in both directions. -/
def NoContradiction (cfg : Direct.Config) (n : Nat) : Prop :=
  ∀ pk, cfg.pk = some pk → ∀ a b, a < n → b < n → ¬ (pk a b = 1 ∧ pk b a = 1)

theorem startPo_ok {cfg : Direct.Config} {n : Nat} (hc : NoContradiction cfg n) : ∃ po, startPo cfg n = .ok po := by
  unfold startPo
  cases hpk : cfg.pk with
  | none => exact ⟨_, rfl⟩
  | some pk =>
    simp only
    split
    · exact ⟨_, rfl⟩
    · cases h : Direct.extractPartialOrders n pk with
      | ok po => exact ⟨po, rfl⟩
      | error e =>
        obtain ⟨a, b, ha, hb, h1, h2⟩ := Direct.extract_error.1 ⟨e, h⟩
        exact absurd ⟨h1, h2⟩ (hc pk hpk a b ha hb)

/-- **C215.** For data sets without linear dependences whose joint order is unique, `MultiGroupDirectLiNGAM` returns this order:
the order in which each variable has the smallest mean penalty among the variables the prior knowledge allows at its place. -/
theorem C215_order {cfg : Direct.Config} (hard : cfg.pk ≠ none → cfg.soft = false) {n : Nat} (hc : NoContradiction cfg n)
    {ds : List DataSet} {l : List Nat} (hid : ∀ d ∈ ds, Identified n d.col)
    (hj : JointOrder (Requires cfg n) (ds.map DataSet.sample) (List.range n) l) : fitOrder cfg n ds = .ok l := by
  obtain ⟨po, hpo⟩ := startPo_ok hc
  rw [fitOrder_start, hpo]
  have := (orderLoop_joint hard hj _ [] po List.nodup_range (holds_start hid) (start_required hard hpo)).1
  rw [show l.length = n by simpa using (joint_perm hj List.nodup_range).length_eq] at this
  simpa using this

/-- **C215, columns.** For such data the columns of all data sets, and the prior knowledge with them, may be put in any order `π`:
`fit` fails in the same cases with the same error, finds the same order of the variables and the same coefficients. -/
theorem C215_columns_partial {cfg : Direct.Config} (hard : cfg.pk ≠ none → cfg.soft = false) (lin : ∀ N, Lin N) (lars : ∀ N, Lars N) {n : Nat}
    {π : Nat → Nat} (hπ : ((List.range n).map π).Perm (List.range n)) {ds : List DataSet} {l : List Nat}
    (hid : ∀ d ∈ ds, Identified n d.col) (hj : JointOrder (Requires cfg n) (ds.map DataSet.sample) (List.range n) l) :
    (∀ e, fit cfg lin lars n ds = .error e → fit (reorderCfg π cfg) lin lars n (ds.map (DataSet.reorder π)) = .error e) ∧
    ∀ o Bs, fit cfg lin lars n ds = .ok (o, Bs) → ∃ o' Bs', fit (reorderCfg π cfg) lin lars n (ds.map (DataSet.reorder π)) = .ok (o', Bs') ∧
      o'.map π = o ∧ List.Forall₂ (fun B B' => ∀ i j, i < n → j < n → B' i j = B (π i) (π j)) Bs Bs' := by
  refine fit_reordered cfg lin lars hπ fun po hpo => ?_
  have := (orderLoop_joint hard hj _ [] po List.nodup_range (holds_start hid) (start_required hard hpo)).2
  rwa [show l.length = n by simpa using (joint_perm hj List.nodup_range).length_eq] at this

/-- **C215, soft prior knowledge.** With prior knowledge applied softly the same holds for every run in which no two candidates
have equal evidence against them. -/
theorem C215_soft_partial (cfg : Direct.Config) (hs : cfg.soft = true) (lin : ∀ N, Lin N) (lars : ∀ N, Lars N) {n : Nat} {π : Nat → Nat}
    (hπ : ((List.range n).map π).Perm (List.range n)) {ds : List DataSet}
    (ht : NoTies cfg n (ds.map DataSet.copy) (List.range n) []) :
    (∀ e, fit cfg lin lars n ds = .error e → fit (reorderCfg π cfg) lin lars n (ds.map (DataSet.reorder π)) = .error e) ∧
    ∀ o Bs, fit cfg lin lars n ds = .ok (o, Bs) → ∃ o' Bs', fit (reorderCfg π cfg) lin lars n (ds.map (DataSet.reorder π)) = .ok (o', Bs') ∧
      o'.map π = o ∧ List.Forall₂ (fun B B' => ∀ i j, i < n → j < n → B' i j = B (π i) (π j)) Bs Bs' := by
  refine fit_reordered cfg lin lars hπ fun po hpo => ?_
  have : po = [] := by
    unfold startPo at hpo
    cases hpk : cfg.pk with
    | none => rw [hpk] at hpo; simpa using hpo.symm
    | some pk => rw [hpk] at hpo; simpa [hs] using hpo.symm
  subst this
  exact ht

/-! ### One data set -/

theorem fit_single (cfg : Direct.Config) (lin : ∀ N, Lin N) (lars : ∀ N, Lars N) (n : Nat) {N : Nat} (hN : N ≠ 0) (X : Nat → Fin N → ℝ) :
    fit cfg lin lars n [⟨N, X⟩] = (Pairwise.fitLasso cfg (lin N) (lars N) n X).map (fun p => (p.1, [p.2])) := by
  have := C204_copies cfg n (k := 1) one_ne_zero hN X
  simp only [List.replicate_one] at this
  unfold fit Pairwise.fitLasso
  rw [this]
  cases Pairwise.fitOrder cfg n X with
  | error e => rfl
  | ok o =>
    simp only [matrices, matrix]
    generalize (List.range' 1 (o.length - 1)).any _ = c
    cases c <;> rfl

/-- **C215, DirectLiNGAM.** With one data set this is `DirectLiNGAM`: for data without linear dependences and with a unique order
the columns, and the prior knowledge with them, may come in any order. -/
theorem C215_single_partial {cfg : Direct.Config} (hard : cfg.pk ≠ none → cfg.soft = false) {n N : Nat} (hN : N ≠ 0) (lin : Lin N) (lars : Lars N)
    {π : Nat → Nat} (hπ : ((List.range n).map π).Perm (List.range n)) {X : Nat → Fin N → ℝ} {l : List Nat} (hid : Identified n X)
    (hj : JointOrder (Requires cfg n) [⟨N, X⟩] (List.range n) l) :
    (∀ e, Pairwise.fitLasso cfg lin lars n X = .error e → Pairwise.fitLasso (reorderCfg π cfg) lin lars n (fun j => X (π j)) = .error e) ∧
    ∀ o B, Pairwise.fitLasso cfg lin lars n X = .ok (o, B) → ∃ o' B', Pairwise.fitLasso (reorderCfg π cfg) lin lars n (fun j => X (π j)) = .ok (o', B') ∧
      o'.map π = o ∧ ∀ i j, i < n → j < n → B' i j = B (π i) (π j) := by
  have hl : ∃ f : ∀ N, Lin N, f N = lin := ⟨fun M => if h : M = N then h ▸ lin else fun _ _ _ => 0, by simp⟩
  have hr : ∃ f : ∀ N, Lars N, f N = lars := ⟨fun M => if h : M = N then h ▸ lars else fun _ _ => [], by simp⟩
  obtain ⟨lin', rfl⟩ := hl
  obtain ⟨lars', rfl⟩ := hr
  obtain ⟨h1, h2⟩ := C215_columns_partial hard lin' lars' hπ (ds := [⟨N, X⟩]) (l := l) (by simpa using hid) (by simpa [DataSet.sample] using hj)
  rw [fit_single cfg lin' lars' n hN X, show [(⟨N, X⟩ : DataSet)].map (DataSet.reorder π) = [⟨N, fun j => X (π j)⟩] from rfl,
    fit_single (reorderCfg π cfg) lin' lars' n hN (fun j => X (π j))] at h1 h2
  constructor
  · intro e h
    have := h1 e (by rw [h]; rfl)
    cases hf : Pairwise.fitLasso (reorderCfg π cfg) (lin' N) (lars' N) n (fun j => X (π j)) with
    | error e' => rw [hf] at this; cases this; rfl
    | ok p => rw [hf] at this; cases this
  · intro o B h
    obtain ⟨o', Bs', hf', ho, hB⟩ := h2 o [B] (by rw [h]; rfl)
    cases hf : Pairwise.fitLasso (reorderCfg π cfg) (lin' N) (lars' N) n (fun j => X (π j)) with
    | error e' => rw [hf] at hf'; cases hf'
    | ok p =>
      rw [hf] at hf'
      cases hf'
      obtain ⟨o', B'⟩ := p
      cases hB with
      | cons hB _ => exact ⟨o', B', rfl, ho, hB⟩

/-! ### Ties -/

/-- **C215 is violated when there are ties.** Two columns that are mirror images of one another, in any number of copies of one
data set: the first column comes first whichever it is. -/
theorem C215_violated {cfg : Direct.Config} (hpk : cfg.pk = none) {k : Nat} (hk : k ≠ 0) :
    fitOrder cfg 2 (List.replicate k ⟨_, Pairwise.square⟩) = .ok [0, 1] ∧
      fitOrder cfg 2 ((List.replicate k ⟨_, Pairwise.square⟩).map (DataSet.reorder (1 - ·))) = .ok [0, 1] ∧
      ¬ ∃ o, fitOrder cfg 2 ((List.replicate k ⟨_, Pairwise.square⟩).map (DataSet.reorder (1 - ·))) = .ok o ∧
        fitOrder cfg 2 (List.replicate k ⟨_, Pairwise.square⟩) = .ok (o.map (1 - ·)) := by
  have := Pairwise.C142_columns_violated hpk
  rw [List.map_replicate, C204_copies cfg 2 hk (by norm_num), show (DataSet.reorder (1 - ·) ⟨_, Pairwise.square⟩) = ⟨_, fun j => Pairwise.square (1 - j)⟩ from rfl,
    C204_copies cfg 2 hk (by norm_num)]
  exact this

/-! ### Example -/

theorem joint_of_copies {k : Nat} (hk : k ≠ 0) {N : Nat} {x : Nat → Fin N → ℝ} {U l : List Nat} (h : PairwiseOrder (· < ·) x U l) :
    U.Nodup → Indep U x → JointOrder (fun _ _ => False) (List.replicate k ⟨N, x⟩) U l := by
  induction h with
  | nil => intro _ _; exact .nil _
  | @cons x x' U l m hm best res rest ih =>
    intro hnd hind
    have hN := Pairwise.indep_ne hind hm
    refine .cons (ds' := List.replicate k ⟨N, x'⟩) hm (fun _ _ h => h) (fun i hi hne _ => ?_) ?_
      (ih (hnd.filter _) (Pairwise.indep_rest hnd hind hm fun i hi hne => (res i hi hne).1))
    · unfold jointPenalty
      simp only [List.map_replicate, List.sum_replicate, nsmul_eq_mul]
      have hk' : (0 : ℝ) < k := by positivity
      have hN' : (0 : ℝ) < N := by positivity
      refine div_lt_div_of_pos_right ?_ (by positivity)
      have := best i hi hne
      gcongr
    · clear ih
      induction k with
      | zero => exact .nil
      | succ k ih2 =>
        rw [List.replicate_succ, List.replicate_succ]
        refine .cons ⟨N, x, x', rfl, rfl, res⟩ ?_
        by_cases h0 : k = 0
        · subst h0; exact .nil
        · exact ih2 h0

/-- Two data sets with the columns of `witness_order`: the second variable comes first, and with the columns exchanged the first. -/
example : fitOrder { } 2 (List.replicate 2 ⟨_, Pairwise.witnessX⟩) = .ok [1, 0] ∧
    ∀ (lin : ∀ N, Lin N) (lars : ∀ N, Lars N), ∃ Bs Bs', fit { } lin lars 2 (List.replicate 2 ⟨_, Pairwise.witnessX⟩) = .ok ([1, 0], Bs) ∧
      fit { } lin lars 2 (List.replicate 2 ⟨_, fun j => Pairwise.witnessX (1 - j)⟩) = .ok ([0, 1], Bs') ∧
      List.Forall₂ (fun B B' => ∀ i j, i < 2 → j < 2 → B' i j = B (1 - i) (1 - j)) Bs Bs' := by
  have hreq : Requires { } 2 = fun _ _ => False := by
    funext a b
    simp [Requires]
  have hj : JointOrder (Requires { } 2) ((List.replicate 2 (⟨_, Pairwise.witnessX⟩ : DataSet)).map DataSet.sample) (List.range 2) [1, 0] := by
    rw [hreq, List.map_replicate]
    exact joint_of_copies (by norm_num) Pairwise.witness_order List.nodup_range (Pairwise.indep_range Pairwise.witness_identified)
  have hid : ∀ d ∈ List.replicate 2 (⟨_, Pairwise.witnessX⟩ : DataSet), Identified 2 d.col := by
    simpa using Pairwise.witness_identified
  have ho := C215_order (cfg := { }) (fun h => absurd rfl h) (fun pk h => by cases h) hid hj
  refine ⟨ho, fun lin lars => ?_⟩
  obtain ⟨o, Bs, hf, -, -⟩ := C204_defined (cfg := { }) rfl lin lars 2 (ds := List.replicate 2 ⟨_, Pairwise.witnessX⟩) (by simp)
  obtain ⟨o', Bs', hf', he, hB⟩ := (C215_columns_partial (cfg := { }) (fun h => absurd rfl h) lin lars (π := (1 - ·)) (by decide) hid hj).2 o Bs hf
  have hoo : o = [1, 0] := by
    unfold fit at hf
    rw [ho] at hf
    simp only at hf
    split at hf
    · cases hf
    · cases hf; rfl
  subst hoo
  have ho' : o' = [0, 1] := by
    have hp : fitOrder (reorderCfg (1 - ·) { }) 2 ((List.replicate 2 (⟨_, Pairwise.witnessX⟩ : DataSet)).map (DataSet.reorder (1 - ·))) = .ok o' := by
      unfold fit at hf'
      split at hf'
      · cases hf'
      · rename_i o2 h2
        split at hf'
        · cases hf'
        · cases hf'; exact h2
    have hp := fitOrder_perm hp
    match o', hp.length_eq with
    | [a, b], _ =>
      have ha : a ∈ List.range 2 := hp.mem_iff.1 (by simp)
      have hb : b ∈ List.range 2 := hp.mem_iff.1 (by simp)
      simp at ha hb he
      have e1 : a = 0 := by omega
      have e2 : b = 1 := by omega
      simp [e1, e2]
  subst ho'
  exact ⟨Bs, Bs', hf, hf', hB⟩

/-- Prior knowledge that requests a path from the first variable to the second. -/
def firstCauses (soft : Bool) : Direct.Config := { pk := some (fun i j => if i = 1 ∧ j = 0 then 1 else 0), soft := soft }

/-- With this prior knowledge the first variable comes first, against the evidence of the data. -/
example : fitOrder (firstCauses false) 2 [⟨_, Pairwise.witnessX⟩] = .ok [0, 1] := by
  have hid : ∀ d ∈ [(⟨_, Pairwise.witnessX⟩ : DataSet)], Identified 2 d.col := by simpa using Pairwise.witness_identified
  refine C215_order (fun _ => rfl) (fun pk h a b ha hb => ?_) hid ?_
  · cases h
    rintro ⟨h1, h2⟩
    simp only [ite_eq_left_iff, zero_ne_one, imp_false, not_not] at h1 h2
    omega
  · have hr : List.range 2 = [0, 1] := rfl
    rw [hr]
    refine .cons (ds' := [⟨_, fun _ r => Pairwise.witnessX 1 r - √2 / 2 * Pairwise.witnessX 0 r⟩]) (by simp) (fun a ha h => ?_) (fun i hi hne h => ?_)
      (.cons ⟨_, _, _, rfl, rfl, fun i hi hne => ?_⟩ .nil) ?_
    · obtain ⟨pk, h, h1, _, h2⟩ := h
      cases h
      simp at h2
    · have : i = 1 := by simpa [hne] using hi
      subst this
      exact absurd ⟨_, rfl, by norm_num, by norm_num, Or.inl (by simp)⟩ (h 0 (by simp))
    · have : i = 1 := by simpa [hne] using hi
      subst this
      refine ⟨⟨_, fun r => rfl⟩, ?_⟩
      simp [sampleMean, Pairwise.witnessX, Pairwise.causeZ, Pairwise.effectW, Fin.sum_univ_four]
      have h2 : √2 ^ 2 = (2 : ℝ) := Real.sq_sqrt (by norm_num)
      linear_combination (-√2) * h2
    · have f1 : ([0, 1].filter (fun j => decide (j ≠ 0))) = [1] := by decide
      rw [f1]
      refine .cons (ds' := [⟨4, fun _ _ => 0⟩]) (by simp) (fun a ha h => ?_) (fun i hi hne => ?_) (.cons ⟨_, _, _, rfl, rfl, fun i hi hne => ?_⟩ .nil) ?_
      · obtain ⟨pk, h, h1, _, h2⟩ := h
        cases h
        have : a = 1 := by simpa using ha
        subst this
        simp at h2
      · simp at hi; exact absurd hi hne
      · simp at hi; exact absurd hi hne
      · have : ([1].filter (fun j => decide (j ≠ 1))) = [] := by decide
        rw [this]
        exact .nil _

/-- Applied softly, the same prior knowledge leaves one candidate at every step, so there are no ties. -/
example (ds : List DataSet) : NoTies (firstCauses true) 2 (ds.map DataSet.copy) (List.range 2) [] := by
  have h1 : Direct.searchCandidate (firstCauses true) [] (List.range 2) = ([0], []) := by decide
  have h2 : Direct.searchCandidate (firstCauses true) [] [1] = ([1], []) := by decide
  refine Or.inr ⟨0, by rw [h1]; simp, fun c hc hne => ?_, Or.inr ⟨1, ?_, fun c hc hne => ?_, trivial⟩⟩
  · rw [h1] at hc; simp at hc; exact absurd hc hne
  · have e : (List.range 2).filter (fun i => decide (i ≠ 0)) = [1] := by decide
    rw [e]
    exact (show (1 : Nat) ∈ (Direct.searchCandidate (firstCauses true) [] [1]).1 by rw [h2]; simp)
  · have e : (List.range 2).filter (fun i => decide (i ≠ 0)) = [1] := by decide
    rw [e] at hc
    have hc : c ∈ (Direct.searchCandidate (firstCauses true) [] [1]).1 := hc
    rw [h2] at hc; simp at hc; exact absurd hc hne

end Verif.GroupData
