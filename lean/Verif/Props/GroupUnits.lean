import Verif.Model.GroupData
import Verif.Props.AdaptiveLasso
import Verif.Spec.Units

/-!
# MultiGroupDirectLiNGAM on the data (C204)

Every data set may come with its own units, origins and order of rows; the order of the data sets does not matter; copies of one
data set give the order of `DirectLiNGAM`.
-/
set_option linter.unusedSectionVars false
set_option autoImplicit false
namespace Verif.GroupData
open Verif.Pairwise (Col Lin Lars FitErr statistic sumNan pick predict pairDiff residual removeEffect Same Rows getD_of_lt)

/-! ### Data sets that give the same evidence -/

/-- The working data `g'` has `w` times as many rows as `g` and its columns in `U` give the same comparisons, now and after
regressions. -/
def Linked (w : Nat) (U : List Nat) (g g' : Work) : Prop :=
  g'.rows = w * g.rows ∧ ∃ Rel : Col g.rows → Col g'.rows → Prop,
    (∀ (X : Nat → Col g.rows) (X' : Nat → Col g'.rows) i j Uc Vj, Rel (X i) (X' i) → Rel (X j) (X' j) →
      pairDiff X' Uc Vj i j = pairDiff X Uc Vj i j) ∧
    (∀ x y x' y', Rel x x' → Rel y y' → Rel (residual x y) (residual x' y')) ∧ ∀ i ∈ U, Rel (g.col i) (g'.col i)

theorem Linked.statistic {w : Nat} {U Uc Vj : List Nat} {g g' : Work} (h : Linked w U g g') {i : Nat} (hi : i ∈ U) :
    statistic g'.col U Uc Vj i = statistic g.col U Uc Vj i := by
  obtain ⟨_, Rel, hd, _, hU⟩ := h
  exact Pairwise.statistic_congr fun j hj => hd _ _ i j Uc Vj (hU i hi) (hU j hj)

theorem Linked.remove {w : Nat} {U : List Nat} {g g' : Work} (h : Linked w U g g') {m : Nat} (hm : m ∈ U) :
    Linked w (U.filter (fun i => decide (i ≠ m))) (g.remove U m) (g'.remove U m) := by
  obtain ⟨h1, Rel, hd, hr, hU⟩ := h
  refine ⟨h1, Rel, hd, hr, fun i hi => ?_⟩
  obtain ⟨hi, hne⟩ := List.mem_filter.1 hi
  have hne : i ≠ m := by simpa using hne
  show Rel (if i ∈ U ∧ i ≠ m then residual (g.col i) (g.col m) else g.col i)
    (if i ∈ U ∧ i ≠ m then residual (g'.col i) (g'.col m) else g'.col i)
  rw [if_pos ⟨hi, hne⟩, if_pos ⟨hi, hne⟩]
  exact hr _ _ _ _ (hU i hi) (hU m hm)

theorem totalSize_linked {w : Nat} {U : List Nat} {gs gs' : List Work} (h : List.Forall₂ (Linked w U) gs gs') :
    totalSize gs' = w * totalSize gs := by
  induction h with
  | nil => rfl
  | cons h _ ih =>
    unfold totalSize at ih ⊢
    simp only [List.map_cons, List.sum_cons, ih, h.1, Nat.mul_add]

theorem evidence_linked {w : Nat} (hw : w ≠ 0) {U Uc Vj : List Nat} {gs gs' : List Work} (h : List.Forall₂ (Linked w U) gs gs') {i : Nat}
    (hi : i ∈ U) : evidence gs' U Uc Vj i = evidence gs U Uc Vj i := by
  unfold evidence
  rw [totalSize_linked h]
  generalize totalSize gs = T
  congr 1
  induction h with
  | nil => rfl
  | @cons g g' gs gs' h _ ih =>
    simp only [List.map_cons]
    rw [ih, h.statistic hi]
    congr 2
    funext m
    have hw' : (w : ℝ) ≠ 0 := by exact_mod_cast hw
    rw [h.1]
    push_cast
    rw [mul_div_mul_left _ _ hw']

theorem searchOrder_congr {cfg : Direct.Config} {po : List (Nat × Nat)} {U : List Nat} {gs gs' : List Work}
    (h : ∀ Uc Vj, ∀ i ∈ U, evidence gs' U Uc Vj i = evidence gs U Uc Vj i) :
    searchOrder cfg po gs' U = searchOrder cfg po gs U := by
  unfold searchOrder
  have hs := Pairwise.candidates_sub cfg po U
  revert hs
  generalize Direct.searchCandidate cfg po U = q
  obtain ⟨Uc, Vj⟩ := q
  intro hs
  simp only
  split
  · rfl
  · exact Pairwise.pick_congr fun i hi => by rw [h Uc Vj i (hs i hi)]

theorem searchOrder_mem {cfg : Direct.Config} {po : List (Nat × Nat)} {gs : List Work} {U : List Nat} {m : Nat}
    (h : searchOrder cfg po gs U = some m) : m ∈ U := by
  unfold searchOrder at h
  have hs := Pairwise.candidates_sub cfg po U
  revert hs h
  generalize Direct.searchCandidate cfg po U = q
  obtain ⟨Uc, Vj⟩ := q
  intro h hs
  match Uc, h, hs with
  | [], h, _ => simp [pick] at h
  | [c], h, hs =>
    simp only [Option.some.injEq] at h
    exact h ▸ hs c (by simp)
  | b :: b' :: cs, h, hs =>
    simp only [pick, Option.some.injEq] at h
    rw [← h]
    exact hs _ (Pairwise.pickGo_mem _ _ _)

theorem orderLoop_linked {cfg : Direct.Config} {w : Nat} (hw : w ≠ 0) : ∀ (r : Nat) (gs gs' : List Work) (K U : List Nat)
    (po : List (Nat × Nat)), List.Forall₂ (Linked w U) gs gs' → orderLoop cfg r gs' K U po = orderLoop cfg r gs K U po
  | 0, _, _, _, _, _, _ => rfl
  | r + 1, gs, gs', K, U, po, h => by
    unfold orderLoop
    rw [searchOrder_congr fun Uc Vj i hi => evidence_linked hw h hi]
    cases hm : searchOrder cfg po gs U with
    | none => rfl
    | some m =>
      have hmU := searchOrder_mem hm
      refine orderLoop_linked hw r _ _ _ _ _ ?_
      rw [List.forall₂_map_left_iff, List.forall₂_map_right_iff]
      exact h.imp fun g g' h => h.remove hmU

theorem fitOrder_linked {cfg : Direct.Config} {n w : Nat} (hw : w ≠ 0) {ds ds' : List DataSet}
    (h : List.Forall₂ (fun d d' => Linked w (List.range n) d.copy d'.copy) ds ds') : fitOrder cfg n ds' = fitOrder cfg n ds := by
  have key : ∀ po, orderLoop cfg n (ds'.map DataSet.copy) [] (List.range n) po =
      orderLoop cfg n (ds.map DataSet.copy) [] (List.range n) po := fun po => by
    refine orderLoop_linked hw _ _ _ _ _ _ ?_
    rw [List.forall₂_map_left_iff, List.forall₂_map_right_iff]
    exact h
  unfold fitOrder
  simp only [key]

/-! ### Units, origins and rows -/

/-- The data set in other units and with other origins. -/
def DataSet.inUnits (c a : Nat → ℝ) (d : DataSet) : DataSet := ⟨d.rows, fun j r => c j * d.col j r + a j⟩

/-- `ds'` are the data sets `ds`, each in its own units (factors that satisfy `P`) and with its own origins. -/
def OwnUnits (P : ℝ → Prop) (n : Nat) (ds ds' : List DataSet) : Prop :=
  List.Forall₂ (fun d d' => ∃ c a : Nat → ℝ, (∀ j, j < n → P (c j)) ∧ d' = d.inUnits c a) ds ds'

theorem linked_units {n : Nat} (d : DataSet) {c a : Nat → ℝ} (hc : ∀ j, j < n → c j ≠ 0) :
    Linked 1 (List.range n) d.copy (d.inUnits c a).copy := by
  obtain ⟨N, X⟩ := d
  refine ⟨(one_mul N).symm, ?_⟩
  by_cases hN : N = 0
  · subst hN
    refine ⟨fun x x' => x' = x, ?_, ?_, ?_⟩
    · intro X X' i j Uc Vj hi hj
      show pairDiff (N := 0) X' Uc Vj i j = pairDiff (N := 0) X Uc Vj i j
      unfold pairDiff
      rw [show X' i = X i from hi, show X' j = X j from hj]
    · rintro x y x' y' rfl rfl
      rfl
    · intro i _
      show some _ = some _
      congr 1
      funext r
      exact r.elim0
  · exact ⟨Same, fun X X' i j Uc Vj hi hj => Pairwise.pairDiff_same hN hi hj, fun _ _ _ _ h h' => Pairwise.residual_same hN h h',
      fun i hi => ⟨c i, a i, hc i (List.mem_range.1 hi), rfl⟩⟩

/-- **C204.** The common order does not depend on units, origins and signs, which may be different in every data set. -/
theorem C204_order (cfg : Direct.Config) {n : Nat} {ds ds' : List DataSet} (h : OwnUnits (· ≠ 0) n ds ds') :
    fitOrder cfg n ds' = fitOrder cfg n ds :=
  fitOrder_linked one_ne_zero (h.imp fun d d' ⟨c, a, hc, e⟩ => by subst e; exact linked_units d hc)

/-- **C204.** The order of the rows in the data sets does not matter either, nor does repeating every row of all data sets `k`
times. -/
theorem C204_rows (cfg : Direct.Config) {n k : Nat} (hk : k ≠ 0) {ds ds' : List DataSet}
    (h : List.Forall₂ (fun d d' => ∃ f : Fin d'.rows → Fin d.rows, (∀ r, (Finset.univ.filter (fun q => f q = r)).card = k) ∧
      ∀ j, j < n → d'.col j = fun q => d.col j (f q)) ds ds') :
    fitOrder cfg n ds' = fitOrder cfg n ds := by
  refine fitOrder_linked hk (h.imp fun d d' ⟨f, hf, e⟩ => ?_)
  have hA : d'.rows = k * d.rows := by
    have := Finset.card_eq_sum_card_fiberwise (s := (Finset.univ : Finset (Fin d'.rows))) (t := (Finset.univ : Finset (Fin d.rows)))
      (f := f) (by simp)
    simp only [hf, Finset.sum_const, Finset.card_univ, Fintype.card_fin, smul_eq_mul] at this
    rw [this, Nat.mul_comm]
  refine ⟨hA, Rows f, fun X X' i j Uc Vj hi hj => Pairwise.pairDiff_rows hk hf hi hj Iff.rfl Iff.rfl,
    fun _ _ _ _ h h' => Pairwise.residual_rows hk hf h h', fun i hi => ?_⟩
  show some _ = Option.map _ (some _)
  rw [e i (List.mem_range.1 hi)]
  rfl

/-! ### Order of the data sets -/

theorem totalSize_perm {gs gs' : List Work} (h : gs.Perm gs') : totalSize gs = totalSize gs' := (h.map _).sum_eq

theorem orderLoop_sets {cfg : Direct.Config} : ∀ (r : Nat) (gs gs' : List Work) (K U : List Nat) (po : List (Nat × Nat)),
    gs.Perm gs' → orderLoop cfg r gs' K U po = orderLoop cfg r gs K U po
  | 0, _, _, _, _, _, _ => rfl
  | r + 1, gs, gs', K, U, po, h => by
    unfold orderLoop
    rw [searchOrder_congr (gs := gs) (gs' := gs') fun Uc Vj i _ => by
      unfold evidence
      rw [totalSize_perm h]
      exact Pairwise.sumNan_perm (h.symm.map _)]
    cases searchOrder cfg po gs U with
    | none => rfl
    | some m => exact orderLoop_sets r _ _ _ _ _ (h.map _)

/-- **C204.** The order in which the data sets are given does not matter. -/
theorem C204_sets (cfg : Direct.Config) (n : Nat) {ds ds' : List DataSet} (h : ds.Perm ds') :
    fitOrder cfg n ds' = fitOrder cfg n ds := by
  have key : ∀ po, orderLoop cfg n (ds'.map DataSet.copy) [] (List.range n) po =
      orderLoop cfg n (ds.map DataSet.copy) [] (List.range n) po := fun po => orderLoop_sets n _ _ _ _ _ (h.map _)
  unfold fitOrder
  simp only [key]

/-! ### Copies of one data set -/

theorem sumNan_replicate (v : Option ℝ) : ∀ k : Nat, k ≠ 0 → sumNan (List.replicate k v) = v.map (fun x => (k : ℝ) * x)
  | 0, h => absurd rfl h
  | 1, _ => by cases v <;> simp [sumNan]
  | k + 2, _ => by
    have ih := sumNan_replicate v (k + 1) (by omega)
    rw [List.replicate_succ]
    cases v with
    | none => rfl
    | some x =>
      simp only [sumNan, ih, Option.map_some, Option.some.injEq]
      push_cast
      ring

theorem evidence_copies {k : Nat} (hk : k ≠ 0) (g : Work) (hN : g.rows ≠ 0) (U Uc Vj : List Nat) (i : Nat) :
    evidence (List.replicate k g) U Uc Vj i = statistic g.col U Uc Vj i := by
  unfold evidence
  have ht : totalSize (List.replicate k g) = k * g.rows := by
    unfold totalSize
    rw [List.map_replicate, List.sum_replicate, smul_eq_mul]
  rw [List.map_replicate, sumNan_replicate _ k hk, ht]
  have hk' : (k : ℝ) ≠ 0 := by exact_mod_cast hk
  have hN' : (g.rows : ℝ) ≠ 0 := by exact_mod_cast hN
  cases statistic g.col U Uc Vj i with
  | none => rfl
  | some v =>
    simp only [Option.map_some, Option.some.injEq]
    push_cast
    field_simp

theorem orderLoop_copies {cfg : Direct.Config} {k : Nat} (hk : k ≠ 0) : ∀ (r : Nat) (g : Work), g.rows ≠ 0 →
    ∀ (K U : List Nat) (po : List (Nat × Nat)), orderLoop cfg r (List.replicate k g) K U po = Pairwise.orderLoop cfg r g.col K U po
  | 0, _, _, _, _, _ => rfl
  | r + 1, g, hN, K, U, po => by
    unfold orderLoop Pairwise.orderLoop
    have hs : searchOrder cfg po (List.replicate k g) U = Pairwise.searchOrder cfg po g.col U := by
      unfold searchOrder Pairwise.searchOrder
      generalize Direct.searchCandidate cfg po U = q
      obtain ⟨Uc, Vj⟩ := q
      simp only [evidence_copies hk g hN]
      rcases Uc with _ | ⟨c, _ | ⟨c', cs⟩⟩ <;> rfl
    rw [hs]
    cases Pairwise.searchOrder cfg po g.col U with
    | none => rfl
    | some m =>
      simp only [List.map_replicate]
      exact orderLoop_copies hk r (g.remove U m) hN _ _ _

/-- **C204.** For copies of one data set the common order is the order `DirectLiNGAM` finds for it. -/
theorem C204_copies (cfg : Direct.Config) (n : Nat) {k N : Nat} (hk : k ≠ 0) (hN : N ≠ 0) (X : Nat → Fin N → ℝ) :
    fitOrder cfg n (List.replicate k ⟨N, X⟩) = Pairwise.fitOrder cfg n X := by
  have key : ∀ po, orderLoop cfg n ((List.replicate k (⟨N, X⟩ : DataSet)).map DataSet.copy) [] (List.range n) po =
      Pairwise.orderLoop cfg n (fun j => some (X j)) [] (List.range n) po := fun po => by
    rw [List.map_replicate]
    exact orderLoop_copies hk n _ hN _ _ _
  unfold fitOrder Pairwise.fitOrder
  cases cfg.pk with
  | none => exact key _
  | some pk =>
    simp only [key]
    split
    · rfl
    · cases Direct.extractPartialOrders n pk <;> rfl

/-! ### The matrices -/

theorem orderLoop_perm {cfg : Direct.Config} : ∀ (r : Nat) (gs : List Work) (K U : List Nat) (po : List (Nat × Nat)) (o : List Nat),
    U.Nodup → U.length = r → orderLoop cfg r gs K U po = .ok o → o.Perm (K ++ U)
  | 0, _, K, U, _, o, _, hl, h => by
    have : U = [] := List.length_eq_zero_iff.1 hl
    subst this
    simp only [orderLoop, Except.ok.injEq] at h
    subst h
    simp
  | r + 1, gs, K, U, po, o, hnd, hl, h => by
    unfold orderLoop at h
    split at h
    · cases h
    · rename_i m hm
      have hmU := searchOrder_mem hm
      have e : U.filter (fun i => decide (i ≠ m)) = U.erase m := by
        rw [hnd.erase_eq_filter]
        exact List.filter_congr fun i _ => by simp [bne, BEq.beq]
      have := orderLoop_perm r _ _ _ _ o (hnd.filter _) (by rw [e, List.length_erase_of_mem hmU, hl]; rfl) h
      rw [e, List.append_assoc] at this
      exact this.trans (List.Perm.append_left K (List.perm_cons_erase hmU).symm)

theorem fitOrder_perm {cfg : Direct.Config} {n : Nat} {ds : List DataSet} {o : List Nat} (h : fitOrder cfg n ds = .ok o) :
    o.Perm (List.range n) := by
  have key : ∀ po, orderLoop cfg n (ds.map DataSet.copy) [] (List.range n) po = .ok o → o.Perm (List.range n) := fun po h => by
    simpa using orderLoop_perm n _ _ _ _ o List.nodup_range List.length_range h
  unfold fitOrder at h
  split at h
  · exact key _ h
  · split at h
    · exact key _ h
    · split at h
      · cases h
      · exact key _ h

theorem matrix_units (cfg : Direct.Config) {lin : ∀ N, Lin N} (hlin : ∀ N, RightRegression (lin N)) (lars : ∀ N, Lars N) {n : Nat}
    {order : List Nat} (ho : order.Perm (List.range n)) {d : DataSet} (hid : Identified n d.col) {c a : Nat → ℝ}
    (hc : ∀ j, j < n → 0 < c j) :
    (∀ e, matrix cfg lin lars order d = .error e → matrix cfg lin lars order (d.inUnits c a) = .error e) ∧
    ∀ B, matrix cfg lin lars order d = .ok B → ∃ B', matrix cfg lin lars order (d.inUnits c a) = .ok B' ∧
      ∀ i j, B' i j = B i j * (c i / c j) := by
  obtain ⟨N, X⟩ := d
  rw [show (DataSet.mk N X).inUnits c a = ⟨N, fun j r => c j * X j r + a j⟩ from rfl]
  unfold matrix
  simp only
  split
  · exact ⟨fun e h => h, fun B h => by cases h⟩
  · refine ⟨fun e h => (by cases h), fun B h => ?_⟩
    simp only [Except.ok.injEq] at h
    subst h
    have hlt : ∀ q ∈ order, q < n := fun q hq => List.mem_range.1 (ho.mem_iff.1 hq)
    refine ⟨_, rfl, fun i j => Pairwise.estimateAdj_scale (k := fun i j => c i / c j) (ho.nodup_iff.2 List.nodup_range) ?_ i j⟩
    intro ps t p hnd hsub ht htp hp
    have hpos := List.idxOf_lt_length_of_mem hp
    have := Pairwise.C197_units (hlin N) (lars N) (t := t)
      (Pairwise.independent_of_identified hid hnd fun q hq => hlt q (hsub q hq)) (c := c) (a := a)
      (fun j hj => hc j (hj.elim (fun h => hlt j (hsub j h)) fun h => h ▸ hlt t ht)) (ps.idxOf p)
    rw [getD_of_lt hpos, List.getElem_idxOf] at this
    exact this

/-- The matrices `Bs'` are the matrices `Bs` of the data sets `ds` in the units of `ds'`. -/
def OwnConversion (n : Nat) : List DataSet → List DataSet → List (Nat → Nat → ℝ) → List (Nat → Nat → ℝ) → Prop
  | d :: ds, d' :: ds', B :: Bs, B' :: Bs' =>
    (∃ c a : Nat → ℝ, (∀ j, j < n → 0 < c j) ∧ d' = d.inUnits c a ∧ ConvertedMatrix n c B B') ∧ OwnConversion n ds ds' Bs Bs'
  | [], [], [], [] => True
  | _, _, _, _ => False

theorem matrices_units (cfg : Direct.Config) {lin : ∀ N, Lin N} (hlin : ∀ N, RightRegression (lin N)) (lars : ∀ N, Lars N) {n : Nat}
    {order : List Nat} (ho : order.Perm (List.range n)) {ds ds' : List DataSet} (hid : ∀ d ∈ ds, Identified n d.col)
    (h : OwnUnits (0 < ·) n ds ds') :
    (∀ e, matrices cfg lin lars order ds = .error e → matrices cfg lin lars order ds' = .error e) ∧
    ∀ Bs, matrices cfg lin lars order ds = .ok Bs → ∃ Bs', matrices cfg lin lars order ds' = .ok Bs' ∧
      OwnConversion n ds ds' Bs Bs' := by
  induction h with
  | nil =>
    refine ⟨fun e h => h, fun Bs h => ?_⟩
    simp only [matrices, Except.ok.injEq] at h
    subst h
    exact ⟨[], rfl, trivial⟩
  | @cons d d' ds ds' hd _ ih =>
    obtain ⟨c, a, hc, rfl⟩ := hd
    obtain ⟨i1, i2⟩ := ih fun d hd => hid d (by simp [hd])
    obtain ⟨m1, m2⟩ := matrix_units cfg hlin lars ho (hid d (by simp)) (a := a) hc
    unfold matrices
    cases hm : matrix cfg lin lars order d with
    | error e =>
      rw [m1 e hm]
      exact ⟨fun e h => h, fun Bs h => by cases h⟩
    | ok B =>
      obtain ⟨B', hB, hcv⟩ := m2 B hm
      rw [hB]
      simp only
      cases hms : matrices cfg lin lars order ds with
      | error e =>
        rw [i1 e hms]
        exact ⟨fun e h => h, fun Bs h => by cases h⟩
      | ok Bs =>
        obtain ⟨Bs', hBs, hcvs⟩ := i2 Bs hms
        rw [hBs]
        refine ⟨fun e h => (by cases h), fun Bs0 h => ?_⟩
        simp only [Except.ok.injEq] at h
        subst h
        exact ⟨_, rfl, ⟨c, a, hc, rfl, fun i _ j _ => hcv i j⟩, hcvs⟩

/-- **C204.** `fit` with every data set in its own units and with its own origins: the same exception, or the same order and every
matrix converted with the units of its data set. -/
theorem C204_fit (cfg : Direct.Config) {lin : ∀ N, Lin N} (hlin : ∀ N, RightRegression (lin N)) (lars : ∀ N, Lars N) {n : Nat}
    {ds ds' : List DataSet} (hid : ∀ d ∈ ds, Identified n d.col) (h : OwnUnits (0 < ·) n ds ds') :
    (∀ e, fit cfg lin lars n ds = .error e → fit cfg lin lars n ds' = .error e) ∧
    ∀ o Bs, fit cfg lin lars n ds = .ok (o, Bs) → ∃ Bs', fit cfg lin lars n ds' = .ok (o, Bs') ∧ OwnConversion n ds ds' Bs Bs' := by
  have ho := C204_order cfg (n := n) (ds := ds) (ds' := ds') (h.imp fun d d' ⟨c, a, hc, e⟩ => ⟨c, a, fun j hj => (hc j hj).ne', e⟩)
  unfold fit
  rw [ho]
  cases hf : fitOrder cfg n ds with
  | error e => exact ⟨fun e h => h, fun o Bs h => by cases h⟩
  | ok order =>
    obtain ⟨m1, m2⟩ := matrices_units cfg hlin lars (fitOrder_perm hf) hid h
    simp only
    cases hm : matrices cfg lin lars order ds with
    | error e =>
      rw [m1 e hm]
      exact ⟨fun e h => h, fun o Bs h => by cases h⟩
    | ok Bs =>
      obtain ⟨Bs', hB, hcv⟩ := m2 Bs hm
      rw [hB]
      refine ⟨fun e h => (by cases h), fun o Bs0 h => ?_⟩
      simp only [Except.ok.injEq, Prod.mk.injEq] at h
      obtain ⟨rfl, rfl⟩ := h
      exact ⟨Bs', rfl, hcv⟩

theorem matrices_cons {cfg : Direct.Config} {lin : ∀ N, Lin N} {lars : ∀ N, Lars N} {order : List Nat} {d : DataSet} {ds : List DataSet}
    {Bs : List (Nat → Nat → ℝ)} : matrices cfg lin lars order (d :: ds) = .ok Bs ↔
      ∃ B Bs', matrix cfg lin lars order d = .ok B ∧ matrices cfg lin lars order ds = .ok Bs' ∧ Bs = B :: Bs' := by
  rw [matrices]
  cases matrix cfg lin lars order d with
  | error e => simp
  | ok B =>
    cases matrices cfg lin lars order ds with
    | error e => simp
    | ok Bs' => simp [eq_comm]

theorem matrices_sets {cfg : Direct.Config} {lin : ∀ N, Lin N} {lars : ∀ N, Lars N} {order : List Nat} {ds ds' : List DataSet}
    (h : ds.Perm ds') : ∀ Bs, matrices cfg lin lars order ds = .ok Bs →
      ∃ Bs', matrices cfg lin lars order ds' = .ok Bs' ∧ (ds'.zip Bs').Perm (ds.zip Bs) := by
  induction h with
  | nil => exact fun Bs h => ⟨Bs, h, .refl _⟩
  | cons d _ ih =>
    intro Bs h
    obtain ⟨B, Bs1, h1, h2, rfl⟩ := matrices_cons.1 h
    obtain ⟨Bs', h3, hp⟩ := ih Bs1 h2
    exact ⟨_, matrices_cons.2 ⟨B, Bs', h1, h3, rfl⟩, by simpa using hp⟩
  | swap d d' l =>
    intro Bs h
    obtain ⟨B, Bs1, h1, h2, rfl⟩ := matrices_cons.1 h
    obtain ⟨B', Bs2, h3, h4, rfl⟩ := matrices_cons.1 h2
    exact ⟨_, matrices_cons.2 ⟨B', _, h3, matrices_cons.2 ⟨B, Bs2, h1, h4, rfl⟩, rfl⟩, by simpa using List.Perm.swap _ _ _⟩
  | trans _ _ ih1 ih2 =>
    intro Bs h
    obtain ⟨Bs1, h1, p1⟩ := ih1 Bs h
    obtain ⟨Bs2, h2, p2⟩ := ih2 Bs1 h1
    exact ⟨Bs2, h2, p2.trans p1⟩

/-- **C204.** With the data sets in another order `fit` returns the same order, and the same matrix for each data set. -/
theorem C204_sets_fit (cfg : Direct.Config) (lin : ∀ N, Lin N) (lars : ∀ N, Lars N) (n : Nat) {ds ds' : List DataSet} (h : ds.Perm ds')
    {o : List Nat} {Bs : List (Nat → Nat → ℝ)} (hf : fit cfg lin lars n ds = .ok (o, Bs)) :
    ∃ Bs', fit cfg lin lars n ds' = .ok (o, Bs') ∧ (ds'.zip Bs').Perm (ds.zip Bs) := by
  unfold fit at hf ⊢
  rw [C204_sets cfg n h]
  cases ho : fitOrder cfg n ds with
  | error e => rw [ho] at hf; cases hf
  | ok order =>
    rw [ho] at hf
    simp only at hf ⊢
    cases hm : matrices cfg lin lars order ds with
    | error e => rw [hm] at hf; cases hf
    | ok Bs1 =>
      rw [hm] at hf
      simp only [Except.ok.injEq, Prod.mk.injEq] at hf
      obtain ⟨rfl, rfl⟩ := hf
      obtain ⟨Bs', h1, hp⟩ := matrices_sets h Bs1 hm
      rw [h1]
      exact ⟨Bs', rfl, hp⟩

/-! ### When a result is returned -/

theorem fitOrder_found {cfg : Direct.Config} (hpk : cfg.pk = none) (n : Nat) (ds : List DataSet) : ∃ o, fitOrder cfg n ds = .ok o := by
  unfold fitOrder
  rw [hpk]
  suffices h : ∀ (r : Nat) (gs : List Work) (K U : List Nat) (po : List (Nat × Nat)), U.length = r → U.Nodup →
      ∃ o, orderLoop cfg r gs K U po = .ok o from h n _ _ _ _ (by simp) List.nodup_range
  intro r
  induction r with
  | zero => intro gs K U po _ _; exact ⟨K, rfl⟩
  | succ r ih =>
    intro gs K U po hl hnd
    have hs : ∃ m, searchOrder cfg po gs U = some m := by
      unfold searchOrder Direct.searchCandidate
      rw [hpk]
      simp only
      match U, hl with
      | [c], _ => exact ⟨c, rfl⟩
      | c :: c' :: cs, _ => exact ⟨_, rfl⟩
    obtain ⟨m, hm⟩ := hs
    have hmem := searchOrder_mem hm
    unfold orderLoop
    rw [hm]
    refine ih _ _ _ _ ?_ (hnd.filter _)
    have e : U.filter (fun i => decide (i ≠ m)) = U.erase m := by
      rw [hnd.erase_eq_filter]
      refine List.filter_congr fun i _ => ?_
      by_cases h : i = m <;> simp [h]
    rw [e, List.length_erase_of_mem hmem, hl]
    rfl

theorem matrices_found (cfg : Direct.Config) (lin : ∀ N, Lin N) (lars : ∀ N, Lars N) {n : Nat} {order : List Nat}
    (ho : order.length = n) : ∀ ds : List DataSet, (∀ d ∈ ds, n < d.rows) →
      ∃ Bs, matrices cfg lin lars order ds = .ok Bs ∧ Bs.length = ds.length
  | [], _ => ⟨[], rfl, rfl⟩
  | d :: ds, h => by
    obtain ⟨Bs, hBs, hl⟩ := matrices_found cfg lin lars ho ds fun d hd => h d (by simp [hd])
    have hd := h d (by simp)
    unfold matrices matrix
    rw [if_neg, hBs]
    · exact ⟨_, rfl, by simp [hl]⟩
    · simp only [List.any_eq_true, List.mem_range'_1, decide_eq_true_eq, not_exists, not_and]
      intro i hi _
      have : (Direct.predictors cfg.pk (order.take i) (order.getD i 0)).length ≤ i := by
        have : (Direct.predictors cfg.pk (order.take i) (order.getD i 0)).length ≤ (order.take i).length := by
          unfold Direct.predictors
          split
          · exact le_rfl
          · exact List.length_filter_le _ _
        exact this.trans (by rw [List.length_take]; exact min_le_left _ _)
      omega

/-- **C204.** Without prior knowledge and with more rows than variables in every data set, `fit` returns an order of all variables
and one matrix per data set. -/
theorem C204_defined {cfg : Direct.Config} (hpk : cfg.pk = none) (lin : ∀ N, Lin N) (lars : ∀ N, Lars N) (n : Nat) {ds : List DataSet}
    (h : ∀ d ∈ ds, n < d.rows) :
    ∃ o Bs, fit cfg lin lars n ds = .ok (o, Bs) ∧ o.Perm (List.range n) ∧ Bs.length = ds.length := by
  obtain ⟨o, ho⟩ := fitOrder_found hpk n ds
  have hp := fitOrder_perm ho
  obtain ⟨Bs, hB, hl⟩ := matrices_found cfg lin lars (hp.length_eq.trans List.length_range) ds h
  refine ⟨o, Bs, ?_, hp, hl⟩
  unfold fit
  rw [ho]
  simp only
  rw [hB]

/-- Two data sets with the same three variables, the second one in units of its own. -/
noncomputable def twoSites : List DataSet := [⟨4, Pairwise.lassoData⟩, ⟨4, fun j r => (j + 2 : ℝ) * Pairwise.lassoData j r + 7⟩]

theorem twoSites_own : OwnUnits (0 < ·) 3 (List.replicate 2 ⟨4, Pairwise.lassoData⟩) twoSites :=
  .cons ⟨fun _ => 1, fun _ => 0, fun _ _ => one_pos, by simp [DataSet.inUnits]⟩
    (.cons ⟨fun j => j + 2, fun _ => 7, fun j _ => by positivity, rfl⟩ .nil)

/-- Two data sets of which one is in other units: `fit` returns a result, its order is the one of `DirectLiNGAM` for the first. -/
example : ∃ (lin : ∀ N, Lin N) (lars : ∀ N, Lars N) (o : List Nat) (B B' : Nat → Nat → ℝ),
    fit { } lin lars 3 twoSites = .ok (o, [B, B']) ∧ Pairwise.fitOrder { } 3 Pairwise.lassoData = .ok o := by
  have hor : ∀ N, ∃ l : Lin N × Lars N, RightRegression l.1 := fun N =>
    let ⟨a, b, h, _⟩ := Pairwise.exists_oracles N; ⟨(a, b), h⟩
  choose l hl using hor
  obtain ⟨o, Bs, h, -, hlen⟩ := C204_defined (cfg := { }) rfl (fun N => (l N).1) (fun N => (l N).2) 3
    (ds := List.replicate 2 ⟨4, Pairwise.lassoData⟩) (by simp)
  obtain ⟨Bs', h', hconv⟩ := (C204_fit { } hl (fun N => (l N).2) (by simpa using Pairwise.lassoData_identified) twoSites_own).2 o Bs h
  refine ⟨fun N => (l N).1, fun N => (l N).2, o, ?_⟩
  match Bs, Bs', hconv with
  | [B1, B2], [B, B'], _ =>
    refine ⟨B, B', h', ?_⟩
    rw [← C204_copies { } 3 (k := 2) (by norm_num) (by norm_num) Pairwise.lassoData]
    unfold fit at h
    split at h
    · cases h
    · rename_i o' ho'
      split at h
      · cases h
      · simp only [Except.ok.injEq, Prod.mk.injEq] at h
        rw [ho', h.1]

/-- The reversed rows of the first data set and the data sets in the other order. -/
example : fitOrder { } 3 [⟨4, fun j r => (j + 2 : ℝ) * Pairwise.lassoData j r + 7⟩, ⟨4, fun j r => Pairwise.lassoData j r.rev⟩] =
    fitOrder { } 3 twoSites := by
  rw [C204_sets { } 3 (List.Perm.swap _ _ _)]
  refine C204_rows { } one_ne_zero (.cons ⟨Fin.rev, fun r => ?_, fun _ _ => rfl⟩ (.cons ⟨id, fun r => ?_, fun _ _ => rfl⟩ .nil))
  · fin_cases r <;> decide
  · fin_cases r <;> decide

end Verif.GroupData
