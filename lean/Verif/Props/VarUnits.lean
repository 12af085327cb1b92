import Verif.Props.VarRecovery
import Verif.Props.AdaptiveLasso
import Verif.Spec.Units
import Mathlib.LinearAlgebra.Matrix.Determinant.Basic
import Mathlib.LinearAlgebra.Matrix.PosDef
import Mathlib.Analysis.Matrix.PosDef
import Mathlib.Algebra.Order.Star.Real
import Mathlib.Tactic.FieldSimp

/-!
# VARLiNGAM in other units (C199)

Every variable of the series may be measured in another unit.  The order, the number of lags and the exceptions stay the same
and every coefficient is converted.
-/
set_option linter.unusedSectionVars false
set_option autoImplicit false
namespace Verif.Var
open Finset
open Verif.Paths (Err)

section General
variable {K : Type} [Field K] [LinearOrder K] [IsStrictOrderedRing K]

/-- The same series in other units. -/
def rescale (c : Nat → K) (X : Data K) : Data K := ⟨X.rows, fun t i => c i * X.val t i⟩

/-- The same object, with given autoregressive coefficients converted. -/
def convertObj (c : Nat → K) (o : Obj K) : Obj K :=
  { o with arCoefs := o.arCoefs.map (fun Ms => Ms.map (fun M i j => M i j * (c i / c j))) }

/-- The outcomes `f` and `f'` of a VAR estimation say the same in different units. -/
structure FitConverts (n : Nat) (c : Nat → K) (f f' : VarFit K) : Prop where
  lags : f'.kAr = f.kAr
  length : f'.coefs.length = f.coefs.length
  coefs : ∀ k, ConvertedMatrix n c (lagFn f.coefs k) (lagFn f'.coefs k)
  rows : f'.resid.rows = f.resid.rows
  resid : Rescaled n f.resid.rows c f.resid.val f'.resid.val

/-- The LiNGAM method gives the same result for `D` in other units. -/
def LingamUnits (n : Nat) (c : Nat → K) (lingam : Data K → List Nat × (Nat → Nat → K)) (D : Data K) : Prop :=
  ∀ D' : Data K, D'.rows = D.rows → Rescaled n D.rows c D.val D'.val →
    (lingam D').1 = (lingam D).1 ∧ ConvertedMatrix n c (lingam D).2 (lingam D').2

/-- The regression with selection gives the same result for this design in other units. -/
def RegressionUnits (reg : Nat → (Nat → List K) → (Nat → K) → Nat → K) (N w : Nat) (rows : Nat → List K) (y : Nat → K) : Prop :=
  ∀ (rows' : Nat → List K) (y' : Nat → K) (s : Nat → K) (q : K), 0 < q → (∀ k, k < w → 0 < s k) →
    (∀ r, r < N → y' r = q * y r) → (∀ r, r < N → (rows' r).length = w) →
    (∀ r, r < N → ∀ k, k < w → (rows' r).getD k 0 = s k * (rows r).getD k 0) →
    ∀ k, k < w → reg N rows' y' k = reg N rows y k * (q / s k)

/-- Row `r` of the regression that decides about the causes of a variable: the predecessors `anc` at time `T - 1 - r`, then all
variables at the `p` times before. -/
def pruneRow (n p T : Nat) (anc : List Nat) (x : Nat → Nat → K) (r : Nat) : List K :=
  anc.map (x (T - 1 - r)) ++ (List.range p).flatMap (fun k => (List.range n).map (x (T - 1 - r - (k + 1))))

theorem estimateVar_units {E : Env K} {o : Obj K} {X X' : Data K} {g : K → K} (hg : StrictMono g)
    (hcr : ∀ l, 1 ≤ l → l ≤ o.lags → (E.var X' l).crit = (E.var X l).crit.map g) :
    (estimateVar E o X = none ∧ estimateVar E o X' = none) ∨
      ∃ l, l ≤ o.lags ∧ (1 ≤ l ∨ o.useCriterion = false) ∧ estimateVar E o X = some (E.var X l) ∧ estimateVar E o X' = some (E.var X' l) := by
  unfold estimateVar
  split
  · rename_i hu
    have key : ∀ L, L ≤ o.lags →
        ((List.range L).foldl (fun best l => better best (E.var X (l + 1))) none = none ∧
          (List.range L).foldl (fun best l => better best (E.var X' (l + 1))) none = none) ∨
        ∃ l, l ≤ L ∧ 1 ≤ l ∧ (List.range L).foldl (fun best l => better best (E.var X (l + 1))) none = some (E.var X l) ∧
          (List.range L).foldl (fun best l => better best (E.var X' (l + 1))) none = some (E.var X' l) := by
      intro L
      induction L with
      | zero => intro _; left; simp
      | succ L ih =>
        intro hL
        rw [List.range_succ, List.foldl_append, List.foldl_append]
        simp only [List.foldl_cons, List.foldl_nil]
        have hc := hcr (L + 1) (by omega) hL
        rcases ih (by omega) with ⟨h1, h2⟩ | ⟨l, hl, hl1, h1, h2⟩
        · rw [h1, h2]
          unfold better
          rw [hc]
          cases (E.var X (L + 1)).crit with
          | none => left; simp
          | some v => right; exact ⟨L + 1, le_rfl, by omega, rfl, rfl⟩
        · rw [h1, h2]
          right
          unfold better
          have hc' := hcr l hl1 (by omega)
          rw [hc]
          cases (E.var X (L + 1)).crit with
          | none => exact ⟨l, by omega, hl1, rfl, rfl⟩
          | some v =>
            simp only [Option.map_some, hc']
            cases (E.var X l).crit with
            | none => exact ⟨L + 1, le_rfl, by omega, rfl, rfl⟩
            | some w =>
              simp only [Option.map_some, hg.lt_iff_lt]
              by_cases hvw : v < w
              · exact ⟨L + 1, le_rfl, by omega, by rw [if_pos hvw], by rw [if_pos hvw]⟩
              · exact ⟨l, by omega, hl1, by rw [if_neg hvw], by rw [if_neg hvw]⟩
    rcases key o.lags le_rfl with h | ⟨l, h1, h2, h3, h4⟩
    · exact Or.inl h
    · exact Or.inr ⟨l, h1, Or.inl h2, h3, h4⟩
  · rename_i hu
    exact Or.inr ⟨o.lags, le_rfl, Or.inr (by simpa using hu), rfl, rfl⟩

theorem lagFn_map_conv (c : Nat → K) (Ms : List (Nat → Nat → K)) (k i j : Nat) :
    lagFn (Ms.map (fun M i j => M i j * (c i / c j))) k i j = lagFn Ms k i j * (c i / c j) := by
  unfold lagFn
  simp only [List.getD_eq_getElem?_getD, List.getElem?_map]
  cases Ms[k]? <;> simp

/-- Innovations are converted when the coefficients are. -/
theorem innovation_units {n p : Nat} {c : Nat → K} (hc : ∀ j, j < n → 0 < c j) {M M' : Nat → Nat → Nat → K}
    {x x' : Nat → Nat → K} {t : Nat} (hM : ∀ k, k < p → ConvertedMatrix n c (M (k + 1)) (M' (k + 1)))
    (hx : ∀ s, s ≤ t → ∀ j, j < n → x' s j = c j * x s j) {i : Nat} (hi : i < n) :
    innovation n p M' x' t i = c i * innovation n p M x t i := by
  unfold innovation
  rw [mul_sub, hx t le_rfl i hi, mul_sum]
  congr 1
  refine sum_congr rfl fun k hk => ?_
  rw [mul_sum]
  refine sum_congr rfl fun j hj => ?_
  have hj := mem_range.1 hj
  rw [hM k (mem_range.1 hk) i hi j hj, hx _ (by omega) j hj]
  have := (hc j hj).ne'
  field_simp

/-- Conversion of the lag matrices. -/
theorem mm_units {n : Nat} {c : Nat → K} (hc : ∀ j, j < n → 0 < c j) {A A' B B' : Nat → Nat → K}
    (hA : ConvertedMatrix n c A A') (hB : ConvertedMatrix n c B B') : ConvertedMatrix n c (mm n A B) (mm n A' B') := by
  intro i hi j hj
  unfold mm
  rw [sum_mul]
  refine sum_congr rfl fun k hk => ?_
  have hk := mem_range.1 hk
  rw [hA i hi k hk, hB k hk j hj]
  have := (hc k hk).ne'
  field_simp

theorem oneSub_units {n : Nat} {c : Nat → K} (hc : ∀ j, j < n → 0 < c j) {A A' : Nat → Nat → K}
    (hA : ConvertedMatrix n c A A') : ConvertedMatrix n c (oneSub A) (oneSub A') := by
  intro i hi j hj
  unfold oneSub
  rw [hA i hi j hj, sub_mul]
  congr 1
  split
  · rename_i h
    subst h
    rw [div_self (hc i hi).ne', one_mul]
  · rw [zero_mul]

/-- The factors of the columns of the pruning regression. -/
def rowScale (n : Nat) (c : Nat → K) (anc : List Nat) (k : Nat) : K :=
  if k < anc.length then c (anc.getD k 0) else c ((k - anc.length) % n)

/-- The regression of one variable in other units. -/
theorem prunedRow_units {n lags : Nat} {reg : Lasso K} {X : Data K} {c : Nat → K} {order : List Nat} {i : Nat}
    (hci : 0 < c i) (hs : ∀ k, k < (order.take (order.idxOf i)).length + n * lags → 0 < rowScale n c (order.take (order.idxOf i)) k)
    (hreg : RegressionUnits reg (X.rows - lags) ((order.take (order.idxOf i)).length + n * lags)
      (pruneRow n lags X.rows (order.take (order.idxOf i)) X.val) (fun r => X.val (X.rows - 1 - r) i)) (hl : 1 ≤ lags) {k : Nat}
    (hk : k < (order.take (order.idxOf i)).length + n * lags) :
    prunedRow n reg (rescale c X) lags order i k =
      prunedRow n reg X lags order i k * (c i / rowScale n c (order.take (order.idxOf i)) k) := by
  set anc := order.take (order.idxOf i) with hanc
  have hnb : nBlocks X lags = X.rows - lags := by unfold nBlocks; rw [if_neg (by omega)]
  have hnb' : nBlocks (rescale c X) lags = X.rows - lags := by unfold nBlocks; rw [if_neg (by omega)]; rfl
  have hrow : ∀ r, r < X.rows - lags → expLoop n X lags anc r = pruneRow n lags X.rows anc X.val r := by
    intro r hr
    rw [expLoop_eq _ _ _ _ (by omega)]
    unfold expRow pruneRow
    congr 1
    · apply List.map_congr_left
      intro j _
      rw [stacked_eq (by omega)]
      rfl
    · apply List.flatMap_congr
      intro k hk
      rw [List.mem_range] at hk
      apply List.map_congr_left
      intro j _
      rw [stacked_eq (by omega)]
  have hrow' : ∀ r, r < X.rows - lags → expLoop n (rescale c X) lags anc r = expRow n (rescale c X) lags anc r :=
    fun r hr => expLoop_eq _ _ _ _ (by omega)
  have hrow0 : ∀ r, r < X.rows - lags → expLoop n X lags anc r = expRow n X lags anc r :=
    fun r hr => expLoop_eq _ _ _ _ (by omega)
  have hobj : ∀ r, r < X.rows - lags → objVec X i r = X.val (X.rows - 1 - r) i := by
    intro r hr
    unfold objVec
    rw [stacked_eq (by omega)]
    rfl
  have h1 := hreg (expLoop n X lags anc) (objVec X i) (fun _ => 1) 1 one_pos (fun _ _ => one_pos)
    (fun r hr => by rw [one_mul, hobj r hr]) (fun r hr => by rw [hrow0 r hr, expRow_length])
    (fun r hr k _ => by rw [one_mul, hrow r hr]) k hk
  have h2 := hreg (expLoop n (rescale c X) lags anc) (objVec (rescale c X) i) (rowScale n c anc) (c i) hci hs
    (fun r hr => by
      beta_reduce
      rw [← hobj r hr]
      rfl) (fun r hr => by rw [hrow' r hr, expRow_length])
    (fun r hr k hk => by
      rw [← hrow r hr, hrow' r hr, hrow0 r hr, expRow_getD _ _ _ _ _ hk, expRow_getD _ _ _ _ _ hk]
      unfold rowScale
      split
      · rfl
      · rfl) k hk
  unfold prunedRow
  rw [hnb, hnb', ← hanc, h2, h1]
  ring

/-- C199, for any VAR estimation, LiNGAM method and selection that convert on the data at hand: `fit` in other units gives the
same exception, or the same order and number of lags and converted matrices. -/
theorem C199_fit (E : Env K) (o : Obj K) (X : Data K) {c : Nat → K} (hc : ∀ j, j < E.n → 0 < c j)
    (hvar : o.arCoefs = none → ∀ l, l ≤ o.lags → FitConverts E.n c (E.var X l) (E.var (rescale c X) l))
    (hcr : o.arCoefs = none → ∃ g : K → K, StrictMono g ∧
      ∀ l, 1 ≤ l → l ≤ o.lags → (E.var (rescale c X) l).crit = (E.var X l).crit.map g)
    (hling : ∀ o' R, fit E o X = .ok o' → o'.residuals = some R →
      LingamUnits E.n c E.lingam R ∧ ∀ v ∈ (E.lingam R).1, v < E.n)
    (hreg : o.prune = true → 1 ≤ o.lags ∧ ∀ o' order, fit E o X = .ok o' → o'.causalOrder = some order →
      ∀ i, i < E.n → ∀ anc post, order = anc ++ post → i ∉ anc → RegressionUnits E.lasso (X.rows - o.lags) (anc.length + E.n * o.lags)
        (pruneRow E.n o.lags X.rows anc X.val) (fun r => X.val (X.rows - 1 - r) i)) :
    (∀ e, fit E o X = .error e → fit E (convertObj c o) (rescale c X) = .error e) ∧
    ∀ o', fit E o X = .ok o' → ∃ o'' order Bs Bs', fit E (convertObj c o) (rescale c X) = .ok o'' ∧
      o'.causalOrder = some order ∧ o''.causalOrder = some order ∧ o''.lags = o'.lags ∧
      o'.adjacency = some Bs ∧ o''.adjacency = some Bs' ∧ Bs'.length = Bs.length ∧
      ∀ k, ConvertedMatrix E.n c (lagFn Bs k) (lagFn Bs' k) := by
  -- the autoregressive part
  have har : (∀ e, arPart E o X = .error e → arPart E (convertObj c o) (rescale c X) = .error e) ∧
      ∀ Ms lags R, arPart E o X = .ok (Ms, lags, R) → ∃ Ms' R', arPart E (convertObj c o) (rescale c X) = .ok (Ms', lags, R') ∧
        Ms'.length = Ms.length ∧ (∀ k, ConvertedMatrix E.n c (lagFn Ms k) (lagFn Ms' k)) ∧ R'.rows = R.rows ∧
        Rescaled E.n R.rows c R.val R'.val := by
    cases ha : o.arCoefs with
    | none =>
      have he : ∀ Y, estimateVar E (convertObj c o) Y = estimateVar E o Y := fun Y => rfl
      have ha' : (convertObj c o).arCoefs = none := by simp [convertObj, ha]
      unfold arPart
      rw [ha, ha', he]
      simp only
      obtain ⟨g, hg, hcr⟩ := hcr ha
      rcases estimateVar_units hg hcr with ⟨h1, h2⟩ | ⟨l, hl, _, h1, h2⟩
      · rw [h1, h2]
        exact ⟨fun e h => h, fun Ms lags R h => by cases h⟩
      · rw [h1, h2]
        refine ⟨fun e h => (by cases h), fun Ms lags R h => ?_⟩
        simp only [Except.ok.injEq, Prod.mk.injEq] at h
        obtain ⟨rfl, rfl, rfl⟩ := h
        have hf := hvar ha l hl
        exact ⟨(E.var (rescale c X) l).coefs, (E.var (rescale c X) l).resid, by simp only [hf.lags], hf.length, hf.coefs, hf.rows, hf.resid⟩
    | some Ms0 =>
      have ha' : (convertObj c o).arCoefs = some (Ms0.map (fun M i j => M i j * (c i / c j))) := by simp [convertObj, ha]
      unfold arPart
      rw [ha, ha']
      refine ⟨fun e h => (by cases h), fun Ms lags R h => ?_⟩
      simp only [Except.ok.injEq, Prod.mk.injEq] at h
      obtain ⟨rfl, rfl, rfl⟩ := h
      refine ⟨_, calcResiduals E.n (rescale c X) (Ms0.map (fun M i j => M i j * (c i / c j))) Ms0.length,
        by simp only [List.length_map], by simp, fun k i _ j _ => lagFn_map_conv c Ms0 k i j, rfl, ?_⟩
      intro r hr i hi
      have hlen : (Ms0.map (fun M i j => M i j * (c i / c j))).length = Ms0.length := by simp
      have := calcResiduals_val E.n (rescale c X) (Ms0.map (fun M i j => M i j * (c i / c j))) r i
      rw [hlen] at this
      rw [this, calcResiduals_val]
      exact innovation_units hc (fun k _ i _ j _ => lagFn_map_conv c Ms0 k i j) (fun s _ j _ => rfl) hi
  constructor
  · intro e h
    unfold fit at h ⊢
    split at h
    · rename_i e' he
      rw [har.1 e' he]
      exact h
    · rename_i Ms lags R hR
      obtain ⟨Ms', R', h1, h2, h3, h4, h5⟩ := har.2 Ms lags R hR
      rw [h1]
      simp only
      split at h
      · rename_i e' he
        have : ∀ Y (M : List (Nat → Nat → K)) order B0, M.length = Ms.length →
            lagMatrices E (convertObj c o) Y M order B0 = .error e' := by
          intro Y M order B0 hM
          unfold lagMatrices at he ⊢
          have hp : (convertObj c o).prune = o.prune := rfl
          rw [hp]
          split at he
          · rename_i hp
            rw [if_pos hp]
            unfold pruning at he ⊢
            rw [calcB_length] at he ⊢
            have hl : (convertObj c o).lags = o.lags := rfl
            rw [hM, hl]
            split at he
            · rename_i hcond
              rw [if_pos hcond]
              exact he
            · cases he
          · cases he
        rw [this _ _ _ _ h2]
        exact h
      · cases h
  · intro o' h
    obtain ⟨Ms, lags, R, Bs, hR, hB, rfl⟩ := fit_ok h
    obtain ⟨Ms', R', h1, h2, h3, h4, h5⟩ := har.2 Ms lags R hR
    obtain ⟨hlg, hlt⟩ := hling _ R h rfl
    obtain ⟨hord, hmat⟩ := hlg R' h4 h5
    obtain ⟨Bs', hB'⟩ : ∃ Bs', lagMatrices E (convertObj c o) (rescale c X) Ms' (E.lingam R').1 (E.lingam R').2 = .ok Bs' := by
      unfold lagMatrices at hB ⊢
      have hp : (convertObj c o).prune = o.prune := rfl
      rw [hp]
      split at hB
      · rename_i hp
        rw [if_pos hp]
        unfold pruning at hB ⊢
        rw [calcB_length] at hB ⊢
        have hl : (convertObj c o).lags = o.lags := rfl
        rw [h2, hl]
        split at hB
        · cases hB
        · rename_i hcond
          rw [if_neg hcond]
          exact ⟨_, rfl⟩
      · rename_i hp
        rw [if_neg hp]
        exact ⟨_, rfl⟩
    have hfit : fit E (convertObj c o) (rescale c X) = .ok { convertObj c o with
        arCoefs := some Ms', lags := lags, residuals := some R', causalOrder := some (E.lingam R').1, adjacency := some Bs' } := by
      unfold fit
      rw [h1]
      simp only [hB']
    refine ⟨_, (E.lingam R).1, Bs, Bs', hfit, rfl, by simp only [hord], rfl, rfl, rfl, ?_, ?_⟩
    · rw [(lagMatrices_ok hB).1, (lagMatrices_ok hB').1, h2]
    obtain ⟨hlen, hz, hk⟩ := lagMatrices_ok hB
    obtain ⟨hlen', hz', hk'⟩ := lagMatrices_ok hB'
    have hpe : (convertObj c o).prune = o.prune := rfl
    have hle : (convertObj c o).lags = o.lags := rfl
    rw [hord] at hz' hk'
    rw [hpe, hle] at hz' hk'
    -- what the pruning regression gives
    have hpr : o.prune = true → ∀ i, i < E.n →
        ∀ k, k < ((E.lingam R).1.take ((E.lingam R).1.idxOf i)).length + E.n * o.lags →
        prunedRow E.n E.lasso (rescale c X) o.lags (E.lingam R).1 i k = prunedRow E.n E.lasso X o.lags (E.lingam R).1 i k *
          (c i / rowScale E.n c ((E.lingam R).1.take ((E.lingam R).1.idxOf i)) k) := by
      intro hp i hi k hk
      obtain ⟨hl1, hreg⟩ := hreg hp
      refine prunedRow_units (hc i hi) (fun k hk => ?_) (hreg _ _ h rfl i hi _ ((E.lingam R).1.drop ((E.lingam R).1.idxOf i))
        (List.take_append_drop _ _).symm ?_) hl1 hk
      · unfold rowScale
        split
        · rename_i hlk
          refine hc _ (hlt _ ?_)
          rw [Pairwise.getD_of_lt hlk]
          exact List.mem_of_mem_take (List.getElem_mem _)
        · rename_i hlk
          refine hc _ (Nat.mod_lt _ ?_)
          rcases Nat.eq_zero_or_pos E.n with h | h
          · rw [h] at hi; omega
          · exact h
      · intro hmem
        obtain ⟨k, hk, hke⟩ := List.getElem_of_mem hmem
        rw [List.getElem_take] at hke
        rw [List.length_take] at hk
        have h1 : k < (E.lingam R).1.idxOf i := by omega
        have := List.not_of_lt_findIdx (xs := (E.lingam R).1) (p := fun a => a == i) h1
        simp [hke] at this
    have htl : ∀ i, ((E.lingam R).1.take ((E.lingam R).1.idxOf i)).length = (E.lingam R).1.idxOf i := by
      intro i
      rw [List.length_take, Nat.min_eq_left (List.idxOf_le_length)]
    intro k i hi j hj
    rcases Nat.lt_or_ge k (Ms.length + 1) with hkl | hkl
    · cases k with
      | zero =>
        rw [hz i hi j, hz' i hi j]
        split
        · rename_i hcond
          have hpos := List.idxOf_lt_length_iff.2 hcond.2
          rw [hpr hcond.1 i hi _ (by omega)]
          unfold rowScale
          rw [if_pos hpos, Pairwise.getD_of_lt hpos, List.getElem_idxOf]
        · exact hmat i hi j hj
      | succ k =>
        rw [hk i hi k (by omega), hk' i hi k (by omega)]
        split
        · rename_i hp
          have hls : Ms.length ≤ o.lags := by
            unfold lagMatrices pruning at hB
            rw [if_pos hp, calcB_length] at hB
            split at hB
            · cases hB
            · rename_i hcond
              by_contra hcon
              exact hcond ⟨by omega, by omega⟩
          have hb : E.n * k + j < E.n * o.lags := by
            have : E.n * (k + 1) ≤ E.n * o.lags := Nat.mul_le_mul_left _ (by omega)
            rw [Nat.mul_succ] at this
            omega
          rw [hpr hp i hi _ (by rw [htl]; omega)]
          unfold rowScale
          rw [htl, if_neg (by omega), Nat.add_assoc, Nat.add_sub_cancel_left, Nat.mul_add_mod, Nat.mod_eq_of_lt hj]
        · exact mm_units hc (oneSub_units hc hmat) (h3 k) i hi j hj
    · have e1 : lagFn Bs k = fun _ _ => 0 := by
        unfold lagFn; rw [List.getD_eq_getElem?_getD, List.getElem?_eq_none (by omega)]; rfl
      have e2 : lagFn Bs' k = fun _ _ => 0 := by
        unfold lagFn; rw [List.getD_eq_getElem?_getD, List.getElem?_eq_none (by omega)]; rfl
      rw [e1, e2, zero_mul]

end General

section Reals
open Verif.Pairwise (Lin Lars fitLasso predict)

/-- lingam/var_lingam.py:53-55, 101: `DirectLiNGAM` as the LiNGAM model (the default), applied to the residual matrix, which has
`n` columns.  If it raises, so does `fit`; here the result is then empty. -/
noncomputable def lassoLingam (cfg : Direct.Config) (lin : ∀ N, Lin N) (lars : ∀ N, Lars N) (n : Nat) (D : Data ℝ) :
    List Nat × (Nat → Nat → ℝ) :=
  match fitLasso cfg (lin D.rows) (lars D.rows) n (fun j r => if j < n then D.val r j else 0) with
  | .ok q => q
  | .error _ => ([], fun _ _ => 0)

/-- lingam/var_lingam.py:389-393: `predict_adaptive_lasso` on the regressor columns followed by the regressand. -/
noncomputable def lassoReg (lin : ∀ N, Lin N) (lars : ∀ N, Lars N) : Lasso ℝ := fun N rows y k =>
  predict (lin N) (lars N) (fun j (r : Fin N) => if j < (rows 0).length then (rows r).getD j 0 else y r)
    (List.range (rows 0).length) (rows 0).length k

variable {lin : ∀ N, Lin N} (lars : ∀ N, Lars N)

theorem lassoLingam_units (cfg : Direct.Config) (hlin : ∀ N, RightRegression (lin N)) {n : Nat} {c : Nat → ℝ}
    (hc : ∀ j, j < n → 0 < c j) {D : Data ℝ} (hid : Identified n (fun j (r : Fin D.rows) => D.val r j)) :
    LingamUnits n c (lassoLingam cfg lin lars n) D := by
  intro D' hrows hres
  obtain ⟨N, v⟩ := D
  obtain ⟨N', v'⟩ := D'
  simp only at hrows hres hid
  subst hrows
  have hid' : Identified n (fun j (r : Fin N') => if j < n then v r j else 0) := by
    intro b b0 h
    refine hid b b0 fun r => ?_
    rw [← h r]
    congr 1
    refine sum_congr rfl fun j hj => ?_
    beta_reduce
    rw [if_pos (mem_range.1 hj)]
  obtain ⟨h1, h2⟩ := Pairwise.C197_fit cfg (hlin N') (lars N') hid' (c := c) (a := fun _ => 0) hc
  have he : (fun j (r : Fin N') => c j * (if j < n then v r j else 0) + 0) =
      fun j (r : Fin N') => if j < n then v' r j else 0 := by
    funext j r
    split
    · rename_i hj
      rw [hres r r.2 j hj, add_zero]
    · simp
  rw [he] at h1 h2
  unfold lassoLingam
  simp only
  cases hf : fitLasso cfg (lin N') (lars N') n (fun j (r : Fin N') => if j < n then v r j else 0) with
  | error e =>
    rw [h1 e hf]
    exact ⟨rfl, fun i _ j _ => by simp⟩
  | ok q =>
    obtain ⟨B', h3, h4⟩ := h2 q.1 q.2 hf
    rw [h3]
    exact ⟨rfl, fun i _ j _ => h4 i j⟩

theorem lassoLingam_lt (cfg : Direct.Config) (n : Nat) (D : Data ℝ) : ∀ v ∈ (lassoLingam cfg lin lars n D).1, v < n := by
  unfold lassoLingam
  split
  · rename_i q hq
    unfold fitLasso at hq
    split at hq
    · cases hq
    · rename_i order ho
      split at hq
      · cases hq
      · simp only [Except.ok.injEq] at hq
        subst hq
        intro v hv
        exact List.mem_range.1 ((Pairwise.fitOrder_perm ho).mem_iff.1 hv)
  · intro v hv
    cases hv

theorem lassoReg_units (hlin : ∀ N, RightRegression (lin N)) {N w : Nat} {rows : Nat → List ℝ} {y : Nat → ℝ}
    (hw : ∀ r, r < N → (rows r).length = w)
    (hi : IndependentCols ((List.range w).map (fun k (r : Fin N) => (rows r).getD k 0))) :
    RegressionUnits (lassoReg lin lars) N w rows y := by
  intro rows' y' s q hq hs hy hlen hrow k hk
  have hN : 0 < N := by
    rcases Nat.eq_zero_or_pos N with h | h
    · subst h
      have := hi 0 (fun _ => 1) (fun r => r.elim0) k (by simpa using hk)
      norm_num at this
    · exact h
  unfold lassoReg
  rw [hw 0 hN, hlen 0 hN]
  have hi' : IndependentCols ((List.range w).map (fun j (r : Fin N) => if j < w then (rows r).getD j 0 else y r)) := by
    rwa [List.map_congr_left (g := fun k (r : Fin N) => (rows r).getD k 0) fun j hj => by
      funext r
      rw [if_pos (List.mem_range.1 hj)]]
  have h := Pairwise.C197_units (t := w) (hlin N) (lars N) hi' (c := fun j => if j < w then s j else q) (a := fun _ => 0) (fun j _ => by
    split
    · exact hs j ‹_›
    · exact hq) k
  have he : (fun j (r : Fin N) => (if j < w then s j else q) * (if j < w then (rows r).getD j 0 else y r) + 0) =
      fun j (r : Fin N) => if j < w then (rows' r).getD j 0 else y' r := by
    funext j r
    split
    · rw [hrow r r.2 j ‹_›, add_zero]
    · rw [hy r r.2, add_zero]
  rw [he] at h
  rw [h, if_neg (lt_irrefl w), Pairwise.getD_of_lt (by simpa using hk), List.getElem_range, if_pos hk]

/-! ### The window -/

theorem window_mono {n l p T : Nat} (hl : l ≤ p) {x : Nat → Nat → ℝ} (h : WindowIndependent n p T x) :
    WindowIndependent n l T x := by
  intro b0 d hd k hk j hj
  have := h b0 (fun k j => if k ≤ l then d k j else 0) (fun t h1 h2 => by
    refine Eq.trans ?_ (hd t (by omega) h2)
    congr 1
    rw [show p + 1 = (l + 1) + (p - l) by omega, sum_range_add]
    rw [sum_eq_zero (s := range (p - l)) (fun k _ => by rw [sum_eq_zero fun j _ => by rw [if_neg (by omega), zero_mul]]), add_zero]
    exact sum_congr rfl fun k hk => sum_congr rfl fun j _ => by rw [if_pos (by have := mem_range.1 hk; omega)]) k (by omega) j hj
  simpa [hk] using this

/-- Innovations are independent of each other and of the constant. -/
theorem identified_of_window {n p T : Nat} {x : Nat → Nat → ℝ} (h : WindowIndependent n p T x) (M : Nat → Nat → Nat → ℝ)
    {N : Nat} (hN : N = T - p) {v : Nat → Nat → ℝ} (hv : ∀ r, r < N → ∀ i, i < n → v r i = innovation n p M x (r + p) i) :
    Identified n (fun j (r : Fin N) => v r j) := by
  intro b b0 hb j hj
  have := h b0 (fun k j => if k = 0 then b j else - ∑ i ∈ range n, b i * M k i j) (fun t h1 h2 => by
    refine Eq.trans ?_ (hb ⟨t - p, by omega⟩)
    rw [sum_range_succ', add_comm (∑ k ∈ range p, _)]
    congr 1
    have e1 : ∀ i ∈ range n, b i * v (t - p) i =
        b i * x t i - ∑ k ∈ range p, ∑ j ∈ range n, b i * M (k + 1) i j * x (t - (k + 1)) j := by
      intro i hi
      rw [hv _ (by omega) i (mem_range.1 hi), Nat.sub_add_cancel h1]
      unfold innovation
      rw [mul_sub, mul_sum]
      congr 1
      exact sum_congr rfl fun k _ => by rw [mul_sum]; exact sum_congr rfl fun j _ => by ring
    rw [sum_congr rfl e1, sum_sub_distrib]
    simp only [Nat.sub_zero, if_true]
    rw [sub_eq_add_neg]
    congr 1
    rw [sum_comm (s := range n) (t := range p), ← sum_neg_distrib]
    refine sum_congr rfl fun k _ => ?_
    rw [sum_comm, ← sum_neg_distrib]
    refine sum_congr rfl fun j _ => ?_
    rw [if_neg (by omega), neg_mul, sum_mul]) 0 (by omega) j hj
  simpa using this

/-- The columns of the pruning regression are independent. -/
theorem pruneRow_independent {n p T : Nat} {x : Nat → Nat → ℝ} (h : WindowIndependent n p T x) {anc : List Nat}
    (hnd : anc.Nodup) (hlt : ∀ v ∈ anc, v < n) :
    IndependentCols ((List.range (anc.length + n * p)).map (fun k (r : Fin (T - p)) => (pruneRow n p T anc x r).getD k 0)) := by
  have hget : ∀ r, r < T - p → ∀ k, k < anc.length + n * p → (pruneRow n p T anc x r).getD k 0 =
      if k < anc.length then x (T - 1 - r) (anc.getD k 0)
      else x (T - 1 - r - ((k - anc.length) / n + 1)) ((k - anc.length) % n) := by
    intro r hr k hk
    have := expRow_getD n (⟨T, x⟩ : Data ℝ) p anc r hk
    have he : expRow n (⟨T, x⟩ : Data ℝ) p anc r = pruneRow n p T anc x r := by
      unfold expRow pruneRow
      congr 1
      · exact List.map_congr_left fun j _ => by rw [stacked_eq (by show r + 0 < T; omega)]; rfl
      · apply List.flatMap_congr
        intro k hk
        rw [List.mem_range] at hk
        exact List.map_congr_left fun j _ => by rw [stacked_eq (by show r + (k + 1) < T; omega)]
    rw [he] at this
    rw [this]
    split
    · rw [stacked_eq (by show r + 0 < T; omega)]; rfl
    · have hn : 0 < n := by
        rcases Nat.eq_zero_or_pos n with h | h
        · subst h; omega
        · exact h
      have : (k - anc.length) / n < p := by rw [Nat.div_lt_iff_lt_mul hn, Nat.mul_comm]; omega
      rw [stacked_eq (by show r + _ < T; omega)]
  intro b0 w hz k hk
  simp only [List.length_map, List.length_range] at hz hk
  have hz' : ∀ r, r < T - p → b0 + ∑ k ∈ range (anc.length + n * p), w k * (if k < anc.length then x (T - 1 - r) (anc.getD k 0)
      else x (T - 1 - r - ((k - anc.length) / n + 1)) ((k - anc.length) % n)) = 0 := by
    intro r hr
    refine Eq.trans ?_ (hz ⟨r, hr⟩)
    congr 1
    refine sum_congr rfl fun k hk => ?_
    have hk := mem_range.1 hk
    have hg : (List.range (anc.length + n * p)).getD k 0 = k := by
      rw [Pairwise.getD_of_lt (by simpa using hk), List.getElem_range]
    rw [Pairwise.list_getD_map _ (List.range _) (by simpa using hk) 0 0, hg, hget r hr k hk]
  -- coefficients by lag and variable
  have key := h b0 (fun k j => match k with
      | 0 => if j ∈ anc then w (anc.idxOf j) else 0
      | k + 1 => w (anc.length + (n * k + j))) (fun t h1 h2 => by
    refine Eq.trans ?_ (hz' (T - 1 - t) (by omega))
    congr 1
    rw [show T - 1 - (T - 1 - t) = t by omega, sum_range_succ', sum_range_add, add_comm]
    congr 1
    · -- predecessors
      simp only [Nat.sub_zero]
      have e1 : ∑ j ∈ range n, (if j ∈ anc then w (anc.idxOf j) else 0) * x t j =
          ∑ j ∈ anc.toFinset, w (anc.idxOf j) * x t j := by
        rw [← sum_subset (s₁ := anc.toFinset) (fun j hj => mem_range.2 (hlt j (List.mem_toFinset.1 hj)))
          (fun j _ hj => by rw [if_neg (fun h => hj (List.mem_toFinset.2 h)), zero_mul])]
        exact sum_congr rfl fun j hj => by rw [if_pos (List.mem_toFinset.1 hj)]
      rw [e1]
      symm
      refine sum_bij (fun k _ => anc.getD k 0) ?_ ?_ ?_ ?_
      · intro k hk
        have hk := mem_range.1 hk
        rw [Pairwise.getD_of_lt hk]
        exact List.mem_toFinset.2 (List.getElem_mem hk)
      · intro k hk k' hk' he
        have hk := mem_range.1 hk
        have hk' := mem_range.1 hk'
        rw [Pairwise.getD_of_lt hk, Pairwise.getD_of_lt hk'] at he
        exact (List.Nodup.getElem_inj_iff hnd).1 he
      · intro j hj
        have hj := List.idxOf_lt_length_iff.2 (List.mem_toFinset.1 hj)
        exact ⟨anc.idxOf j, mem_range.2 hj, by rw [Pairwise.getD_of_lt hj, List.getElem_idxOf]⟩
      · intro k hk
        have hk := mem_range.1 hk
        rw [if_pos hk, Pairwise.getD_of_lt hk, List.Nodup.idxOf_getElem hnd]
    · -- the past
      rw [Longitudinal.sum_blocks]
      refine sum_congr rfl fun k _ => sum_congr rfl fun j hj => ?_
      have hj := mem_range.1 hj
      rw [if_neg (show ¬ anc.length + (n * k + j) < anc.length by omega), Nat.add_sub_cancel_left, Nat.mul_add_div (by omega), Nat.div_eq_of_lt hj,
        Nat.mul_add_mod, Nat.mod_eq_of_lt hj, Nat.add_zero])
  by_cases hka : k < anc.length
  · have := key 0 (by omega) (anc.getD k 0) (hlt _ (by rw [Pairwise.getD_of_lt hka]; exact List.getElem_mem hka))
    rw [Pairwise.getD_of_lt hka] at this
    simp only [List.getElem_mem, if_true, List.Nodup.idxOf_getElem hnd] at this
    exact this
  · have hn : 0 < n := by
      rcases Nat.eq_zero_or_pos n with h | h
      · subst h; omega
      · exact h
    have hlt' : (k - anc.length) / n < p := by rw [Nat.div_lt_iff_lt_mul hn, Nat.mul_comm]; omega
    have := key ((k - anc.length) / n + 1) (by omega) ((k - anc.length) % n) (Nat.mod_lt _ hn)
    simp only [Nat.div_add_mod] at this
    rwa [show anc.length + (k - anc.length) = k by omega] at this

/-! ### The autoregression -/

/-- Least squares coefficients on independent past values are unique. -/
theorem lagLeastSquares_unique {n p T : Nat} {x : Nat → Nat → ℝ} (h : WindowIndependent n p T x)
    {A A' : Nat → Nat → Nat → ℝ} (hA : LagLeastSquares n p T A x) (hA' : LagLeastSquares n p T A' x) {i k j : Nat}
    (hi : i < n) (hk : k < p) (hj : j < n) : A k i j = A' k i j := by
  set u : Nat → ℝ := fun t => ∑ l ∈ range p, ∑ m ∈ range n, (A l i m - A' l i m) * x (t - (l + 1)) m with hu
  have h1 : ∀ k, k < p → ∀ j, j < n → ∑ t ∈ Ico p T, u t * x (t - (k + 1)) j = 0 := by
    intro k hk j hj
    have e := congrArg₂ (· - ·) (hA' i hi k hk j hj) (hA i hi k hk j hj)
    beta_reduce at e
    rw [sub_zero, ← sum_sub_distrib] at e
    rw [← e]
    refine sum_congr rfl fun t _ => ?_
    rw [← sub_mul, hu]
    simp only [sub_mul, sum_sub_distrib]
    ring
  have h2 : ∑ t ∈ Ico p T, u t * u t = 0 := by
    have e : ∀ t, u t * u t = ∑ l ∈ range p, ∑ m ∈ range n, (A l i m - A' l i m) * (u t * x (t - (l + 1)) m) := by
      intro t
      have e1 : ∀ v : ℝ, u t * v = ∑ l ∈ range p, ∑ m ∈ range n, (A l i m - A' l i m) * (v * x (t - (l + 1)) m) := by
        intro v
        rw [hu]
        beta_reduce
        rw [sum_mul]
        refine sum_congr rfl fun l _ => ?_
        rw [sum_mul]
        exact sum_congr rfl fun m _ => by ring
      exact e1 (u t)
    rw [sum_congr rfl fun t _ => e t, sum_comm]
    refine sum_eq_zero fun l hl => ?_
    rw [sum_comm]
    refine sum_eq_zero fun m hm => ?_
    rw [← mul_sum, h1 l (mem_range.1 hl) m (mem_range.1 hm), mul_zero]
  have h3 : ∀ t ∈ Ico p T, u t = 0 := fun t ht =>
    mul_self_eq_zero.1 ((sum_eq_zero_iff_of_nonneg fun t _ => mul_self_nonneg (u t)).1 h2 t ht)
  have h4 := h 0 (fun k j => if k = 0 then 0 else A (k - 1) i j - A' (k - 1) i j) (fun t ht1 ht2 => by
    rw [zero_add, sum_range_succ', sum_eq_zero (s := range n) (fun j _ => by simp), add_zero]
    exact h3 t (mem_Ico.2 ⟨ht1, ht2⟩)) (k + 1) (by omega) j hj
  simp only [Nat.add_sub_cancel, if_neg (Nat.succ_ne_zero k)] at h4
  linarith

/-- The outcome of `statsmodels` for `l` lags: least squares without intercept (`trend="n"`) and the residuals. -/
structure LsVarFit (n : Nat) (X : Data ℝ) (l : Nat) (f : VarFit ℝ) : Prop where
  lags : f.kAr = l
  length : f.coefs.length = l
  rows : f.resid.rows = X.rows - l
  resid : ∀ r, r < X.rows - l → ∀ i, i < n → f.resid.val r i = innovation n l (lagFn1 f.coefs) X.val (r + l) i
  least : LagLeastSquares n l X.rows (lagFn f.coefs) X.val

theorem lsVarFit_converts {n l : Nat} {X : Data ℝ} {c : Nat → ℝ} (hc : ∀ j, j < n → 0 < c j)
    (hw : WindowIndependent n l X.rows X.val) {f f' : VarFit ℝ} (hf : LsVarFit n X l f) (hf' : LsVarFit n (rescale c X) l f') :
    FitConverts n c f f' := by
  have hconv : ∀ k, ConvertedMatrix n c (lagFn f.coefs k) (lagFn f'.coefs k) := by
    intro k i hi j hj
    rcases Nat.lt_or_ge k l with hk | hk
    · have hls : LagLeastSquares n l X.rows (fun k i j => lagFn f'.coefs k i j * (c j / c i)) X.val := by
        intro i hi k hk j hj
        have := hf'.least i hi k hk j hj
        have e : ∀ t, ((rescale c X).val t i - ∑ l' ∈ range l, ∑ m ∈ range n,
            lagFn f'.coefs l' i m * (rescale c X).val (t - (l' + 1)) m) * (rescale c X).val (t - (k + 1)) j =
            (c i * c j) * ((X.val t i - ∑ l' ∈ range l, ∑ m ∈ range n,
              lagFn f'.coefs l' i m * (c m / c i) * X.val (t - (l' + 1)) m) * X.val (t - (k + 1)) j) := by
          intro t
          have e1 : ∑ l' ∈ range l, ∑ m ∈ range n, lagFn f'.coefs l' i m * (rescale c X).val (t - (l' + 1)) m =
              c i * ∑ l' ∈ range l, ∑ m ∈ range n, lagFn f'.coefs l' i m * (c m / c i) * X.val (t - (l' + 1)) m := by
            rw [mul_sum]
            refine sum_congr rfl fun l' _ => ?_
            rw [mul_sum]
            refine sum_congr rfl fun m _ => ?_
            have := (hc i hi).ne'
            unfold rescale
            field_simp
          rw [e1]
          unfold rescale
          ring
        rw [sum_congr rfl fun t _ => e t, ← mul_sum] at this
        rcases mul_eq_zero.1 this with h | h
        · exact absurd h (mul_pos (hc i hi) (hc j hj)).ne'
        · exact h
      have := lagLeastSquares_unique hw hf.least hls hi hk hj
      rw [this]
      have h1 := (hc i hi).ne'
      have h2 := (hc j hj).ne'
      field_simp
    · have e1 : lagFn f.coefs k = fun _ _ => 0 := by
        unfold lagFn; rw [List.getD_eq_getElem?_getD, List.getElem?_eq_none (by rw [hf.length]; exact hk)]; rfl
      have e2 : lagFn f'.coefs k = fun _ _ => 0 := by
        unfold lagFn; rw [List.getD_eq_getElem?_getD, List.getElem?_eq_none (by rw [hf'.length]; exact hk)]; rfl
      rw [e1, e2, zero_mul]
  refine ⟨by rw [hf.lags, hf'.lags], by rw [hf.length, hf'.length], hconv, by rw [hf.rows, hf'.rows]; rfl, ?_⟩
  intro r hr i hi
  rw [hf.rows] at hr
  rw [hf.resid r hr i hi, hf'.resid r hr i hi]
  exact innovation_units hc (fun k _ => hconv k) (fun s _ j _ => rfl) hi

/-! ### The information criteria -/

/-- Covariance matrix of the residuals (divisor `N`). -/
noncomputable def residCov (n N : Nat) (R : Nat → Nat → ℝ) : Matrix (Fin n) (Fin n) ℝ :=
  fun i j => (∑ r ∈ range N, R r i * R r j) / N

theorem residCov_units {n N : Nat} {c : Nat → ℝ} {R R' : Nat → Nat → ℝ} (h : Rescaled n N c R R') :
    (residCov n N R').det = (∏ i : Fin n, c i) ^ 2 * (residCov n N R).det := by
  have e : residCov n N R' = Matrix.diagonal (fun i : Fin n => c i) * residCov n N R * Matrix.diagonal (fun i : Fin n => c i) := by
    ext i j
    rw [Matrix.mul_diagonal, Matrix.diagonal_mul]
    unfold residCov
    have : ∑ r ∈ range N, R' r i * R' r j = c i * c j * ∑ r ∈ range N, R r i * R r j := by
      rw [mul_sum]
      exact sum_congr rfl fun r hr => by
        rw [h r (mem_range.1 hr) i i.2, h r (mem_range.1 hr) j j.2]; ring
    rw [this]
    ring
  rw [e, Matrix.det_mul, Matrix.det_mul, Matrix.det_diagonal]
  ring

theorem residCov_pos {n N : Nat} {R : Nat → Nat → ℝ} (hid : Identified n (fun j (r : Fin N) => R r j)) :
    0 < (residCov n N R).det := by
  rcases Nat.eq_zero_or_pos n with rfl | hn
  · simp
  have hN : 0 < N := by
    rcases Nat.eq_zero_or_pos N with rfl | h
    · have := hid (fun _ => 1) 0 (fun r => r.elim0) 0 hn
      norm_num at this
    · exact h
  set A : Matrix (Fin N) (Fin n) ℝ := fun r i => R r i with hA
  have hpd : (A.conjTranspose * A).PosDef := Matrix.PosDef.conjTranspose_mul_self A (by
    rw [← Matrix.coe_mulVecLin, injective_iff_map_eq_zero]
    intro v hv
    ext i
    have := hid (fun j => if h : j < n then v ⟨j, h⟩ else 0) 0 (fun r => by
      have h := congrFun hv r
      rw [Matrix.mulVecLin_apply] at h
      unfold Matrix.mulVec dotProduct at h
      rw [zero_add, ← Fin.sum_univ_eq_sum_range (fun j => (if h : j < n then v ⟨j, h⟩ else 0) * R r j) n]
      rw [show (0 : Fin N → ℝ) r = 0 from rfl] at h
      refine Eq.trans (sum_congr rfl fun j _ => ?_) h
      simp [hA, mul_comm]) i i.2
    simpa using this)
  have he : residCov n N R = (1 / (N : ℝ)) • (A.conjTranspose * A) := by
    ext i j
    rw [Matrix.smul_apply, Matrix.mul_apply]
    have e : ∀ r, A.conjTranspose i r = R r i := fun r => by rw [Matrix.conjTranspose_apply, star_trivial]
    simp only [e, residCov, smul_eq_mul]
    rw [← Fin.sum_univ_eq_sum_range (fun r => R r i * R r j) N]
    ring
  rw [he, Matrix.det_smul]
  exact mul_pos (pow_pos (by positivity) _) hpd.det_pos

/-- The value of the criterion for `l` lags is one of those offered: the logarithm of the determinant of the covariance matrix
plus a term that depends only on the numbers of rows, variables and lags (`aic`, `bic`, `hqic`), or its exponential times such a
term (`fpe`). -/
inductive Criterion where
  | logDet (pen : Nat → Nat → ℝ)
  | fpe (pen : Nat → Nat → ℝ)

/-- Its value for `T` rows, `l` lags and covariance matrix with determinant `d`. -/
noncomputable def Criterion.value (κ : Criterion) (T l : Nat) (d : ℝ) : ℝ :=
  match κ with
  | .logDet pen => Real.log d + pen T l
  | .fpe pen => pen T l * Real.exp (Real.log d)

/-- In other units the values of the criterion keep their order. -/
theorem criterion_units (κ : Criterion) {q : ℝ} (hq : 0 < q) :
    ∃ g : ℝ → ℝ, StrictMono g ∧ ∀ T l d, 0 < d → κ.value T l (q * d) = g (κ.value T l d) := by
  cases κ with
  | logDet pen =>
    refine ⟨fun v => Real.log q + v, fun a b h => by simpa using h, fun T l d hd => ?_⟩
    unfold Criterion.value
    simp only
    rw [Real.log_mul hq.ne' hd.ne']
    ring
  | fpe pen =>
    refine ⟨fun v => q * v, fun a b h => by simpa using (mul_lt_mul_iff_right₀ hq).2 h, fun T l d hd => ?_⟩
    unfold Criterion.value
    simp only
    rw [Real.log_mul hq.ne' hd.ne', Real.exp_add, Real.exp_log hq]
    ring

/-- C199: `VARLiNGAM` with its default parts — least squares autoregression, any of the criteria, `DirectLiNGAM` on the residuals
and the adaptive Lasso for pruning — in other units: the same exception, or the same order and number of lags and converted
matrices. -/
theorem C199_default (cfg : Direct.Config) (hlin : ∀ N, RightRegression (lin N)) (E : Env ℝ)
    (hEl : E.lingam = lassoLingam cfg lin lars E.n) (hEr : E.lasso = lassoReg lin lars) (o : Obj ℝ) (X : Data ℝ)
    {c : Nat → ℝ} (hc : ∀ j, j < E.n → 0 < c j) (hlags : o.prune = true → 1 ≤ o.lags)
    (hvar : o.arCoefs = none → ∀ l, l ≤ o.lags →
      LsVarFit E.n X l (E.var X l) ∧ LsVarFit E.n (rescale c X) l (E.var (rescale c X) l))
    (hcr : o.arCoefs = none → ∃ κ : Criterion, ∀ Y, Y = X ∨ Y = rescale c X → ∀ l, 1 ≤ l → l ≤ o.lags →
      (E.var Y l).crit = some (κ.value Y.rows l (residCov E.n (E.var Y l).resid.rows (E.var Y l).resid.val).det))
    {p : Nat} (hp : o.lags ≤ p) (hpa : ∀ Ms, o.arCoefs = some Ms → Ms.length ≤ p)
    (hw : WindowIndependent E.n p X.rows X.val) :
    (∀ e, fit E o X = .error e → fit E (convertObj c o) (rescale c X) = .error e) ∧
    ∀ o', fit E o X = .ok o' → ∃ o'' order Bs Bs', fit E (convertObj c o) (rescale c X) = .ok o'' ∧
      o'.causalOrder = some order ∧ o''.causalOrder = some order ∧ o''.lags = o'.lags ∧
      o'.adjacency = some Bs ∧ o''.adjacency = some Bs' ∧ Bs'.length = Bs.length ∧
      ∀ k, ConvertedMatrix E.n c (lagFn Bs k) (lagFn Bs' k) := by
  have hconv : o.arCoefs = none → ∀ l, l ≤ o.lags → FitConverts E.n c (E.var X l) (E.var (rescale c X) l) := fun ha l hl =>
    lsVarFit_converts hc (window_mono (by omega) hw) (hvar ha l hl).1 (hvar ha l hl).2
  have hidl : o.arCoefs = none → ∀ l, l ≤ o.lags →
      Identified E.n (fun j (r : Fin (E.var X l).resid.rows) => (E.var X l).resid.val r j) := fun ha l hl =>
    identified_of_window (window_mono (by omega) hw) _ (hvar ha l hl).1.rows fun r hr i hi =>
      (hvar ha l hl).1.resid r (by rw [(hvar ha l hl).1.rows] at hr; exact hr) i hi
  refine C199_fit E o X hc hconv ?_ ?_ ?_
  · intro ha
    obtain ⟨κ, hκ⟩ := hcr ha
    obtain ⟨g, hg, hv⟩ := criterion_units κ (q := (∏ i : Fin E.n, c i) ^ 2)
      (pow_pos (prod_pos fun (i : Fin E.n) _ => hc i i.2) 2)
    refine ⟨g, hg, fun l h1 h2 => ?_⟩
    rw [hκ _ (Or.inr rfl) l h1 h2, hκ _ (Or.inl rfl) l h1 h2, Option.map_some]
    have hf := hconv ha l h2
    rw [hf.rows, residCov_units hf.resid]
    exact congrArg some (hv _ _ _ (residCov_pos (hidl ha l h2)))
  · intro o' R ho hR
    rw [hEl]
    refine ⟨lassoLingam_units lars cfg hlin hc ?_, lassoLingam_lt lars cfg E.n R⟩
    obtain ⟨Ms, lags, R0, Bs, h1, h2, rfl⟩ := fit_ok ho
    injection hR with hR
    subst hR
    cases ha : o.arCoefs with
    | none =>
      unfold arPart at h1
      rw [ha] at h1
      simp only at h1
      split at h1
      · cases h1
      · rename_i f hf
        simp only [Except.ok.injEq, Prod.mk.injEq] at h1
        obtain ⟨_, _, rfl⟩ := h1
        obtain ⟨l, hl, rfl⟩ : ∃ l, l ≤ o.lags ∧ f = E.var X l := by
          obtain ⟨κ, hκ⟩ := hcr ha
          rcases estimateVar_units (o := o) (X := X) (X' := X) (g := id) strictMono_id (E := E) (fun l _ _ => by simp) with
            ⟨h, _⟩ | ⟨l, hl, _, h, _⟩
          · rw [h] at hf; cases hf
          · rw [h] at hf
            injection hf with hf
            exact ⟨l, hl, hf.symm⟩
        exact hidl ha l hl
    | some Ms0 =>
      obtain ⟨_, _, rfl⟩ := arPart_some ha h1
      exact identified_of_window (window_mono (hpa Ms0 ha) hw) (lagFn1 Ms0) rfl fun r _ i _ => calcResiduals_val _ _ _ _ _
  · intro hpr
    refine ⟨hlags hpr, fun o' order ho hord i hi anc post hsplit hia => ?_⟩
    rw [hEr]
    obtain ⟨Ms, lags, R0, Bs, h1, h2, rfl⟩ := fit_ok ho
    injection hord with hord
    rw [hEl] at hord
    have hnd : order.Nodup := by
      rw [← hord]
      unfold lassoLingam
      split
      · rename_i q hq
        unfold fitLasso at hq
        split at hq
        · cases hq
        · rename_i order' ho'
          split at hq
          · cases hq
          · simp only [Except.ok.injEq] at hq
            subst hq
            exact (Pairwise.fitOrder_perm ho').nodup_iff.2 List.nodup_range
      · exact List.nodup_nil
    have hlt : ∀ v ∈ order, v < E.n := by
      rw [← hord]
      exact lassoLingam_lt lars cfg E.n R0
    have hanc : anc.Nodup := by rw [hsplit] at hnd; exact (List.nodup_append.1 hnd).1
    refine lassoReg_units lars hlin (fun r _ => ?_)
      (pruneRow_independent (window_mono hp hw) hanc fun v hv => hlt v (by rw [hsplit]; exact List.mem_append_left _ hv))
    unfold pruneRow
    rw [List.length_append, List.length_map, past_len (fun k => X.val (X.rows - 1 - r - (k + 1))) E.n o.lags]

/-! ### A concrete series -/

/-- A series of two variables, seven times. -/
def unitSeries : Data ℝ := ⟨7, fun t i =>
  if i = 0 then (if t = 1 ∨ t = 5 then 1 else 0) else if t = 3 then 1 else if t = 5 then -1 else 0⟩

/-- For it and for the same series in other units the lag coefficients are zero. -/
noncomputable def unitEnv (cfg : Direct.Config) (lin : ∀ N, Lin N) (lars : ∀ N, Lars N) : Env ℝ where
  n := 2
  var := fun X l => ⟨List.replicate l (fun _ _ => 0), l, ⟨X.rows - l, fun r i => X.val (r + l) i⟩,
    some ((Criterion.logDet fun _ _ => 0).value X.rows l (residCov 2 (X.rows - l) (fun r i => X.val (r + l) i)).det)⟩
  lingam := lassoLingam cfg lin lars 2
  lasso := lassoReg lin lars

theorem unitSeries_window : WindowIndependent 2 1 7 unitSeries.val := by
  intro b0 d h k hk j hj
  have h1 := h 1 (by omega) (by omega)
  have h2 := h 2 (by omega) (by omega)
  have h3 := h 3 (by omega) (by omega)
  have h4 := h 4 (by omega) (by omega)
  have h5 := h 5 (by omega) (by omega)
  norm_num [sum_range_succ, unitSeries] at h1 h2 h3 h4 h5
  interval_cases k <;> interval_cases j <;> linarith

theorem unitEnv_ls (cfg : Direct.Config) (lin : ∀ N, Lin N) (lars : ∀ N, Lars N) (c : Nat → ℝ) {l : Nat} (hl : l ≤ 1) :
    LsVarFit 2 (rescale c unitSeries) l ((unitEnv cfg lin lars).var (rescale c unitSeries) l) where
  lags := rfl
  length := by simp [unitEnv]
  rows := rfl
  resid := by
    intro r _ i _
    have : ∀ k, lagFn1 (List.replicate l (fun _ _ => (0 : ℝ))) (k + 1) = fun _ _ => 0 := by
      intro k
      unfold lagFn1
      interval_cases l <;> cases k <;> rfl
    unfold innovation
    simp only [unitEnv, this, zero_mul, sum_const_zero, sub_zero]
  least := by
    intro i hi k hk j hj
    have : ∀ k, lagFn (List.replicate l (fun _ _ => (0 : ℝ))) k = fun _ _ => 0 := by
      intro k
      unfold lagFn
      interval_cases l <;> cases k <;> rfl
    simp only [unitEnv, this, zero_mul, sum_const_zero, sub_zero]
    have hl1 : l = 1 := by omega
    subst hl1
    have hk0 : k = 0 := by omega
    subst hk0
    rw [show (rescale c unitSeries).rows = 7 from rfl, sum_Ico_eq_sum_range]
    interval_cases i <;> interval_cases j <;> norm_num [sum_range_succ, rescale, unitSeries]

/-- The hypotheses of `C199_default` hold for this series, with pruning and the choice of lags by a criterion. -/
example (cfg : Direct.Config) : ∃ (lin : ∀ N, Lin N) (lars : ∀ N, Lars N) (o' o'' : Obj ℝ) (order : List Nat)
    (Bs Bs' : List (Nat → Nat → ℝ)),
    fit (unitEnv cfg lin lars) ⟨none, 1, true, true, none, none, none⟩ unitSeries = .ok o' ∧
    fit (unitEnv cfg lin lars) ⟨none, 1, true, true, none, none, none⟩ (rescale (fun i => i + 2) unitSeries) = .ok o'' ∧
    o'.causalOrder = some order ∧ o''.causalOrder = some order ∧ o'.adjacency = some Bs ∧ o''.adjacency = some Bs' ∧
    lagFn Bs' 0 1 0 = lagFn Bs 0 1 0 * (3 / 2) ∧ lagFn Bs' 1 0 1 = lagFn Bs 1 0 1 * (2 / 3) := by
  choose lin lars hlin _ using Pairwise.exists_oracles
  have hX : unitSeries = rescale (fun _ => 1) unitSeries := by simp [rescale, unitSeries]
  obtain ⟨_, h⟩ := C199_default lars cfg hlin (unitEnv cfg lin lars) rfl rfl ⟨none, 1, true, true, none, none, none⟩ unitSeries
    (c := fun i => i + 2) (fun j _ => by positivity) (fun _ => le_rfl)
    (fun _ l hl => ⟨by have := unitEnv_ls cfg lin lars (fun _ => 1) hl; rwa [← hX] at this, unitEnv_ls cfg lin lars _ hl⟩)
    (fun _ => ⟨.logDet fun _ _ => 0, fun Y _ l _ _ => rfl⟩) (p := 1) le_rfl (fun Ms h => by cases h) unitSeries_window
  obtain ⟨o', ho'⟩ : ∃ o', fit (unitEnv cfg lin lars) ⟨none, 1, true, true, none, none, none⟩ unitSeries = .ok o' := by
    simp [fit, arPart, estimateVar, better, unitEnv, lagMatrices, pruning, calcB]
  obtain ⟨o'', order, Bs, Bs', h1, h2, h3, h4, h5, h6, h7, h8⟩ := h o' ho'
  refine ⟨lin, lars, o', o'', order, Bs, Bs', ho', h1, h2, h3, h5, h6, ?_, ?_⟩
  · have := h8 0 1 (by show 1 < 2; omega) 0 (by show 0 < 2; omega)
    rw [this]; norm_num
  · have := h8 1 0 (by show 0 < 2; omega) 1 (by show 1 < 2; omega)
    rw [this]; norm_num

end Reals

end Verif.Var
