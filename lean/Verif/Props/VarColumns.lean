import Verif.Props.VarUnits
import Verif.Props.GroupColumns
import Verif.Props.LassoColumns

/-!
# The order of the columns in VARLiNGAM (C220)
-/
set_option linter.unusedSectionVars false
set_option autoImplicit false
namespace Verif.Var
open Finset
open Verif.Paths (Err)
open Verif.Pairwise (rearranges_lt rearranges_inj rearranges_surj sum_rearranged)

section General
variable {K : Type} [Field K] [LinearOrder K] [IsStrictOrderedRing K]

/-- The same series with its columns in another order. -/
def reorder (π : Nat → Nat) (X : Data K) : Data K := ⟨X.rows, fun t i => X.val t (π i)⟩

/-- The same object, with given autoregressive coefficients in the order of the columns. -/
def reorderObj (π : Nat → Nat) (o : Obj K) : Obj K :=
  { o with arCoefs := o.arCoefs.map (fun Ms => Ms.map (fun M i j => M (π i) (π j))) }

/-- `B'` is the matrix `B` with its variables in another order. -/
def ReorderedMatrix (n : Nat) (π : Nat → Nat) (B B' : Nat → Nat → K) : Prop := ∀ i, i < n → ∀ j, j < n → B' i j = B (π i) (π j)

/-- The outcomes `f` and `f'` of a VAR estimation say the same of differently ordered columns. -/
structure FitReorders (n : Nat) (π : Nat → Nat) (f f' : VarFit K) : Prop where
  lags : f'.kAr = f.kAr
  length : f'.coefs.length = f.coefs.length
  coefs : ∀ k, ReorderedMatrix n π (lagFn f.coefs k) (lagFn f'.coefs k)
  rows : f'.resid.rows = f.resid.rows
  resid : ∀ r, r < f.resid.rows → ∀ i, i < n → f'.resid.val r i = f.resid.val r (π i)

/-- The LiNGAM method `lingam'` (for example with reordered prior knowledge) gives for `D` with its columns in another order the same
order and coefficients as `lingam` for `D`. -/
def LingamReorders (n : Nat) (π : Nat → Nat) (lingam lingam' : Data K → List Nat × (Nat → Nat → K)) (D : Data K) : Prop :=
  ∀ D' : Data K, D'.rows = D.rows → (∀ r, r < D.rows → ∀ i, i < n → D'.val r i = D.val r (π i)) →
    (lingam' D').1.map π = (lingam D).1 ∧ (∀ v ∈ (lingam' D').1, v < n) ∧ ReorderedMatrix n π (lingam D).2 (lingam' D').2

/-- The regression with selection gives the same result for this design with its columns in another order. -/
def RegressionReorders (reg : Nat → (Nat → List K) → (Nat → K) → Nat → K) (N w : Nat) (rows : Nat → List K) (y : Nat → K) : Prop :=
  ∀ (rows' : Nat → List K) (y' : Nat → K) (σ : Nat → Nat), Rearranges w σ → (∀ r, r < N → y' r = y r) →
    (∀ r, r < N → (rows' r).length = w) → (∀ r, r < N → ∀ k, k < w → (rows' r).getD k 0 = (rows r).getD (σ k) 0) →
    ∀ k, k < w → reg N rows' y' k = reg N rows y (σ k)

theorem lagFn_map_reorder (π : Nat → Nat) (Ms : List (Nat → Nat → K)) (k i j : Nat) :
    lagFn (Ms.map (fun M i j => M (π i) (π j))) k i j = lagFn Ms k (π i) (π j) := by
  unfold lagFn
  simp only [List.getD_eq_getElem?_getD, List.getElem?_map]
  cases Ms[k]? <;> simp

theorem innovation_reordered {n p : Nat} {π : Nat → Nat} (hπ : Rearranges n π) {M M' : Nat → Nat → Nat → K}
    {x x' : Nat → Nat → K} {t : Nat} (hM : ∀ k, k < p → ReorderedMatrix n π (M (k + 1)) (M' (k + 1)))
    (hx : ∀ s, s ≤ t → ∀ j, j < n → x' s j = x s (π j)) {i : Nat} (hi : i < n) :
    innovation n p M' x' t i = innovation n p M x t (π i) := by
  unfold innovation
  rw [hx t le_rfl i hi]
  congr 1
  refine sum_congr rfl fun k hk => ?_
  rw [← sum_rearranged hπ fun j => M (k + 1) (π i) j * x (t - (k + 1)) j]
  refine sum_congr rfl fun j hj => ?_
  have hj := mem_range.1 hj
  rw [hM k (mem_range.1 hk) i hi j hj, hx _ (by omega) j hj]

theorem mm_reordered {n : Nat} {π : Nat → Nat} (hπ : Rearranges n π) {A A' B B' : Nat → Nat → K}
    (hA : ReorderedMatrix n π A A') (hB : ReorderedMatrix n π B B') : ReorderedMatrix n π (mm n A B) (mm n A' B') := by
  intro i hi j hj
  unfold mm
  rw [← sum_rearranged hπ fun k => A (π i) k * B k (π j)]
  refine sum_congr rfl fun k hk => ?_
  have hk := mem_range.1 hk
  rw [hA i hi k hk, hB k hk j hj]

theorem oneSub_reordered {n : Nat} {π : Nat → Nat} (hπ : Rearranges n π) {A A' : Nat → Nat → K}
    (hA : ReorderedMatrix n π A A') : ReorderedMatrix n π (oneSub A) (oneSub A') := by
  intro i hi j hj
  unfold oneSub
  rw [hA i hi j hj]
  congr 1
  by_cases h : i = j
  · rw [if_pos h, if_pos (by rw [h])]
  · rw [if_neg h, if_neg fun e => h (rearranges_inj hπ hi hj e)]

/-- The order of the columns of the pruning regression. -/
def rowOrder (n m : Nat) (π : Nat → Nat) (k : Nat) : Nat := if k < m then k else m + (n * ((k - m) / n) + π ((k - m) % n))

theorem rowOrder_rearranges {n m p : Nat} {π : Nat → Nat} (hπ : Rearranges n π) : Rearranges (m + n * p) (rowOrder n m π) := by
  have hn : ∀ k, m ≤ k → k < m + n * p → 0 < n := fun k h1 h2 => by
    rcases Nat.eq_zero_or_pos n with h | h
    · subst h; omega
    · exact h
  have hlt : ∀ k, k < m + n * p → rowOrder n m π k < m + n * p := fun k hk => by
    unfold rowOrder
    split
    · exact hk
    · rename_i h
      have hn := hn k (by omega) hk
      have h1 := rearranges_lt hπ (Nat.mod_lt (k - m) hn)
      have h2 : (k - m) / n < p := by rw [Nat.div_lt_iff_lt_mul hn, Nat.mul_comm]; omega
      have h3 : n * ((k - m) / n + 1) ≤ n * p := Nat.mul_le_mul_left _ h2
      rw [Nat.mul_succ] at h3
      omega
  have hinj : ∀ j k, j < m + n * p → k < m + n * p → rowOrder n m π j = rowOrder n m π k → j = k := fun j k hj hk e => by
    unfold rowOrder at e
    split at e
    · split at e
      · exact e
      · omega
    · rename_i h
      split at e
      · omega
      · rename_i h'
        have hn := hn k (by omega) hk
        have e := Nat.add_left_cancel e
        have h1 := rearranges_lt hπ (Nat.mod_lt (j - m) hn)
        have h2 := rearranges_lt hπ (Nat.mod_lt (k - m) hn)
        have hd : (j - m) / n = (k - m) / n := by
          have := congrArg (· / n) e
          simpa [Nat.mul_add_div hn, Nat.div_eq_of_lt h1, Nat.div_eq_of_lt h2] using this
        have hm : (j - m) % n = (k - m) % n := by
          have := congrArg (· % n) e
          simp only [Nat.mul_add_mod, Nat.mod_eq_of_lt h1, Nat.mod_eq_of_lt h2] at this
          exact rearranges_inj hπ (Nat.mod_lt _ hn) (Nat.mod_lt _ hn) this
        have e1 := Nat.div_add_mod (j - m) n
        have e2 := Nat.div_add_mod (k - m) n
        rw [hd, hm] at e1
        omega
  unfold Rearranges
  refine (List.subperm_of_subset (List.Nodup.map_on (fun j hj k hk e => hinj j k (List.mem_range.1 hj) (List.mem_range.1 hk) e) List.nodup_range)
    fun k hk => ?_).perm_of_length_le (by simp)
  obtain ⟨j, hj, rfl⟩ := List.mem_map.1 hk
  exact List.mem_range.2 (hlt j (List.mem_range.1 hj))

theorem idxOf_reordered {n : Nat} {π : Nat → Nat} (hπ : Rearranges n π) {i : Nat} (hi : i < n) : ∀ {l : List Nat}, (∀ v ∈ l, v < n) →
    (l.map π).idxOf (π i) = l.idxOf i
  | [], _ => rfl
  | a :: l, h => by
    have ih := idxOf_reordered hπ hi (l := l) fun v hv => h v (List.mem_cons_of_mem _ hv)
    by_cases e : a = i
    · subst e
      simp
    · rw [List.map_cons, List.idxOf_cons_ne _ e, List.idxOf_cons_ne _ fun h' => e (rearranges_inj hπ (h a List.mem_cons_self) hi h'), ih]

/-- The regression of one variable with the columns in another order. -/
theorem prunedRow_reordered {n lags : Nat} {reg : Lasso K} {X : Data K} {π : Nat → Nat} (hπ : Rearranges n π) {order' : List Nat}
    (hlt : ∀ v ∈ order', v < n) {i : Nat} (hi : i < n)
    (hreg : RegressionReorders reg (X.rows - lags) (order'.idxOf i + n * lags)
      (pruneRow n lags X.rows ((order'.map π).take (order'.idxOf i)) X.val) (fun r => X.val (X.rows - 1 - r) (π i))) (hl : 1 ≤ lags) {k : Nat}
    (hk : k < order'.idxOf i + n * lags) :
    prunedRow n reg (reorder π X) lags order' i k = prunedRow n reg X lags (order'.map π) (π i) (rowOrder n (order'.idxOf i) π k) := by
  have hidx := idxOf_reordered hπ hi hlt
  set m := order'.idxOf i with hm
  have hmle : m ≤ order'.length := List.idxOf_le_length
  set anc' := order'.take m with hanc'
  set anc := (order'.map π).take m with hanc
  have hla : anc.length = m := by rw [hanc, List.length_take, List.length_map]; omega
  have hla' : anc'.length = m := by rw [hanc', List.length_take]; omega
  have hnb : nBlocks X lags = X.rows - lags := by unfold nBlocks; rw [if_neg (by omega)]
  have hnb' : nBlocks (reorder π X) lags = X.rows - lags := by unfold nBlocks; rw [if_neg (by omega)]; rfl
  have hrow0 : ∀ r, r < X.rows - lags → expLoop n X lags anc r = expRow n X lags anc r :=
    fun r hr => expLoop_eq _ _ _ _ (by omega)
  have hrow : ∀ r, r < X.rows - lags → expLoop n X lags anc r = pruneRow n lags X.rows anc X.val r := by
    intro r hr
    rw [hrow0 r hr]
    unfold expRow pruneRow
    congr 1
    · apply List.map_congr_left
      intro j _
      rw [stacked_eq (by omega)]
      rfl
    · apply List.flatMap_congr
      intro k hk
      rw [List.mem_range] at hk
      apply List.map_congr_left
      intro j _
      rw [stacked_eq (by omega)]
  have hrow' : ∀ r, r < X.rows - lags → expLoop n (reorder π X) lags anc' r = expRow n (reorder π X) lags anc' r :=
    fun r hr => expLoop_eq _ _ _ _ (by omega)
  have hobj : ∀ j r, r < X.rows - lags → objVec X j r = X.val (X.rows - 1 - r) j := by
    intro j r hr
    unfold objVec
    rw [stacked_eq (by omega)]
    rfl
  have hid : Rearranges (m + n * lags) id := by unfold Rearranges; simp
  have h1 : ∀ k, k < m + n * lags → reg (X.rows - lags) (expLoop n X lags anc) (objVec X (π i)) k = _ :=
    hreg (expLoop n X lags anc) (objVec X (π i)) id hid (fun r hr => hobj _ r hr)
    (fun r hr => by rw [hrow0 r hr, expRow_length, hla])
    (fun r hr k _ => by rw [hrow r hr]; rfl)
  have h2 := hreg (expLoop n (reorder π X) lags anc') (objVec (reorder π X) i) (rowOrder n m π) (rowOrder_rearranges hπ)
    (fun r hr => by beta_reduce; rw [← hobj _ r hr]; rfl) (fun r hr => by rw [hrow' r hr, expRow_length, hla'])
    (fun r hr k hk => by
      rw [← hrow r hr, hrow' r hr, hrow0 r hr, expRow_getD _ _ _ _ _ (by rw [hla']; exact hk),
        expRow_getD _ _ _ _ _ (by rw [hla]; exact rearranges_lt (rowOrder_rearranges hπ) hk), hla, hla']
      unfold rowOrder
      by_cases hkm : k < m
      · rw [if_pos hkm, if_pos hkm, if_pos hkm]
        show X.val _ (π _) = X.val _ _
        congr 1
        have e : anc.getD k 0 = π (anc'.getD k 0) := by
          rw [hanc, ← List.map_take, ← hanc', Pairwise.list_getD_map π anc' (by omega) 0 0]
        rw [e]
      · have hn : 0 < n := by
          rcases Nat.eq_zero_or_pos n with h | h
          · subst h; omega
          · exact h
        have hpm := rearranges_lt hπ (Nat.mod_lt (k - m) hn)
        rw [if_neg hkm, if_neg hkm, if_neg (by omega), Nat.add_sub_cancel_left, Nat.mul_add_div hn, Nat.div_eq_of_lt hpm, Nat.mul_add_mod,
          Nat.mod_eq_of_lt hpm, Nat.add_zero]
        rfl) k hk
  unfold prunedRow
  rw [hidx, hnb, hnb', ← hanc, ← hanc', h2, h1 _ (rearranges_lt (rowOrder_rearranges hπ) hk)]
  rfl

/-- C220, for any VAR estimation, LiNGAM method and selection that follow the columns on the data at hand: `fit` on the same series with
its columns in another order gives the same exception, or the same order of the variables, number of lags and coefficients. -/
theorem C220_fit_partial (E : Env K) (lingam' : Data K → List Nat × (Nat → Nat → K)) (o : Obj K) (X : Data K) {π : Nat → Nat} (hπ : Rearranges E.n π)
    (hvar : o.arCoefs = none → ∀ l, l ≤ o.lags → FitReorders E.n π (E.var X l) (E.var (reorder π X) l))
    (hcr : o.arCoefs = none → ∀ l, 1 ≤ l → l ≤ o.lags → (E.var (reorder π X) l).crit = (E.var X l).crit)
    (hling : ∀ o' R, fit E o X = .ok o' → o'.residuals = some R → LingamReorders E.n π E.lingam lingam' R)
    (hreg : o.prune = true → 1 ≤ o.lags ∧ ∀ o' order, fit E o X = .ok o' → o'.causalOrder = some order →
      ∀ i, i < E.n → ∀ anc post, order = anc ++ post → i ∉ anc → RegressionReorders E.lasso (X.rows - o.lags) (anc.length + E.n * o.lags)
        (pruneRow E.n o.lags X.rows anc X.val) (fun r => X.val (X.rows - 1 - r) i)) :
    (∀ e, fit E o X = .error e → fit { E with lingam := lingam' } (reorderObj π o) (reorder π X) = .error e) ∧
    ∀ o', fit E o X = .ok o' → ∃ o'' order order' Bs Bs', fit { E with lingam := lingam' } (reorderObj π o) (reorder π X) = .ok o'' ∧
      o'.causalOrder = some order ∧ o''.causalOrder = some order' ∧ order'.map π = order ∧ o''.lags = o'.lags ∧
      o'.adjacency = some Bs ∧ o''.adjacency = some Bs' ∧ Bs'.length = Bs.length ∧
      ∀ k, ReorderedMatrix E.n π (lagFn Bs k) (lagFn Bs' k) := by
  set E' : Env K := { E with lingam := lingam' } with hE'
  -- the autoregressive part
  have har : (∀ e, arPart E o X = .error e → arPart E' (reorderObj π o) (reorder π X) = .error e) ∧
      ∀ Ms lags R, arPart E o X = .ok (Ms, lags, R) → ∃ Ms' R', arPart E' (reorderObj π o) (reorder π X) = .ok (Ms', lags, R') ∧
        Ms'.length = Ms.length ∧ (∀ k, ReorderedMatrix E.n π (lagFn Ms k) (lagFn Ms' k)) ∧ R'.rows = R.rows ∧
        ∀ r, r < R.rows → ∀ i, i < E.n → R'.val r i = R.val r (π i) := by
    cases ha : o.arCoefs with
    | none =>
      have he : ∀ Y, estimateVar E' (reorderObj π o) Y = estimateVar E o Y := fun Y => rfl
      have ha' : (reorderObj π o).arCoefs = none := by simp [reorderObj, ha]
      unfold arPart
      rw [ha, ha', he]
      simp only
      rcases estimateVar_units (E := E) (o := o) (X := X) (X' := reorder π X) strictMono_id (fun l h1 h2 => by rw [hcr ha l h1 h2]; simp) with
        ⟨h1, h2⟩ | ⟨l, hl, _, h1, h2⟩
      · rw [h1, h2]
        exact ⟨fun e h => h, fun Ms lags R h => by cases h⟩
      · rw [h1, h2]
        refine ⟨fun e h => (by cases h), fun Ms lags R h => ?_⟩
        simp only [Except.ok.injEq, Prod.mk.injEq] at h
        obtain ⟨rfl, rfl, rfl⟩ := h
        have hf := hvar ha l hl
        exact ⟨(E.var (reorder π X) l).coefs, (E.var (reorder π X) l).resid, by simp only [hf.lags], hf.length, hf.coefs, hf.rows, hf.resid⟩
    | some Ms0 =>
      have ha' : (reorderObj π o).arCoefs = some (Ms0.map (fun M i j => M (π i) (π j))) := by simp [reorderObj, ha]
      unfold arPart
      rw [ha, ha']
      refine ⟨fun e h => (by cases h), fun Ms lags R h => ?_⟩
      simp only [Except.ok.injEq, Prod.mk.injEq] at h
      obtain ⟨rfl, rfl, rfl⟩ := h
      refine ⟨_, calcResiduals E.n (reorder π X) (Ms0.map (fun M i j => M (π i) (π j))) Ms0.length,
        by simp only [List.length_map]; rfl, by simp, fun k i _ j _ => lagFn_map_reorder π Ms0 k i j, rfl, ?_⟩
      intro r hr i hi
      have hlen : (Ms0.map (fun M i j => M (π i) (π j))).length = Ms0.length := by simp
      have := calcResiduals_val E.n (reorder π X) (Ms0.map (fun M i j => M (π i) (π j))) r i
      rw [hlen] at this
      rw [this, calcResiduals_val]
      exact innovation_reordered hπ (fun k _ i _ j _ => lagFn_map_reorder π Ms0 k i j) (fun s _ j _ => rfl) hi
  have hpe : (reorderObj π o).prune = o.prune := rfl
  have hle : (reorderObj π o).lags = o.lags := rfl
  have hne : E'.n = E.n := rfl
  constructor
  · intro e h
    unfold fit at h ⊢
    split at h
    · rename_i e' he
      rw [har.1 e' he]
      exact h
    · rename_i Ms lags R hR
      obtain ⟨Ms', R', h1, h2, h3, h4, h5⟩ := har.2 Ms lags R hR
      rw [h1]
      simp only
      split at h
      · rename_i e' he
        have : ∀ Y (M : List (Nat → Nat → K)) order B0, M.length = Ms.length →
            lagMatrices E' (reorderObj π o) Y M order B0 = .error e' := by
          intro Y M order B0 hM
          unfold lagMatrices at he ⊢
          rw [hpe]
          split at he
          · rename_i hp
            rw [if_pos hp]
            unfold pruning at he ⊢
            rw [calcB_length] at he ⊢
            rw [hM, hle, hne]
            split at he
            · rename_i hcond
              rw [if_pos hcond]
              exact he
            · cases he
          · cases he
        rw [this _ _ _ _ h2]
        exact h
      · cases h
  · intro o' h
    obtain ⟨Ms, lags, R, Bs, hR, hB, rfl⟩ := fit_ok h
    obtain ⟨Ms', R', h1, h2, h3, h4, h5⟩ := har.2 Ms lags R hR
    obtain ⟨hord, hlt, hmat⟩ := hling _ R h rfl R' h4 h5
    obtain ⟨Bs', hB'⟩ : ∃ Bs', lagMatrices E' (reorderObj π o) (reorder π X) Ms' (E'.lingam R').1 (E'.lingam R').2 = .ok Bs' := by
      unfold lagMatrices at hB ⊢
      rw [hpe]
      split at hB
      · rename_i hp
        rw [if_pos hp]
        unfold pruning at hB ⊢
        rw [calcB_length] at hB ⊢
        rw [h2, hle, hne]
        split at hB
        · cases hB
        · rename_i hcond
          rw [if_neg hcond]
          exact ⟨_, rfl⟩
      · rename_i hp
        rw [if_neg hp]
        exact ⟨_, rfl⟩
    have hfit : fit E' (reorderObj π o) (reorder π X) = .ok { reorderObj π o with
        arCoefs := some Ms', lags := lags, residuals := some R', causalOrder := some (E'.lingam R').1, adjacency := some Bs' } := by
      unfold fit
      rw [h1]
      simp only [hB']
    refine ⟨_, (E.lingam R).1, (E'.lingam R').1, Bs, Bs', hfit, rfl, rfl, hord, rfl, rfl, rfl, ?_, ?_⟩
    · rw [(lagMatrices_ok hB).1, (lagMatrices_ok hB').1, h2]
    obtain ⟨hlen, hz, hk⟩ := lagMatrices_ok hB
    obtain ⟨hlen', hz', hk'⟩ := lagMatrices_ok hB'
    rw [hpe, hle] at hz' hk'
    change ∀ v ∈ (E'.lingam R').1, v < E.n at hlt
    change (E'.lingam R').1.map π = _ at hord
    set L' := (E'.lingam R').1 with hL'
    rw [← hord] at hz hk
    -- what the pruning regression gives
    have hpr : o.prune = true → ∀ i, i < E.n → ∀ k, k < L'.idxOf i + E.n * o.lags →
        prunedRow E.n E.lasso (reorder π X) o.lags L' i k = prunedRow E.n E.lasso X o.lags (L'.map π) (π i) (rowOrder E.n (L'.idxOf i) π k) := by
      intro hp i hi k hk
      obtain ⟨hl1, hreg⟩ := hreg hp
      have hrg := hreg _ _ h rfl (π i) (rearranges_lt hπ hi) ((L'.map π).take (L'.idxOf i)) ((L'.map π).drop (L'.idxOf i))
        (by rw [List.take_append_drop, hord]) ?_
      · rw [List.length_take, List.length_map, Nat.min_eq_left List.idxOf_le_length] at hrg
        exact prunedRow_reordered hπ hlt hi hrg hl1 hk
      · intro hmem
        rw [← idxOf_reordered hπ hi hlt] at hmem
        obtain ⟨k, hk, hke⟩ := List.getElem_of_mem hmem
        rw [List.getElem_take] at hke
        rw [List.length_take] at hk
        have h1 : k < (L'.map π).idxOf (π i) := by omega
        have := List.not_of_lt_findIdx (xs := L'.map π) (p := fun a => a == π i) h1
        simp [hke] at this
    have htl : ∀ i, i < E.n → (L'.take (L'.idxOf i)).map π = (L'.map π).take ((L'.map π).idxOf (π i)) := by
      intro i hi
      rw [idxOf_reordered hπ hi hlt, List.map_take]
    have hlt2 : ∀ i, ∀ v ∈ L'.take (L'.idxOf i), v < E.n := fun i v hv => hlt v (List.mem_of_mem_take hv)
    intro k i hi j hj
    rcases Nat.lt_or_ge k (Ms.length + 1) with hkl | hkl
    · cases k with
      | zero =>
        rw [hz _ (rearranges_lt hπ hi), hz' i hi j, ← htl i hi]
        have hmem : π j ∈ (L'.take (L'.idxOf i)).map π ↔ j ∈ L'.take (L'.idxOf i) := by
          rw [List.mem_map]
          constructor
          · rintro ⟨a, ha, e⟩
            rw [← rearranges_inj hπ (hlt2 i a ha) hj e]
            exact ha
          · exact fun h => ⟨j, h, rfl⟩
        by_cases hcond : o.prune = true ∧ j ∈ L'.take (L'.idxOf i)
        · rw [if_pos hcond, if_pos ⟨hcond.1, hmem.2 hcond.2⟩]
          have hpos := List.idxOf_lt_length_iff.2 hcond.2
          rw [List.length_take, Nat.min_eq_left List.idxOf_le_length] at hpos
          rw [hpr hcond.1 i hi _ (by omega), idxOf_reordered hπ hj (hlt2 i)]
          unfold rowOrder
          rw [if_pos hpos]
        · rw [if_neg hcond, if_neg fun h => hcond ⟨h.1, hmem.1 h.2⟩]
          exact hmat i hi j hj
      | succ k =>
        rw [hk _ (rearranges_lt hπ hi) k (by omega), hk' i hi k (by omega)]
        split
        · rename_i hp
          have hls : Ms.length ≤ o.lags := by
            unfold lagMatrices pruning at hB
            rw [if_pos hp, calcB_length] at hB
            split at hB
            · cases hB
            · rename_i hcond
              by_contra hcon
              exact hcond ⟨by omega, by omega⟩
          have hb : E.n * k + j < E.n * o.lags := by
            have : E.n * (k + 1) ≤ E.n * o.lags := Nat.mul_le_mul_left _ (by omega)
            rw [Nat.mul_succ] at this
            omega
          refine (hpr hp i hi (L'.idxOf i + E.n * k + j) (by omega)).trans ?_
          rw [idxOf_reordered hπ hi hlt]
          unfold rowOrder
          rw [if_neg (by omega), Nat.add_assoc, Nat.add_sub_cancel_left, Nat.mul_add_mod, Nat.mod_eq_of_lt hj, Nat.mul_add_div (by omega),
            Nat.div_eq_of_lt hj, Nat.add_zero, Nat.add_assoc]
        · exact mm_reordered hπ (oneSub_reordered hπ hmat) (h3 k) i hi j hj
    · have e1 : lagFn Bs k = fun _ _ => 0 := by
        unfold lagFn; rw [List.getD_eq_getElem?_getD, List.getElem?_eq_none (by omega)]; rfl
      have e2 : lagFn Bs' k = fun _ _ => 0 := by
        unfold lagFn; rw [List.getD_eq_getElem?_getD, List.getElem?_eq_none (by omega)]; rfl
      rw [e1, e2]

end General

section Reals
open Verif.Pairwise (Lin Lars fitLasso predict)
open Verif.GroupData (reorderCfg Requires)

variable {lin : ∀ N, Lin N} {lars : ∀ N, Lars N}

theorem joint_congr {pre : Nat → Nat → Prop} {N : Nat} {U l : List Nat} {x x' : Nat → Fin N → ℝ} (he : ∀ i ∈ U, x' i = x i)
    (hj : JointOrder pre [⟨N, x⟩] U l) : JointOrder pre [⟨N, x'⟩] U l := by
  have hp : ∀ i ∈ U, jointPenalty [⟨N, x'⟩] U i = jointPenalty [⟨N, x⟩] U i := by
    intro i hi
    unfold jointPenalty
    simp only [List.map_cons, List.map_nil]
    congr 4
    unfold penalty
    rw [he i hi]
    congr 1
    refine List.map_congr_left fun j hj => ?_
    rw [he j (List.mem_filter.1 hj).1]
  cases hj with
  | nil => exact .nil _
  | @cons _ ds' _ l m hm allowed best res rest =>
    refine .cons hm allowed (fun i hi hne ha => by rw [hp m hm, hp i hi]; exact best i hi hne ha) ?_ rest
    cases res with
    | cons h hs =>
      cases hs
      obtain ⟨N', y, y', e1, rfl, h3⟩ := h
      cases e1
      exact .cons ⟨N, x', y', rfl, rfl, fun i hi hne => by rw [he i hi, he m hm]; exact h3 i hi hne⟩ .nil

/-- `DirectLiNGAM` on data with independent columns and a unique order follows the columns. -/
theorem lassoLingam_reorders {cfg : Direct.Config} (hard : cfg.pk ≠ none → cfg.soft = false) {n : Nat} {π : Nat → Nat} (hπ : Rearranges n π)
    (hfix : ∀ j, n ≤ j → π j = j) {D : Data ℝ} (hN : D.rows ≠ 0) (hid : Identified n (fun j (r : Fin D.rows) => D.val r j)) {l : List Nat}
    (hj : JointOrder (Requires cfg n) [⟨D.rows, fun j r => D.val r j⟩] (List.range n) l) :
    LingamReorders n π (lassoLingam cfg lin lars n) (lassoLingam (reorderCfg π cfg) lin lars n) D := by
  intro D' hrows hres
  obtain ⟨N, v⟩ := D
  obtain ⟨N', v'⟩ := D'
  simp only at hrows hres hid hN hj
  subst hrows
  have hid' : Identified n (fun j (r : Fin N') => if j < n then v r j else 0) := by
    intro b b0 h
    refine hid b b0 fun r => ?_
    rw [← h r]
    congr 1
    refine sum_congr rfl fun j hj => ?_
    beta_reduce
    rw [if_pos (mem_range.1 hj)]
  have hj' : JointOrder (Requires cfg n) [⟨N', fun j r => if j < n then v r j else 0⟩] (List.range n) l :=
    joint_congr (fun i hi => by funext r; rw [if_pos (List.mem_range.1 hi)]) hj
  obtain ⟨h1, h2⟩ := GroupData.C215_single_partial hard hN (lin N') (lars N') hπ hid' hj'
  have he : (fun j (r : Fin N') => if π j < n then v r (π j) else 0) = fun j (r : Fin N') => if j < n then v' r j else 0 := by
    funext j r
    by_cases h : j < n
    · rw [if_pos (rearranges_lt hπ h), if_pos h, hres r r.2 j h]
    · rw [hfix j (by omega), if_neg h, if_neg h]
  rw [he] at h1 h2
  refine ⟨?_, lassoLingam_lt lars _ n _, ?_⟩
  all_goals
    unfold lassoLingam
    simp only
    cases hf : fitLasso cfg (lin N') (lars N') n (fun j (r : Fin N') => if j < n then v r j else 0) with
    | error e => rw [h1 e hf]; first | rfl | exact fun _ _ _ _ => rfl
    | ok q =>
      obtain ⟨o', B', h3, h4, h5⟩ := h2 q.1 q.2 hf
      rw [h3]
      first | exact h4 | exact fun i hi j hj => h5 i j hi hj

theorem zscores_independent {N : Nat} (hN : N ≠ 0) {X : Nat → Fin N → ℝ} {ps : List Nat} (hi : IndependentCols (ps.map X)) :
    IndependentCols (ps.map fun p => zscore (X p)) := by
  have := Pairwise.independent_units (cols := ps.map X) (cols' := ps.map fun p => Pairwise.scaled (X p)) (by simp)
    (s := fun k => Pairwise.scale (X (ps.getD k 0))) (a := fun k => Pairwise.mean (X (ps.getD k 0)))
    (fun k hk r => by
      have hk : k < ps.length := by simpa using hk
      rw [Pairwise.col_get X hk, Pairwise.scaled_get X hk]
      exact Pairwise.scaled_eq _ r) (fun k _ => Pairwise.scale_ne _) hi
  simpa only [Pairwise.scaled_eq_zscore hN] using this

theorem lassoReg_reorders (hlin : ∀ N, RightRegression (lin N))
    (hlars : ∀ N cols, IndependentCols cols → ∀ d y, TreatsAlike (lars N) (multiplied d cols) y) {N w : Nat} {rows : Nat → List ℝ} {y : Nat → ℝ}
    (hw : ∀ r, r < N → (rows r).length = w)
    (hi : IndependentCols ((List.range w).map (fun k (r : Fin N) => (rows r).getD k 0))) :
    RegressionReorders (lassoReg lin lars) N w rows y := by
  intro rows' y' σ hσ hy hlen hrow k hk
  have hN : 0 < N := by
    rcases Nat.eq_zero_or_pos N with h | h
    · subst h
      have := hi 0 (fun _ => 1) (fun r => r.elim0) k (by simpa using hk)
      norm_num at this
    · exact h
  unfold lassoReg
  rw [hw 0 hN, hlen 0 hN]
  have hi' : IndependentCols ((List.range w).map (fun j (r : Fin N) => if j < w then (rows r).getD j 0 else y r)) := by
    rwa [List.map_congr_left (g := fun k (r : Fin N) => (rows r).getD k 0) fun j hj => by
      funext r
      rw [if_pos (List.mem_range.1 hj)]]
  have hg : ∀ j, j < w → (List.range w).getD j 0 = j := fun j hj => by
    rw [Pairwise.getD_of_lt (by simpa using hj), List.getElem_range]
  refine Pairwise.C219_order (hlin N) _ _ (List.range w) (List.range w) w w σ (by simpa using hσ) rfl (fun j hj => ?_) ?_ hi'
    (fun d => hlars N _ (zscores_independent hN.ne' hi') d _) k (by simpa using hk)
  · have hj : j < w := by simpa using hj
    have hs := rearranges_lt hσ hj
    rw [hg j hj, hg _ hs]
    funext r
    rw [if_pos hj, if_pos hs, hrow r r.2 j hj]
  · funext r
    rw [if_neg (lt_irrefl w), if_neg (lt_irrefl w), hy r r.2]

theorem lsVarFit_reorders {n l : Nat} {X : Data ℝ} {π : Nat → Nat} (hπ : Rearranges n π)
    (hw : WindowIndependent n l X.rows X.val) {f f' : VarFit ℝ} (hf : LsVarFit n X l f) (hf' : LsVarFit n (reorder π X) l f') :
    FitReorders n π f f' := by
  have hconv : ∀ k, ReorderedMatrix n π (lagFn f.coefs k) (lagFn f'.coefs k) := by
    intro k i hi j hj
    rcases Nat.lt_or_ge k l with hk | hk
    · -- the inverse order
      have hex : ∀ k, ∃ j, k < n → j < n ∧ π j = k := fun k => by
        by_cases hk : k < n
        · obtain ⟨j, h1, h2⟩ := rearranges_surj hπ hk
          exact ⟨j, fun _ => ⟨h1, h2⟩⟩
        · exact ⟨0, fun h => absurd h hk⟩
      choose τ hτ using hex
      have hτπ : ∀ k, k < n → τ (π k) = k := fun k hk => by
        have := hτ (π k) (rearranges_lt hπ hk)
        exact rearranges_inj hπ this.1 hk this.2
      have hls : LagLeastSquares n l X.rows (fun k i j => lagFn f'.coefs k (τ i) (τ j)) X.val := by
        intro i hi k hk j hj
        have := hf'.least (τ i) (hτ i hi).1 k hk (τ j) (hτ j hj).1
        refine Eq.trans (sum_congr rfl fun t _ => ?_) this
        show _ = (X.val t (π (τ i)) - ∑ l' ∈ range l, ∑ m ∈ range n, lagFn f'.coefs l' (τ i) m * X.val (t - (l' + 1)) (π m)) * X.val (t - (k + 1)) (π (τ j))
        rw [(hτ i hi).2, (hτ j hj).2]
        congr 2
        refine sum_congr rfl fun l' _ => ?_
        rw [← sum_rearranged hπ]
        exact sum_congr rfl fun m hm => by beta_reduce; rw [hτπ m (mem_range.1 hm)]
      have := lagLeastSquares_unique hw hf.least hls (rearranges_lt hπ hi) hk (rearranges_lt hπ hj)
      rw [this]
      beta_reduce
      rw [hτπ i hi, hτπ j hj]
    · have e1 : lagFn f.coefs k = fun _ _ => 0 := by
        unfold lagFn; rw [List.getD_eq_getElem?_getD, List.getElem?_eq_none (by rw [hf.length]; exact hk)]; rfl
      have e2 : lagFn f'.coefs k = fun _ _ => 0 := by
        unfold lagFn; rw [List.getD_eq_getElem?_getD, List.getElem?_eq_none (by rw [hf'.length]; exact hk)]; rfl
      rw [e1, e2]
  refine ⟨by rw [hf.lags, hf'.lags], by rw [hf.length, hf'.length], hconv, by rw [hf.rows, hf'.rows]; rfl, ?_⟩
  intro r hr i hi
  rw [hf.rows] at hr
  rw [hf.resid r hr _ (rearranges_lt hπ hi), hf'.resid r hr i hi]
  exact innovation_reordered hπ (fun k _ => hconv k) (fun s _ j _ => rfl) hi

theorem residCov_reordered {n N : Nat} {π : Nat → Nat} (hπ : Rearranges n π) {R R' : Nat → Nat → ℝ}
    (h : ∀ r, r < N → ∀ i, i < n → R' r i = R r (π i)) : (residCov n N R').det = (residCov n N R).det := by
  let f : Fin n → Fin n := fun i => ⟨π i, rearranges_lt hπ i.2⟩
  have hf : Function.Injective f := fun i j e => Fin.ext (rearranges_inj hπ i.2 j.2 (by simpa [f] using e))
  let e : Equiv.Perm (Fin n) := Equiv.ofBijective f (Finite.injective_iff_bijective.1 hf)
  rw [← Matrix.det_submatrix_equiv_self e (residCov n N R)]
  congr 1
  ext i j
  simp only [Matrix.submatrix_apply, residCov]
  congr 1
  exact sum_congr rfl fun r hr => by
    rw [h r (mem_range.1 hr) i i.2, h r (mem_range.1 hr) j j.2]
    rfl

/-- C220: `VARLiNGAM` with its default parts — least squares autoregression, any of the criteria, `DirectLiNGAM` on the residuals
and the adaptive Lasso for pruning — on the same series with its columns in another order: the same exception, or the same order of the variables,
number of lags and coefficients, if the residuals determine their causal order without ties. -/
theorem C220_default_partial {cfg : Direct.Config} (hard : cfg.pk ≠ none → cfg.soft = false) (hlin : ∀ N, RightRegression (lin N))
    (hlars : ∀ N cols, IndependentCols cols → ∀ d y, TreatsAlike (lars N) (multiplied d cols) y) (E : Env ℝ)
    (hEl : E.lingam = lassoLingam cfg lin lars E.n) (hEr : E.lasso = lassoReg lin lars) (o : Obj ℝ) (X : Data ℝ)
    {π : Nat → Nat} (hπ : Rearranges E.n π) (hfix : ∀ j, E.n ≤ j → π j = j) (hn : E.n ≠ 0) (hlags : o.prune = true → 1 ≤ o.lags)
    (hvar : o.arCoefs = none → ∀ l, l ≤ o.lags →
      LsVarFit E.n X l (E.var X l) ∧ LsVarFit E.n (reorder π X) l (E.var (reorder π X) l))
    (hcr : o.arCoefs = none → ∃ κ : Criterion, ∀ Y, Y = X ∨ Y = reorder π X → ∀ l, 1 ≤ l → l ≤ o.lags →
      (E.var Y l).crit = some (κ.value Y.rows l (residCov E.n (E.var Y l).resid.rows (E.var Y l).resid.val).det))
    {p : Nat} (hp : o.lags ≤ p) (hpa : ∀ Ms, o.arCoefs = some Ms → Ms.length ≤ p)
    (hw : WindowIndependent E.n p X.rows X.val)
    (hj : ∀ o' R, fit E o X = .ok o' → o'.residuals = some R →
      ∃ l, JointOrder (Requires cfg E.n) [⟨R.rows, fun j r => R.val r j⟩] (List.range E.n) l) :
    (∀ e, fit E o X = .error e → fit { E with lingam := lassoLingam (reorderCfg π cfg) lin lars E.n } (reorderObj π o) (reorder π X) = .error e) ∧
    ∀ o', fit E o X = .ok o' → ∃ o'' order order' Bs Bs',
      fit { E with lingam := lassoLingam (reorderCfg π cfg) lin lars E.n } (reorderObj π o) (reorder π X) = .ok o'' ∧
      o'.causalOrder = some order ∧ o''.causalOrder = some order' ∧ order'.map π = order ∧ o''.lags = o'.lags ∧
      o'.adjacency = some Bs ∧ o''.adjacency = some Bs' ∧ Bs'.length = Bs.length ∧
      ∀ k, ReorderedMatrix E.n π (lagFn Bs k) (lagFn Bs' k) := by
  have hconv : o.arCoefs = none → ∀ l, l ≤ o.lags → FitReorders E.n π (E.var X l) (E.var (reorder π X) l) := fun ha l hl =>
    lsVarFit_reorders hπ (window_mono (by omega) hw) (hvar ha l hl).1 (hvar ha l hl).2
  have hidl : o.arCoefs = none → ∀ l, l ≤ o.lags →
      Identified E.n (fun j (r : Fin (E.var X l).resid.rows) => (E.var X l).resid.val r j) := fun ha l hl =>
    identified_of_window (window_mono (by omega) hw) _ (hvar ha l hl).1.rows fun r hr i hi =>
      (hvar ha l hl).1.resid r (by rw [(hvar ha l hl).1.rows] at hr; exact hr) i hi
  refine C220_fit_partial E _ o X hπ hconv ?_ ?_ ?_
  · intro ha l h1 h2
    obtain ⟨κ, hκ⟩ := hcr ha
    rw [hκ _ (Or.inr rfl) l h1 h2, hκ _ (Or.inl rfl) l h1 h2]
    have hf := hconv ha l h2
    rw [hf.rows, residCov_reordered hπ hf.resid]
    rfl
  · intro o' R ho hR
    obtain ⟨lo, hlo⟩ := hj o' R ho hR
    have hid : Identified E.n (fun j (r : Fin R.rows) => R.val r j) := by
      obtain ⟨Ms, lags, R0, Bs, h1, h2, rfl⟩ := fit_ok ho
      injection hR with hR
      subst hR
      cases ha : o.arCoefs with
      | none =>
        unfold arPart at h1
        rw [ha] at h1
        simp only at h1
        split at h1
        · cases h1
        · rename_i f hf
          simp only [Except.ok.injEq, Prod.mk.injEq] at h1
          obtain ⟨_, _, rfl⟩ := h1
          obtain ⟨l, hl, rfl⟩ : ∃ l, l ≤ o.lags ∧ f = E.var X l := by
            rcases estimateVar_units (o := o) (X := X) (X' := X) (g := id) strictMono_id (E := E) (fun l _ _ => by simp) with
              ⟨h, _⟩ | ⟨l, hl, _, h, _⟩
            · rw [h] at hf; cases hf
            · rw [h] at hf
              injection hf with hf
              exact ⟨l, hl, hf.symm⟩
          exact hidl ha l hl
      | some Ms0 =>
        obtain ⟨_, _, rfl⟩ := arPart_some ha h1
        exact identified_of_window (window_mono (hpa Ms0 ha) hw) (lagFn1 Ms0) rfl fun r _ i _ => calcResiduals_val _ _ _ _ _
    have hN : R.rows ≠ 0 := fun h0 => by
      have := hid (fun _ => 1) 0 (fun r => absurd r.2 (by omega)) 0 (by omega)
      norm_num at this
    rw [hEl]
    exact lassoLingam_reorders hard hπ hfix hN hid hlo
  · intro hpr
    refine ⟨hlags hpr, fun o' order ho hord i hi anc post hsplit hia => ?_⟩
    rw [hEr]
    obtain ⟨Ms, lags, R0, Bs, h1, h2, rfl⟩ := fit_ok ho
    injection hord with hord
    rw [hEl] at hord
    have hnd : order.Nodup := by
      rw [← hord]
      unfold lassoLingam
      split
      · rename_i q hq
        unfold fitLasso at hq
        split at hq
        · cases hq
        · rename_i order' ho'
          split at hq
          · cases hq
          · simp only [Except.ok.injEq] at hq
            subst hq
            exact (Pairwise.fitOrder_perm ho').nodup_iff.2 List.nodup_range
      · exact List.nodup_nil
    have hlt : ∀ v ∈ order, v < E.n := by
      rw [← hord]
      exact lassoLingam_lt lars cfg E.n R0
    have hanc : anc.Nodup := by rw [hsplit] at hnd; exact (List.nodup_append.1 hnd).1
    refine lassoReg_reorders hlin hlars (fun r _ => ?_)
      (pruneRow_independent (window_mono hp hw) hanc fun v hv => hlt v (by rw [hsplit]; exact List.mem_append_left _ hv))
    unfold pruneRow
    rw [List.length_append, List.length_map, past_len (fun k => X.val (X.rows - 1 - r - (k + 1))) E.n o.lags]

/-! ### A concrete series -/

/-- The pairwise order does not change if every row is repeated the same number of times. -/
theorem pairwise_repeated {N M : Nat} {m : Fin M → Fin N} {c : ℝ} (hc : c ≠ 0) (hM : (M : ℝ) = c * N)
    (hs : ∀ f : Fin N → ℝ, ∑ r, f (m r) = c * ∑ r, f r) {R : ℝ → ℝ → Prop} {X : Nat → Fin N → ℝ} {U l : List Nat}
    (h : PairwiseOrder R X U l) : PairwiseOrder R (fun j r => X j (m r)) U l := by
  have hdiv : ∀ f : Fin N → ℝ, (∑ r, f (m r)) / (M : ℝ) = (∑ r, f r) / N := fun f => by
    rw [hs, hM, mul_div_mul_left _ _ hc]
  have hmean : ∀ x : Fin N → ℝ, sampleMean (fun r => x (m r)) = sampleMean x := fun x => hdiv x
  have hz : ∀ x : Fin N → ℝ, zscore (fun r => x (m r)) = fun r => zscore x (m r) := fun x => by
    funext r
    unfold zscore
    rw [hmean, hdiv fun q => (x q - sampleMean x) ^ 2]
  have hcor : ∀ x y : Fin N → ℝ, correlation (fun r => x (m r)) (fun r => y (m r)) = correlation x y := fun x y => by
    unfold correlation
    rw [hz, hz]
    exact hdiv fun r => zscore x r * zscore y r
  have hent : ∀ z : Fin N → ℝ, approxEntropy (fun r => z (m r)) = approxEntropy z := fun z => by
    unfold approxEntropy
    rw [hdiv fun r => Real.log (Real.cosh (z r)), hdiv fun r => z r * Real.exp (-(z r) ^ 2 / 2)]
  have hscore : ∀ (ρ : ℝ) (z w : Fin N → ℝ), directionScore ρ (fun r => z (m r)) (fun r => w (m r)) = directionScore ρ z w := fun ρ z w => by
    unfold directionScore
    rw [hent, hent, hent fun r => (z r - ρ * w r) / √(1 - ρ ^ 2), hent fun r => (w r - ρ * z r) / √(1 - ρ ^ 2)]
  have hpen : ∀ (X : Nat → Fin N → ℝ) U i, penalty (fun j r => X j (m r)) U i = penalty X U i := fun X U i => by
    unfold penalty
    simp only [hcor, hz, hscore]
  induction h with
  | nil => exact .nil _
  | @cons X X' U l a ha best res rest ih =>
    refine .cons ha (fun i hi hne => by rw [hpen, hpen]; exact best i hi hne) (fun i hi hne => ?_) ih
    obtain ⟨⟨b, hb⟩, h0⟩ := res i hi hne
    refine ⟨⟨b, fun r => hb (m r)⟩, ?_⟩
    rw [hmean, hs fun r => X' i r * (X a r - sampleMean (X a)), h0, mul_zero]

/-- The four rows of `witnessX`, each twice. -/
def twice : Fin 8 → Fin 4 := ![0, 0, 1, 2, 3, 1, 3, 2]

/-- A series of nine times: after the first the rows of `witnessX`, each twice. -/
noncomputable def shockSeries : Data ℝ := ⟨9, fun t j => if h : 1 ≤ t ∧ t < 9 then Pairwise.witnessX j (twice ⟨t - 1, by omega⟩) else 1⟩

theorem shockSeries_window : WindowIndependent 2 1 9 shockSeries.val := by
  intro b0 d h k hk j hj
  have h1 := h 1 (by omega) (by omega)
  have h2 := h 2 (by omega) (by omega)
  have h3 := h 3 (by omega) (by omega)
  have h4 := h 4 (by omega) (by omega)
  have h5 := h 5 (by omega) (by omega)
  have h6 := h 6 (by omega) (by omega)
  have h7 := h 7 (by omega) (by omega)
  have h8 := h 8 (by omega) (by omega)
  simp [sum_range_succ, shockSeries, twice, Pairwise.witnessX, Pairwise.causeZ, Pairwise.effectW] at h1 h2 h3 h4 h5 h6 h7 h8
  have hs : √(2 : ℝ) ≠ 0 := by positivity
  interval_cases k <;> interval_cases j
  · exact (mul_eq_zero.1 (show d 0 0 * √2 = 0 by linarith)).resolve_right hs
  · linarith
  · exact (mul_eq_zero.1 (show d 1 0 * √2 = 0 by linarith)).resolve_right hs
  · linarith

/-- The environment of the examples: coefficients are given, so that the autoregression is not used. -/
noncomputable def givenEnv (cfg : Direct.Config) (lin : ∀ N, Lin N) (lars : ∀ N, Lars N) : Env ℝ where
  n := 2
  var := fun X l => ⟨[], l, X, none⟩
  lingam := lassoLingam cfg lin lars 2
  lasso := lassoReg lin lars

theorem residFull_zero {n : Nat} (x : Nat → Nat → ℝ) (t i : Nat) : innovation n 1 (lagFn1 [fun _ _ => (0 : ℝ)]) x t i = x t i := by
  unfold innovation
  simp [lagFn1]

/-- The hypotheses of `C220_default_partial` hold for this series with the lag coefficients zero and with pruning: the second variable comes
first, and with the columns exchanged the first. -/
example : ∃ (lin : ∀ N, Lin N) (lars : ∀ N, Lars N) (o' o'' : Obj ℝ) (order order' : List Nat) (Bs Bs' : List (Nat → Nat → ℝ)),
    fit (givenEnv { } lin lars) ⟨some [fun _ _ => 0], 1, false, true, none, none, none⟩ shockSeries = .ok o' ∧
    fit (givenEnv { } lin lars) ⟨some [fun _ _ => 0], 1, false, true, none, none, none⟩ (reorder (fun j => if j < 2 then 1 - j else j) shockSeries) = .ok o'' ∧
    o'.causalOrder = some order ∧ o''.causalOrder = some order' ∧ order'.map (fun j => if j < 2 then 1 - j else j) = order ∧
    o'.adjacency = some Bs ∧ o''.adjacency = some Bs' ∧ lagFn Bs' 0 1 0 = lagFn Bs 0 0 1 ∧ lagFn Bs' 1 0 0 = lagFn Bs 1 1 1 := by
  choose lin lars hlin _ hal using Pairwise.exists_alike
  obtain ⟨_, h⟩ := C220_default_partial (cfg := { }) (fun h => absurd rfl h) hlin hal (givenEnv { } lin lars) rfl rfl
    ⟨some [fun _ _ => 0], 1, false, true, none, none, none⟩ shockSeries (π := fun j => if j < 2 then 1 - j else j) (by show Rearranges 2 _; unfold Rearranges; decide)
    (fun j hj => if_neg (by have : 2 ≤ j := hj; omega)) (by show 2 ≠ 0; omega) (fun _ => le_rfl) (fun h => by cases h) (fun h => by cases h)
    (p := 1) le_rfl (fun Ms h => by cases h; rfl) shockSeries_window (fun o' R ho hR => ⟨[1, 0], by
      obtain ⟨Ms, lags, R0, Bs, h1, h2, rfl⟩ := fit_ok ho
      injection hR with hR
      subst hR
      obtain ⟨_, _, rfl⟩ := arPart_some rfl h1
      have hreq : Requires { } 2 = fun _ _ => False := by
        funext a b
        simp [Requires]
      have hsum : ∀ f : Fin 4 → ℝ, ∑ r, f (twice r) = 2 * ∑ r, f r := fun f => by
        simp [Fin.sum_univ_eight, Fin.sum_univ_four, twice]
        ring
      have hval : ∀ j (r : Fin 8), shockSeries.val (r + 1) j = Pairwise.witnessX j (twice r) := fun j r => by
        have : 1 ≤ (r : Nat) + 1 ∧ (r : Nat) + 1 < 9 := by omega
        simp [shockSeries, this]
      have hid : Identified 2 (fun j (r : Fin 8) => Pairwise.witnessX j (twice r)) := by
        have := identified_of_window shockSeries_window (lagFn1 [fun _ _ => (0 : ℝ)]) (N := 8) rfl
          (v := fun r j => shockSeries.val (r + 1) j) fun r _ i _ => (residFull_zero _ _ _).symm
        simpa only [hval] using this
      have hj := GroupData.joint_of_copies (k := 1) one_ne_zero
        (pairwise_repeated two_ne_zero (by norm_num) hsum Pairwise.witness_order) List.nodup_range (Pairwise.indep_range hid)
      have hj' : JointOrder (Requires { } 2) [⟨8, fun j r => (calcResiduals 2 shockSeries [fun _ _ => 0] 1).val r j⟩] (List.range 2) [1, 0] := by
        rw [hreq]
        refine joint_congr (fun i _ => ?_) hj
        funext r
        rw [← hval i r]
        exact (calcResiduals_val 2 shockSeries [fun _ _ => 0] r i).trans (residFull_zero _ _ _)
      exact hj'⟩)
  obtain ⟨o', ho'⟩ : ∃ o', fit (givenEnv { } lin lars) ⟨some [fun _ _ => 0], 1, false, true, none, none, none⟩ shockSeries = .ok o' := by
    simp [fit, arPart, lagMatrices, pruning, calcB]
  obtain ⟨o'', order, order', Bs, Bs', h1, h2, h3, h4, h5, h6, h7, h8, h9⟩ := h o' ho'
  refine ⟨lin, lars, o', o'', order, order', Bs, Bs', ho', h1, h2, h3, h4, h6, h7, ?_, ?_⟩
  · exact h9 0 1 (by show 1 < 2; omega) 0 (by show 0 < 2; omega)
  · exact h9 1 0 (by show 0 < 2; omega) 0 (by show 0 < 2; omega)

/-! ### Ties -/

/-- A series whose residuals are the rows of `Pairwise.square`. -/
noncomputable def tieSeries : Data ℝ := ⟨5, fun t j => if h : 1 ≤ t ∧ t < 5 then Pairwise.square j ⟨t - 1, by omega⟩ else 0⟩

theorem lassoLingam_tie (lin : ∀ N, Lin N) (lars : ∀ N, Lars N) {D : Data ℝ} (hD : D.rows = 4) {σ : Equiv.Perm (Fin 4)}
    (h01 : ∀ r : Fin 4, D.val r 1 = D.val (σ r) 0) (h10 : ∀ r : Fin 4, D.val r 0 = D.val (σ r) 1) :
    (lassoLingam { } lin lars 2 D).1 = [0, 1] := by
  obtain ⟨N, v⟩ := D
  simp only at hD h01 h10
  subst hD
  have ho : Pairwise.fitOrder { } 2 (fun j (r : Fin 4) => if j < 2 then v r j else 0) = .ok [0, 1] :=
    Pairwise.C142_ties_violated rfl (σ := σ) (fun r => by simpa using h01 r) (fun r => by simpa using h10 r)
  unfold lassoLingam fitLasso
  simp only
  rw [ho]
  simp [Direct.predictors, List.range']

/-- **C220 is violated when there are ties.** For this series the first column comes first whichever of the two variables it is. -/
theorem C220_violated (lin : ∀ N, Lin N) (lars : ∀ N, Lars N) :
    ∃ o' o'', fit (givenEnv { } lin lars) ⟨some [fun _ _ => 0], 1, false, false, none, none, none⟩ tieSeries = .ok o' ∧
      fit (givenEnv { } lin lars) (reorderObj (1 - ·) ⟨some [fun _ _ => 0], 1, false, false, none, none, none⟩) (reorder (1 - ·) tieSeries) = .ok o'' ∧
      o'.causalOrder = some [0, 1] ∧ o''.causalOrder = some [0, 1] ∧ [0, 1].map (1 - ·) ≠ [0, 1] := by
  have hv : ∀ (r : Fin 4) j, tieSeries.val (r + 1) j = Pairwise.square j r := fun r j => by
    have : 1 ≤ (r : Nat) + 1 ∧ (r : Nat) + 1 < 5 := by omega
    simp [tieSeries, this]
  have hr : ∀ (X : Data ℝ) (r i : Nat), (calcResiduals 2 X [fun _ _ => 0] 1).val r i = X.val (r + 1) i := fun X r i =>
    (calcResiduals_val 2 X [fun _ _ => 0] r i).trans (residFull_zero _ _ _)
  refine ⟨_, _, rfl, rfl, ?_, ?_, by decide⟩
  · refine congrArg some (lassoLingam_tie lin lars (D := calcResiduals 2 tieSeries [fun _ _ => 0] 1) rfl (σ := Pairwise.flip) ?_ ?_)
    all_goals
      intro r
      rw [hr, hr, hv, hv]
      fin_cases r <;> simp [Pairwise.square, Pairwise.flip]
  · refine congrArg some (lassoLingam_tie lin lars (D := calcResiduals 2 (reorder (1 - ·) tieSeries) [fun _ _ => 0] 1) rfl (σ := Pairwise.flip) ?_ ?_)
    all_goals
      intro r
      rw [hr, hr]
      show tieSeries.val _ _ = tieSeries.val _ _
      rw [hv, hv]
      fin_cases r <;> simp [Pairwise.square, Pairwise.flip]

end Reals
end Verif.Var
