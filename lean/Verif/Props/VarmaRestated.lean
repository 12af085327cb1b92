import Verif.Proofs.Varma
import Verif.Props.LongColumns
import Verif.Spec.Restated

/-!
# VARMALiNGAM in other units and with its columns in another order (C228)
-/
set_option linter.unusedSectionVars false
set_option autoImplicit false
namespace Verif.Varma
open Finset
open Verif.Paths (Err)
open Verif.Pairwise (rearranges_lt rearranges_inj rearranges_surj sum_rearranged)
open Verif.Var (Data mm mv oneSub lagFn lagFn1)
open Verif.LongData (blocks blocks_rearranges blocks_div)

section General
variable {K : Type} [Field K] [LinearOrder K] [IsStrictOrderedRing K]

/-- The same series: variable `i` is variable `π i` of the old one, in another unit. -/
def restate (π : Nat → Nat) (c : Nat → K) (X : Data K) : Data K := ⟨X.rows, fun t i => c i * X.val t (π i)⟩

/-- The coefficients (target, source) of the new description. -/
def restateM (π : Nat → Nat) (c : Nat → K) (M : Nat → Nat → K) : Nat → Nat → K := fun i j => M (π i) (π j) * (c i / c j)

/-- The same object, with given coefficients written for the new description. -/
def restateObj (π : Nat → Nat) (c : Nat → K) (o : Obj K) : Obj K :=
  { o with ar := o.ar.map (List.map (restateM π c)), ma := o.ma.map (List.map (restateM π c)) }

/-- The outcomes `f` and `f'` of a VARMA estimation say the same in the two descriptions. -/
structure FitRestates (n : Nat) (π : Nat → Nat) (c : Nat → K) (f f' : VarmaFit K) : Prop where
  order : f'.order = f.order
  phisLength : (f'.phis.getD []).length = (f.phis.getD []).length
  phis : ∀ k, RestatedMatrix n π c (lagFn (f.phis.getD []) k) (lagFn (f'.phis.getD []) k)
  thetasLength : (f'.thetas.getD []).length = (f.thetas.getD []).length
  thetas : ∀ k, RestatedMatrix n π c (lagFn (f.thetas.getD []) k) (lagFn (f'.thetas.getD []) k)
  rows : f'.resid.rows = f.resid.rows
  resid : ∀ r, r < f.resid.rows → ∀ i, i < n → f'.resid.val r i = c i * f.resid.val r (π i)

/-- The LiNGAM method `lingam'` (for example with reordered prior knowledge) gives for the new description of `D` the result that
`lingam` gives for `D`: the same order of the variables and the same coefficients. -/
def LingamRestates (n : Nat) (π : Nat → Nat) (c : Nat → K) (lingam lingam' : Data K → List Nat × (Nat → Nat → K)) (D : Data K) : Prop :=
  ∀ D' : Data K, D'.rows = D.rows → (∀ r, r < D.rows → ∀ i, i < n → D'.val r i = c i * D.val r (π i)) →
    (lingam' D').1.map π = (lingam D).1 ∧ (lingam' D').1.Nodup ∧ (∀ v ∈ (lingam' D').1, v < n) ∧
      RestatedMatrix n π c (lingam D).2 (lingam' D').2

/-- The regression with selection of column `t` of `x` on the columns `ps` gives the same coefficients for columns with other names
(`τ` maps new names to old ones), in another order and in other units. -/
def LassoRestates (lasso : Nat → (Nat → Nat → K) → List Nat → Nat → Nat → K) (N : Nat) (x : Nat → Nat → K) (ps : List Nat) (t : Nat) : Prop :=
  ∀ (x' : Nat → Nat → K) (ps' : List Nat) (t' : Nat) (τ : Nat → Nat) (s : Nat → K), (∀ a, a ∈ ps' ∨ a = t' → 0 < s a) →
    (ps'.map τ).Perm ps → τ t' = t → (∀ r, r < N → ∀ a, a ∈ ps' ∨ a = t' → x' r a = s a * x r (τ a)) →
    ∀ a ∈ ps', lasso N x' ps' t' (ps'.idxOf a) = lasso N x ps t (ps.idxOf (τ a)) * (s t' / s a)

variable {n : Nat} {π : Nat → Nat} {c : Nat → K}

theorem lagFn_restate (Ms : List (Nat → Nat → K)) (k i j : Nat) :
    lagFn (Ms.map (restateM π c)) k i j = restateM π c (lagFn Ms k) i j := by
  unfold lagFn
  simp only [List.getD_eq_getElem?_getD, List.getElem?_map]
  cases Ms[k]? <;> simp [restateM]

theorem mm_restated (hπ : Rearranges n π) (hc : ∀ j, j < n → 0 < c j) {A A' B B' : Nat → Nat → K}
    (hA : RestatedMatrix n π c A A') (hB : RestatedMatrix n π c B B') : RestatedMatrix n π c (mm n A B) (mm n A' B') := by
  intro i hi j hj
  unfold mm
  rw [← sum_rearranged hπ (fun k => A (π i) k * B k (π j)), sum_mul]
  refine sum_congr rfl fun k hk => ?_
  have hk := mem_range.1 hk
  rw [hA i hi k hk, hB k hk j hj]
  have := (hc k hk).ne'
  field_simp

theorem mv_restated (hπ : Rearranges n π) (hc : ∀ j, j < n → 0 < c j) {A A' : Nat → Nat → K} {v v' : Nat → K}
    (hA : RestatedMatrix n π c A A') (hv : ∀ i, i < n → v' i = c i * v (π i)) {i : Nat} (hi : i < n) :
    mv n A' v' i = c i * mv n A v (π i) := by
  unfold mv
  rw [← sum_rearranged hπ (fun k => A (π i) k * v k), mul_sum]
  refine sum_congr rfl fun k hk => ?_
  have hk := mem_range.1 hk
  rw [hA i hi k hk, hv k hk]
  have := (hc k hk).ne'
  field_simp

theorem oneSub_restated (hπ : Rearranges n π) (hc : ∀ j, j < n → 0 < c j) {A A' : Nat → Nat → K}
    (hA : RestatedMatrix n π c A A') : RestatedMatrix n π c (oneSub A) (oneSub A') := by
  intro i hi j hj
  unfold oneSub
  rw [hA i hi j hj, sub_mul]
  congr 1
  by_cases h : i = j
  · subst h
    rw [if_pos rfl, if_pos rfl, div_self (hc i hi).ne', one_mul]
  · rw [if_neg h, if_neg fun e => h (rearranges_inj hπ hi hj e), zero_mul]

/-- The residuals with given coefficients, if the start-up noise is restated too (it does not matter without moving average part). -/
theorem residuals_restated (hπ : Rearranges n π) (hc : ∀ j, j < n → 0 < c j) {noise noise' : Nat → Nat → K} {X : Data K}
    {phis thetas : List (Nat → Nat → K)}
    (hnoise : thetas ≠ [] → ∀ r, r < max phis.length thetas.length → ∀ i, i < n → noise' r i = c i * noise r (π i)) :
    ∀ r, r < X.rows - max phis.length thetas.length → ∀ i, i < n →
      (calcResiduals n noise' (restate π c X) (phis.map (restateM π c)) (thetas.map (restateM π c))).val r i =
        c i * (calcResiduals n noise X phis thetas).val r (π i) := by
  have hph : ∀ k, RestatedMatrix n π c (lagFn1 phis (k + 1)) (lagFn1 (phis.map (restateM π c)) (k + 1)) := fun k i _ j _ =>
    lagFn_restate phis k i j
  have hth : ∀ k, RestatedMatrix n π c (lagFn1 thetas (k + 1)) (lagFn1 (thetas.map (restateM π c)) (k + 1)) := fun k i _ j _ =>
    lagFn_restate thetas k i j
  have key : ∀ r, r < X.rows → (thetas ≠ [] ∨ max phis.length thetas.length ≤ r) → ∀ i, i < n →
      epsilon n X.rows noise' (restate π c X).val (phis.map (restateM π c)) (thetas.map (restateM π c)) r i =
        c i * epsilon n X.rows noise X.val phis thetas r (π i) := by
    intro r
    induction r using Nat.strong_induction_on with
    | _ r ih =>
      intro hr hth0 i hi
      rw [epsilon_row _ _ _ _ _ hr, epsilon_row _ _ _ _ _ hr]
      simp only [List.length_map]
      by_cases hl : r < max phis.length thetas.length
      · rw [if_pos hl, if_pos hl]
        exact hnoise (hth0.resolve_right (by omega)) r hl i hi
      · rw [if_neg hl, if_neg hl, mul_sub, mul_add, mul_sum, mul_sum]
        congr 2
        · exact sum_congr rfl fun k _ => mv_restated hπ hc (hph k) (fun j _ => rfl) hi
        · refine sum_congr rfl fun k hk => mv_restated hπ hc (hth k) (fun j hj => ?_) hi
          have hk := mem_range.1 hk
          refine ih _ (by omega) (by omega) (Or.inl fun h0 => ?_) j hj
          rw [h0] at hk
          simp at hk
  intro r hr i hi
  unfold calcResiduals
  simp only [List.length_map]
  have hl : (restate π c X).rows = X.rows := rfl
  rw [hl]
  exact key _ (by omega) (Or.inr (by omega)) i hi

/-! ### The estimation -/

theorem estimate_restated {E : Env K} {o : Obj K} {X X' : Data K} {g : K → K} (hg : StrictMono g)
    (hcr : ∀ pq ∈ orders o.order, (E.varmax X' pq).crit = (E.varmax X pq).crit.map g) :
    (estimate E o X = none ∧ estimate E o X' = none) ∨
      ∃ pq, (pq ∈ orders o.order ∨ pq = o.order) ∧ estimate E o X = some (E.varmax X pq) ∧ estimate E o X' = some (E.varmax X' pq) := by
  unfold estimate
  by_cases hu : o.useCriterion = true
  · rw [if_pos hu, if_pos hu]
    have key : ∀ l : List (Nat × Nat), (∀ pq ∈ l, (E.varmax X' pq).crit = (E.varmax X pq).crit.map g) →
        ∀ S : List (Nat × Nat), (∀ pq ∈ l, pq ∈ S) → ∀ b b' : Option (VarmaFit K),
        ((b = none ∧ b' = none) ∨ ∃ pq ∈ S, b = some (E.varmax X pq) ∧ b' = some (E.varmax X' pq) ∧
          (E.varmax X' pq).crit = (E.varmax X pq).crit.map g) →
        ((l.foldl (fun best pq => better best (E.varmax X pq)) b = none ∧ l.foldl (fun best pq => better best (E.varmax X' pq)) b' = none) ∨
          ∃ pq ∈ S, l.foldl (fun best pq => better best (E.varmax X pq)) b = some (E.varmax X pq) ∧
            l.foldl (fun best pq => better best (E.varmax X' pq)) b' = some (E.varmax X' pq) ∧
            (E.varmax X' pq).crit = (E.varmax X pq).crit.map g) := by
      intro l
      induction l with
      | nil => intro _ S _ b b' h; exact h
      | cons a l ih =>
        intro hl S hS b b' h
        rw [List.foldl_cons, List.foldl_cons]
        refine ih (fun pq hp => hl pq (List.mem_cons_of_mem _ hp)) S (fun pq hp => hS pq (List.mem_cons_of_mem _ hp)) _ _ ?_
        have hca := hl a List.mem_cons_self
        have haS := hS a List.mem_cons_self
        rcases h with ⟨rfl, rfl⟩ | ⟨pq, hpS, rfl, rfl, hcp⟩
        · unfold better
          rw [hca]
          cases hcase : (E.varmax X a).crit with
          | none => left; simp
          | some v => right; exact ⟨a, haS, rfl, rfl, by rw [hca, hcase]⟩
        · right
          unfold better
          rw [hca]
          cases hcase : (E.varmax X a).crit with
          | none => exact ⟨pq, hpS, rfl, rfl, hcp⟩
          | some v =>
            simp only [Option.map_some, hcp]
            cases hcase2 : (E.varmax X pq).crit with
            | none => exact ⟨a, haS, rfl, rfl, by rw [hca, hcase]⟩
            | some w =>
              simp only [Option.map_some, hg.lt_iff_lt]
              by_cases hvw : v < w
              · exact ⟨a, haS, by rw [if_pos hvw], by rw [if_pos hvw], by rw [hca, hcase]⟩
              · exact ⟨pq, hpS, by rw [if_neg hvw], by rw [if_neg hvw], hcp⟩
    rcases key (orders o.order) hcr (orders o.order) (fun _ h => h) none none (Or.inl ⟨rfl, rfl⟩) with h | ⟨pq, hp, h1, h2, _⟩
    · exact Or.inl h
    · exact Or.inr ⟨pq, Or.inl hp, h1, h2⟩
  · rw [if_neg hu, if_neg hu]
    exact Or.inr ⟨o.order, Or.inr rfl, rfl, rfl⟩

/-! ### Pruning -/

theorem joined_restated {p : Nat} {X X' ee ee' : Data K} (hn : 0 < n) (hπ : Rearranges n π) (hX : X'.rows = X.rows)
    (hx : ∀ r, r < X.rows → ∀ i, i < n → X'.val r i = c i * X.val r (π i)) (he : ee'.rows = ee.rows)
    (hee : ∀ r, r < ee.rows → ∀ i, i < n → ee'.val r i = c i * ee.val r (π i)) {q : Nat} (he0 : q ≠ 0 → ee.rows ≠ 0)
    {r col : Nat} (hr : r < X.rows) (hcol : col < n * (1 + p + q)) :
    joined n p X' ee' r col = c (col % n) * joined n p X ee r (blocks n π col) := by
  unfold joined
  rw [(blocks_div hn hπ col).1, (blocks_div hn hπ col).2, hX, he]
  by_cases h : col / n < 1 + p
  · rw [if_pos h, if_pos h]
    exact hx _ (Nat.mod_lt _ (by omega)) _ (Nat.mod_lt _ hn)
  · rw [if_neg h, if_neg h]
    have h2 : col / n < 1 + p + q := Nat.div_lt_of_lt_mul hcol
    exact hee _ (Nat.mod_lt _ (Nat.pos_of_ne_zero (he0 (by omega)))) _ (Nat.mod_lt _ hn)

theorem blocks_small (hn : 0 < n) (hπ : Rearranges n π) (col : Nat) : (blocks n π col < n ↔ col < n) ∧ (col < n → blocks n π col = π col) := by
  constructor
  · rw [← Nat.div_eq_zero_iff_lt hn, ← Nat.div_eq_zero_iff_lt hn, (blocks_div hn hπ col).1]
  · intro h
    unfold blocks
    rw [Nat.div_eq_of_lt h, Nat.mod_eq_of_lt h]
    simp

theorem mem_drop_reordered (hn : 0 < n) (hπ : Rearranges n π) {order' : List Nat} (hlt : ∀ v ∈ order', v < n) (i a : Nat) :
    a ∈ order'.drop i ↔ blocks n π a ∈ (order'.map π).drop i := by
  rw [← List.map_drop]
  constructor
  · intro h
    have ha := hlt a (List.mem_of_mem_drop h)
    rw [(blocks_small hn hπ a).2 ha]
    exact List.mem_map_of_mem h
  · intro h
    obtain ⟨b, hb, e⟩ := List.mem_map.1 h
    have hbn := hlt b (List.mem_of_mem_drop hb)
    have h1 : blocks n π a < n := by rw [← e]; exact rearranges_lt hπ hbn
    have ha := (blocks_small hn hπ a).1.1 h1
    rw [(blocks_small hn hπ a).2 ha] at e
    rw [← rearranges_inj hπ hbn ha e]
    exact hb

theorem predictors_reordered {p q : Nat} (hn : 0 < n) (hπ : Rearranges n π) {order' : List Nat} (hlt : ∀ v ∈ order', v < n) (i : Nat) :
    ((predictors n p q order' i).map (blocks n π)).Perm (predictors n p q (order'.map π) i) := by
  have hB := blocks_rearranges hπ (1 + p + q)
  unfold predictors
  have e : (List.range (n * (1 + p + q))).filter (fun j => decide (j ∉ order'.drop i)) =
      (List.range (n * (1 + p + q))).filter ((fun j => decide (j ∉ (order'.map π).drop i)) ∘ blocks n π) := by
    refine List.filter_congr fun j _ => ?_
    simp only [Function.comp_apply, decide_eq_decide]
    rw [mem_drop_reordered hn hπ hlt]
  rw [e, ← List.filter_map]
  exact hB.filter _

theorem psiOmega_outside {p q : Nat} {lasso : Lasso K} {X ee : Data K} {order : List Nat} (ho : order.Nodup) {r : Nat} (hr : r ∉ order) (a : Nat) :
    psiOmega n p q lasso X ee order r a = 0 := by
  unfold psiOmega
  have e : (order.zipIdx.map (fun x => (x.2, x.1))).map Prod.snd = order := by
    rw [List.map_map]
    have : (Prod.snd ∘ fun x : Nat × Nat => (x.2, x.1)) = Prod.fst := by funext x; rfl
    rw [this, List.zipIdx_map_fst]
  exact (pruneFold _ _ (by rw [e]; exact ho)).1 r a (by rw [e]; exact hr)

theorem psiOmega_restated {p q : Nat} {lasso : Lasso K} {X X' ee ee' : Data K} (hn : 0 < n) (hπ : Rearranges n π) (hc : ∀ j, j < n → 0 < c j)
    (hX : X'.rows = X.rows) (hx : ∀ r, r < X.rows → ∀ i, i < n → X'.val r i = c i * X.val r (π i)) (he : ee'.rows = ee.rows)
    (hee : ∀ r, r < ee.rows → ∀ i, i < n → ee'.val r i = c i * ee.val r (π i)) (he0 : q ≠ 0 → ee.rows ≠ 0) {order' : List Nat}
    (hnd : order'.Nodup) (hlt : ∀ v ∈ order', v < n)
    (hlasso : ∀ i, i < n → LassoRestates lasso X.rows (joined n p X ee) (predictors n p q (order'.map π) ((order'.map π).idxOf i)) i)
    {i a : Nat} (hi : i < n) (ha : a < n * (1 + p + q)) :
    psiOmega n p q lasso X' ee' order' i a = psiOmega n p q lasso X ee (order'.map π) (π i) (blocks n π a) * (c i / c (a % n)) := by
  have hinj : ∀ y ∈ order', π y = π i → y = i := fun y hy e => rearranges_inj hπ (hlt y hy) hi e
  have hnd' : (order'.map π).Nodup := (List.nodup_map_iff_inj_on hnd).2 fun x hx y hy e => rearranges_inj hπ (hlt x hx) (hlt y hy) e
  by_cases hm : i ∈ order'
  · have hm' : π i ∈ order'.map π := List.mem_map_of_mem hm
    have hidx : (order'.map π).idxOf (π i) = order'.idxOf i := GroupData.idxOf_map_inj order' i hinj
    rw [psiOmega_row hnd hm, psiOmega_row hnd' hm', hidx]
    have hperm := predictors_reordered (p := p) (q := q) hn hπ hlt (order'.idxOf i)
    have hBinj : ∀ b, b < n * (1 + p + q) → blocks n π b = blocks n π a → b = a := fun b hb e =>
      rearranges_inj (blocks_rearranges hπ (1 + p + q)) hb ha e
    have hps : ∀ b ∈ predictors n p q order' (order'.idxOf i), b < n * (1 + p + q) := fun b hb => by
      unfold predictors at hb
      exact List.mem_range.1 (List.mem_of_mem_filter hb)
    have hmem : blocks n π a ∈ predictors n p q (order'.map π) (order'.idxOf i) ↔ a ∈ predictors n p q order' (order'.idxOf i) := by
      rw [← hperm.mem_iff]
      constructor
      · intro h
        obtain ⟨b, hb, e⟩ := List.mem_map.1 h
        rw [← hBinj b (hps b hb) e]
        exact hb
      · exact List.mem_map_of_mem
    by_cases hp : a ∈ predictors n p q order' (order'.idxOf i)
    · rw [if_pos hp, if_pos (hmem.2 hp), hX]
      have hl := hlasso (π i) (rearranges_lt hπ hi)
      rw [hidx] at hl
      have := hl (joined n p X' ee') (predictors n p q order' (order'.idxOf i)) i (blocks n π) (fun b => c (b % n))
        (fun b _ => hc _ (Nat.mod_lt _ hn)) hperm ((blocks_small hn hπ i).2 hi)
        (fun r hr b hb => joined_restated hn hπ hX hx he hee he0 hr (by
          rcases hb with hb | rfl
          · exact hps b hb
          · exact lt_of_lt_of_le hi (Nat.le_mul_of_pos_right _ (by omega)))) a hp
      beta_reduce at this
      rw [this, Nat.mod_eq_of_lt hi]
    · rw [if_neg hp, if_neg fun h => hp (hmem.1 h), zero_mul]
  · have hm' : π i ∉ order'.map π := fun h => by
      obtain ⟨b, hb, e⟩ := List.mem_map.1 h
      exact hm (hinj b hb e ▸ hb)
    rw [psiOmega_outside hnd hm, psiOmega_outside hnd' hm', zero_mul]

theorem block_restated {k m : Nat} {A A' : Nat → Nat → K} (hn : 0 < n) (hk : k < m)
    (h : ∀ i, i < n → ∀ a, a < n * m → A' i a = A (π i) (blocks n π a) * (c i / c (a % n))) :
    RestatedMatrix n π c (block n k A) (block n k A') := by
  intro i hi j hj
  have hb : n * k + j < n * m := by
    have := Nat.mul_le_mul_left n (show k + 1 ≤ m by omega)
    rw [Nat.mul_succ] at this
    omega
  unfold block
  rw [h i hi _ hb]
  unfold blocks
  rw [Nat.mul_add_div hn, Nat.div_eq_of_lt hj, Nat.mul_add_mod, Nat.mod_eq_of_lt hj]
  rfl

/-- The matrices in the two descriptions. -/
theorem matrices_restated {E E' : Env K} (hn : 0 < E.n) (hEn : E'.n = E.n) (hEl : E'.lasso = E.lasso) {o o' : Obj K} (hpr : o'.prune = o.prune)
    (hπ : Rearranges E.n π) (hc : ∀ j, j < E.n → 0 < c j) {X : Data K} {phis phis' thetas thetas' : List (Nat → Nat → K)} {pq : Nat × Nat}
    {R R' : Data K} {order' : List Nat} {B B' : Nat → Nat → K}
    (hpl : phis'.length = phis.length) (hp : ∀ k, RestatedMatrix E.n π c (lagFn phis k) (lagFn phis' k))
    (htl : thetas'.length = thetas.length) (ht : ∀ k, RestatedMatrix E.n π c (lagFn thetas k) (lagFn thetas' k))
    (hR : R'.rows = R.rows) (hr : ∀ r, r < R.rows → ∀ i, i < E.n → R'.val r i = c i * R.val r (π i))
    (hnd : order'.Nodup) (hlt : ∀ v ∈ order', v < E.n) (hB : RestatedMatrix E.n π c B B') (hX0 : X.rows ≠ 0)
    (hlasso : o.prune = true → ∀ i, i < E.n → LassoRestates E.lasso X.rows (joined E.n pq.1 X (disturbances E.n B R))
      (predictors E.n pq.1 pq.2 (order'.map π) ((order'.map π).idxOf i)) i) :
    (∀ e, matrices E o X phis thetas pq R (order'.map π) B = .error e →
      matrices E' o' (restate π c X) phis' thetas' pq R' order' B' = .error e) ∧
    ∀ ms, matrices E o X phis thetas pq R (order'.map π) B = .ok ms → ∃ ms', matrices E' o' (restate π c X) phis' thetas' pq R' order' B' = .ok ms' ∧
      ms'.1.length = ms.1.length ∧ ms'.2.length = ms.2.length ∧
      (∀ k, RestatedMatrix E.n π c (lagFn ms.1 k) (lagFn ms'.1 k)) ∧ ∀ k, RestatedMatrix E.n π c (lagFn ms.2 k) (lagFn ms'.2 k) := by
  have hout : ∀ {L L' : List (Nat → Nat → K)} {k : Nat}, L'.length = L.length → L.length ≤ k → RestatedMatrix E.n π c (lagFn L k) (lagFn L' k) := by
    intro L L' k hl hk i _ j _
    have e1 : lagFn L k = fun _ _ => 0 := by
      unfold lagFn; rw [List.getD_eq_getElem?_getD, List.getElem?_eq_none hk]; rfl
    have e2 : lagFn L' k = fun _ _ => 0 := by
      unfold lagFn; rw [List.getD_eq_getElem?_getD, List.getElem?_eq_none (by omega)]; rfl
    rw [e1, e2, zero_mul]
  have hmap : ∀ {L L' : List (Nat → Nat → K)} {m : Nat}, L'.length = L.length → (∀ k, RestatedMatrix E.n π c (lagFn L k) (lagFn L' k)) →
      ∀ k, RestatedMatrix E.n π c (lagFn ((L.take m).map (fun M => mm E.n (oneSub B) M)) k) (lagFn ((L'.take m).map (fun M => mm E.n (oneSub B') M)) k) := by
    intro L L' m hl h k
    by_cases hk : k < (L.take m).length
    · have hk' : k < (L'.take m).length := by simp at hk ⊢; omega
      have hkL : k < L.length := by simp at hk; omega
      have e1 : lagFn ((L.take m).map (fun M => mm E.n (oneSub B) M)) k = mm E.n (oneSub B) (lagFn L k) := by
        unfold lagFn
        rw [Pairwise.getD_of_lt (by simpa using hk), Pairwise.getD_of_lt hkL]
        simp
      have e2 : lagFn ((L'.take m).map (fun M => mm E.n (oneSub B') M)) k = mm E.n (oneSub B') (lagFn L' k) := by
        unfold lagFn
        rw [Pairwise.getD_of_lt (by simpa using hk'), Pairwise.getD_of_lt (by omega)]
        simp
      rw [e1, e2]
      exact mm_restated hπ hc (oneSub_restated hπ hc hB) (h k)
    · exact hout (by simp [hl]) (by rw [List.length_map]; omega)
  unfold matrices
  rw [hpl, htl, hpr, hEn, hEl]
  by_cases hi : phis.length < pq.1 ∨ thetas.length < pq.2
  · rw [if_pos hi, if_pos hi]
    exact ⟨fun e h => h, fun ms h => by cases h⟩
  rw [if_neg hi, if_neg hi]
  by_cases hpt : o.prune = true
  · rw [if_pos hpt, if_pos hpt]
    have hd : (disturbances E.n B' R').rows = (disturbances E.n B R).rows := hR
    unfold pruning
    have hXr : (restate π c X).rows = X.rows := rfl
    rw [hd, hXr]
    by_cases hcond : 0 < pq.2 ∧ 0 < E.n ∧ (disturbances E.n B R).rows ≠ X.rows ∧ (disturbances E.n B R).rows ≠ 1
    · rw [if_pos hcond, if_pos hcond]
      exact ⟨fun e h => h, fun ms h => by cases h⟩
    · rw [if_neg hcond, if_neg hcond]
      refine ⟨fun e h => (by cases h), fun ms h => ?_⟩
      injection h with h
      subst h
      have hpsi : ∀ i, i < E.n → ∀ a, a < E.n * (1 + pq.1 + pq.2) →
          psiOmega E.n pq.1 pq.2 E.lasso (restate π c X) (disturbances E.n B' R') order' i a =
            psiOmega E.n pq.1 pq.2 E.lasso X (disturbances E.n B R) (order'.map π) (π i) (blocks E.n π a) * (c i / c (a % E.n)) := by
        intro i hi a ha
        refine psiOmega_restated (X := X) (X' := restate π c X) hn hπ hc rfl (fun r _ i _ => rfl) hd (fun r hr' i hi => ?_) (fun hq => ?_) hnd hlt (hlasso hpt) hi ha
        · exact mv_restated hπ hc (oneSub_restated hπ hc hB) (fun i hi => hr r hr' i hi) hi
        · intro h0
          exact hcond ⟨by omega, hn, by rw [h0]; omega, by omega⟩
      refine ⟨_, rfl, by simp, by simp, fun k => ?_, fun k => ?_⟩
      · by_cases hk : k < 1 + pq.1
        · have e : ∀ m : Nat → Nat → K, lagFn ((List.range (1 + pq.1)).map (fun k => block E.n k m)) k = block E.n k m := fun m => by
            unfold lagFn
            rw [Pairwise.getD_of_lt (by simpa using hk)]
            simp
          rw [e, e]
          exact block_restated hn (show k < 1 + pq.1 + pq.2 by omega) hpsi
        · exact hout (by simp) (by simpa using hk)
      · by_cases hk : k < pq.2
        · have e : ∀ m : Nat → Nat → K, lagFn ((List.range pq.2).map (fun k => block E.n (1 + pq.1 + k) m)) k = block E.n (1 + pq.1 + k) m := fun m => by
            unfold lagFn
            rw [Pairwise.getD_of_lt (by simpa using hk)]
            simp
          rw [e, e]
          exact block_restated hn (show 1 + pq.1 + k < 1 + pq.1 + pq.2 by omega) hpsi
        · exact hout (by simp) (by simpa using hk)
  · rw [if_neg hpt, if_neg hpt]
    refine ⟨fun e h => (by cases h), fun ms h => ?_⟩
    injection h with h
    subst h
    refine ⟨_, rfl, by simp [calcPsi, hpl], by simp [calcOmega, htl], fun k => ?_, hmap htl ht⟩
    cases k with
    | zero => exact hB
    | succ k => exact hmap hpl hp k

/-- **C228, partial.** `VARMALiNGAM.fit` in other units and with the columns in another order: the same exception, or the same order of
the variables, the same numbers of lags, and the same coefficients for the same variables, converted.  Assumed: the VARMA estimation, the
LiNGAM method and the Lasso follow the description on the data at hand; and, if coefficients with a moving average part are given, the
start-up noise does (see `C228_noise_violated`). -/
theorem C228_fit_partial (E : Env K) (lingam' : Data K → List Nat × (Nat → Nat → K)) (noise' : Data K → Nat → Nat → K) (o : Obj K) (X : Data K)
    (hn : 0 < E.n) (hX : X.rows ≠ 0) (hπ : Rearranges E.n π) (hc : ∀ j, j < E.n → 0 < c j)
    (hvar : o.ar = none ∨ o.ma = none → ∀ pq, pq ∈ orders o.order ∨ pq = o.order → FitRestates E.n π c (E.varmax X pq) (E.varmax (restate π c X) pq))
    (hcr : o.ar = none ∨ o.ma = none → ∃ g : K → K, StrictMono g ∧
      ∀ pq ∈ orders o.order, (E.varmax (restate π c X) pq).crit = (E.varmax X pq).crit.map g)
    (hnoise : ∀ phis thetas, o.ar = some phis → o.ma = some thetas → thetas ≠ [] →
      ∀ r, r < max phis.length thetas.length → ∀ i, i < E.n → noise' (restate π c X) r i = c i * E.noise X r (π i))
    (hling : ∀ phis thetas pq R, armaPart E o X = .ok (phis, thetas, pq, R) → LingamRestates E.n π c E.lingam lingam' R)
    (hlasso : o.prune = true → ∀ phis thetas pq R, armaPart E o X = .ok (phis, thetas, pq, R) → ∀ i, i < E.n →
      LassoRestates E.lasso X.rows (joined E.n pq.1 X (disturbances E.n (E.lingam R).2 R))
        (predictors E.n pq.1 pq.2 (E.lingam R).1 ((E.lingam R).1.idxOf i)) i) :
    (∀ e, fit E o X = .error e → fit { E with lingam := lingam', noise := noise' } (restateObj π c o) (restate π c X) = .error e) ∧
    ∀ o1, fit E o X = .ok o1 → ∃ o2 order order' psis omegas psis' omegas',
      fit { E with lingam := lingam', noise := noise' } (restateObj π c o) (restate π c X) = .ok o2 ∧
      o1.causalOrder = some order ∧ o2.causalOrder = some order' ∧ order'.map π = order ∧ o2.order = o1.order ∧
      o1.adjacency = some (psis, omegas) ∧ o2.adjacency = some (psis', omegas') ∧ psis'.length = psis.length ∧ omegas'.length = omegas.length ∧
      (∀ k, RestatedMatrix E.n π c (lagFn psis k) (lagFn psis' k)) ∧ ∀ k, RestatedMatrix E.n π c (lagFn omegas k) (lagFn omegas' k) := by
  set E' : Env K := { E with lingam := lingam', noise := noise' } with hE'
  have har : (∀ e, armaPart E o X = .error e → armaPart E' (restateObj π c o) (restate π c X) = .error e) ∧
      ∀ phis thetas pq R, armaPart E o X = .ok (phis, thetas, pq, R) → ∃ phis' thetas' R',
        armaPart E' (restateObj π c o) (restate π c X) = .ok (phis', thetas', pq, R') ∧
        (phis'.getD []).length = (phis.getD []).length ∧ (∀ k, RestatedMatrix E.n π c (lagFn (phis.getD []) k) (lagFn (phis'.getD []) k)) ∧
        (thetas'.getD []).length = (thetas.getD []).length ∧ (∀ k, RestatedMatrix E.n π c (lagFn (thetas.getD []) k) (lagFn (thetas'.getD []) k)) ∧
        R'.rows = R.rows ∧ ∀ r, r < R.rows → ∀ i, i < E.n → R'.val r i = c i * R.val r (π i) := by
    have hest : o.ar = none ∨ o.ma = none →
        (∀ e, armaPart E o X = .error e → armaPart E' (restateObj π c o) (restate π c X) = .error e) ∧
        ∀ phis thetas pq R, armaPart E o X = .ok (phis, thetas, pq, R) → ∃ phis' thetas' R',
          armaPart E' (restateObj π c o) (restate π c X) = .ok (phis', thetas', pq, R') ∧
          (phis'.getD []).length = (phis.getD []).length ∧ (∀ k, RestatedMatrix E.n π c (lagFn (phis.getD []) k) (lagFn (phis'.getD []) k)) ∧
          (thetas'.getD []).length = (thetas.getD []).length ∧ (∀ k, RestatedMatrix E.n π c (lagFn (thetas.getD []) k) (lagFn (thetas'.getD []) k)) ∧
          R'.rows = R.rows ∧ ∀ r, r < R.rows → ∀ i, i < E.n → R'.val r i = c i * R.val r (π i) := by
      intro hnone
      have h1 : armaPart E o X = match estimate E o X with
          | none => .error .valueError
          | some f => .ok (f.phis, f.thetas, f.order, f.resid) := by
        unfold armaPart
        rcases hnone with h | h
        · rw [h]; rfl
        · rw [h]; cases o.ar <;> rfl
      have h2 : armaPart E' (restateObj π c o) (restate π c X) = match estimate E o (restate π c X) with
          | none => .error .valueError
          | some f => .ok (f.phis, f.thetas, f.order, f.resid) := by
        have he : estimate E' (restateObj π c o) (restate π c X) = estimate E o (restate π c X) := rfl
        unfold armaPart
        rw [he]
        rcases hnone with h | h
        · have : (restateObj π c o).ar = none := by simp [restateObj, h]
          rw [this]; rfl
        · have : (restateObj π c o).ma = none := by simp [restateObj, h]
          rw [this]; cases (restateObj π c o).ar <;> rfl
      rw [h1, h2]
      obtain ⟨g, hg, hcr⟩ := hcr hnone
      rcases estimate_restated hg hcr with ⟨h3, h4⟩ | ⟨pq, hpq, h3, h4⟩
      · rw [h3, h4]
        exact ⟨fun e h => h, fun _ _ _ _ h => by cases h⟩
      · rw [h3, h4]
        refine ⟨fun e h => (by cases h), fun phis thetas pq' R h => ?_⟩
        simp only [Except.ok.injEq, Prod.mk.injEq] at h
        obtain ⟨rfl, rfl, rfl, rfl⟩ := h
        have hf := hvar hnone pq hpq
        exact ⟨_, _, _, by simp only [hf.order], hf.phisLength, hf.phis, hf.thetasLength, hf.thetas, hf.rows, hf.resid⟩
    cases ha : o.ar with
    | none => exact hest (Or.inl ha)
    | some phis0 =>
      cases hm : o.ma with
      | none => exact hest (Or.inr hm)
      | some thetas0 =>
        rw [armaPart_some ha hm, armaPart_some (o := restateObj π c o) (phis := phis0.map (restateM π c)) (thetas := thetas0.map (restateM π c))
          (by simp [restateObj, ha]) (by simp [restateObj, hm])]
        refine ⟨fun e h => (by cases h), fun phis thetas pq' R h => ?_⟩
        simp only [Except.ok.injEq, Prod.mk.injEq] at h
        obtain ⟨rfl, rfl, rfl, rfl⟩ := h
        refine ⟨_, _, _, rfl, by simp, fun k i _ j _ => lagFn_restate phis0 k i j, by simp, fun k i _ j _ => lagFn_restate thetas0 k i j, by
          simp [calcResiduals, restate], ?_⟩
        exact residuals_restated hπ hc (hnoise phis0 thetas0 ha hm)
  have hpr : (restateObj π c o).prune = o.prune := rfl
  have main : ∀ phis thetas pq R, armaPart E o X = .ok (phis, thetas, pq, R) → ∃ phis' thetas' R',
      armaPart E' (restateObj π c o) (restate π c X) = .ok (phis', thetas', pq, R') ∧ (lingam' R').1.map π = (E.lingam R).1 ∧
      (∀ e, matrices E o X (phis.getD []) (thetas.getD []) pq R (E.lingam R).1 (E.lingam R).2 = .error e →
        matrices E' (restateObj π c o) (restate π c X) (phis'.getD []) (thetas'.getD []) pq R' (lingam' R').1 (lingam' R').2 = .error e) ∧
      ∀ ms, matrices E o X (phis.getD []) (thetas.getD []) pq R (E.lingam R).1 (E.lingam R).2 = .ok ms → ∃ ms',
        matrices E' (restateObj π c o) (restate π c X) (phis'.getD []) (thetas'.getD []) pq R' (lingam' R').1 (lingam' R').2 = .ok ms' ∧
        ms'.1.length = ms.1.length ∧ ms'.2.length = ms.2.length ∧
        (∀ k, RestatedMatrix E.n π c (lagFn ms.1 k) (lagFn ms'.1 k)) ∧ ∀ k, RestatedMatrix E.n π c (lagFn ms.2 k) (lagFn ms'.2 k) := by
    intro phis thetas pq R hR
    obtain ⟨phis', thetas', R', h1, h2, h3, h4, h5, h6, h7⟩ := har.2 phis thetas pq R hR
    obtain ⟨g1, g2, g3, g4⟩ := hling phis thetas pq R hR R' h6 h7
    refine ⟨phis', thetas', R', h1, g1, ?_⟩
    have hl := fun hp => hlasso hp phis thetas pq R hR
    rw [← g1] at hl ⊢
    exact matrices_restated hn rfl rfl hpr hπ hc h2 h3 h4 h5 h6 h7 g2 g3 g4 hX hl
  constructor
  · intro e h
    unfold fit at h ⊢
    split at h
    · rename_i e' he
      rw [har.1 e' he]
      exact h
    · rename_i phis thetas pq R hR
      obtain ⟨phis', thetas', R', h1, _, h2, _⟩ := main _ _ _ _ hR
      rw [h1]
      simp only
      split at h
      · rename_i e' he
        have := h2 e' he
        have hE : E'.lingam = lingam' := rfl
        rw [hE, this]
        exact h
      · cases h
  · intro o1 h
    obtain ⟨phis, thetas, pq, R, ms, hR, hms, rfl⟩ := fit_ok h
    obtain ⟨phis', thetas', R', h1, h0, _, h2⟩ := main _ _ _ _ hR
    obtain ⟨ms', h3, h4, h5, h6, h7⟩ := h2 ms hms
    have hfit : fit E' (restateObj π c o) (restate π c X) = .ok { restateObj π c o with
        ar := phis', ma := thetas', order := pq, residuals := some R', causalOrder := some (lingam' R').1, adjacency := some ms' } := by
      unfold fit
      rw [h1]
      have hE : E'.lingam = lingam' := rfl
      simp only [hE, h3]
    exact ⟨_, (E.lingam R).1, (lingam' R').1, ms.1, ms.2, ms'.1, ms'.2, hfit, rfl, rfl, h0, rfl, rfl, rfl, h4, h5, h6, h7⟩

end General

section Reals
open Verif.Pairwise (Lin Lars fitLasso predict list_getD_map getD_of_lt)
open Verif.GroupData (Requires reorderCfg)
open Verif.Var (lassoLingam)

variable {lin : ∀ N, Lin N} {lars : ∀ N, Lars N} {n : Nat} {π : Nat → Nat} {c : Nat → ℝ}

/-- lingam/varma_lingam.py:449-456: `predict_adaptive_lasso` of column `t` on the columns `ps` of `X_joined`. -/
noncomputable def lassoSel (lin : ∀ N, Lin N) (lars : ∀ N, Lars N) : Lasso ℝ := fun N x ps t k =>
  predict (lin N) (lars N) (fun j (r : Fin N) => x r j) ps t k

theorem predict_agree {N : Nat} {lin : Lin N} {lars : Lars N} {X X' : Nat → Fin N → ℝ} {ps : List Nat} {t : Nat}
    (h : ∀ a, a ∈ ps ∨ a = t → X a = X' a) (k : Nat) : predict lin lars X ps t k = predict lin lars X' ps t k := by
  have e1 : X t = X' t := h t (Or.inr rfl)
  have e2 : (ps.map fun p => Pairwise.scaled (X p)) = ps.map fun p => Pairwise.scaled (X' p) :=
    List.map_congr_left fun p hp => by rw [h p (Or.inl hp)]
  unfold predict
  rw [e1, e2]
  simp only
  split
  · congr 1
    refine List.map_congr_left fun i hi => ?_
    have hlt : i < ps.length := by simpa using Pairwise.kept_lt hi
    refine h _ (Or.inl ?_)
    rw [getD_of_lt hlt]
    exact List.getElem_mem _
  · rfl

/-- The adaptive Lasso on independent columns follows the description of the columns. -/
theorem lassoSel_restates (hlin : ∀ N, RightRegression (lin N))
    (hlars : ∀ N cols, IndependentCols cols → ∀ d y, TreatsAlike (lars N) (multiplied d cols) y) {N : Nat} (hN : N ≠ 0) {x : Nat → Nat → ℝ}
    {ps : List Nat} {t : Nat} (hnd : ps.Nodup) (hi : IndependentCols (ps.map (fun a (r : Fin N) => x r a))) :
    LassoRestates (lassoSel lin lars) N x ps t := by
  intro x' ps' t' τ s hs hperm ht hx a ha
  have hget : ps'.getD (ps'.idxOf a) 0 = a := by
    rw [getD_of_lt (List.idxOf_lt_length_of_mem ha), List.getElem_idxOf]
  unfold lassoSel
  rw [predict_agree (X' := fun j (r : Fin N) => s j * x r (τ j) + 0) (fun b hb => by funext r; rw [hx r r.2 b hb, add_zero])]
  have hmap : (ps'.map fun b (r : Fin N) => x r (τ b)) = (ps'.map τ).map (fun b (r : Fin N) => x r b) := by simp [Function.comp_def]
  have hi' : IndependentCols (ps'.map fun b (r : Fin N) => x r (τ b)) := by
    rw [hmap]
    have hps : (ps'.map τ) = ((ps'.map τ).map fun b => ps.idxOf b).map (fun k => ps.getD k 0) := by
      have key : ∀ l : List Nat, (∀ b ∈ l, b ∈ ps) → l = (l.map fun b => ps.idxOf b).map (fun k => ps.getD k 0) := fun l hl => by
        rw [List.map_map]
        conv_lhs => rw [← List.map_id l]
        refine List.map_congr_left fun b hb => ?_
        simp only [Function.comp_apply, id]
        rw [getD_of_lt (List.idxOf_lt_length_of_mem (hl b hb)), List.getElem_idxOf]
      exact key _ fun b hb => hperm.mem_iff.1 hb
    have hnd' : (ps'.map τ).Nodup := hperm.nodup_iff.2 hnd
    have hidx : ((ps'.map τ).map fun b => ps.idxOf b).Nodup := (List.nodup_map_iff_inj_on hnd').2 fun u hu v hv e => by
      have hu := hperm.mem_iff.1 hu
      exact (List.idxOf_inj hu).1 e
    have := Pairwise.independent_sub hi hidx (fun k hk => by
      obtain ⟨b, hb, rfl⟩ := List.mem_map.1 hk
      rw [List.length_map]
      exact List.idxOf_lt_length_of_mem (hperm.mem_iff.1 hb))
    rw [hps, List.map_map]
    refine Eq.mp (congrArg IndependentCols (List.map_congr_left fun k hk => ?_)) this
    obtain ⟨b, hb, rfl⟩ := List.mem_map.1 hk
    exact Pairwise.list_getD_map _ ps (List.idxOf_lt_length_of_mem (hperm.mem_iff.1 hb)) 0 0
  rw [Pairwise.C197_units (hlin N) (lars N) (X := fun j (r : Fin N) => x r (τ j)) (a := fun _ => 0) hi' hs, hget]
  congr 1
  have hτ := GroupData.predict_reordered (lin N) (lars N) (fun j (r : Fin N) => x r j) τ ps' t' (ps'.idxOf a)
  refine hτ.trans ?_
  rw [ht]
  have hinj : ∀ b ∈ ps', τ b = τ a → b = a := fun b hb e => by
    have hnd' : (ps'.map τ).Nodup := hperm.nodup_iff.2 hnd
    exact List.inj_on_of_nodup_map hnd' hb ha e
  rw [← GroupData.idxOf_map_inj ps' a hinj]
  exact Pairwise.C219_list (hlin N) _ hnd hperm t hi (fun d => hlars N _ (Var.zscores_independent hN hi) d _) (τ a)
    (hperm.mem_iff.1 (List.mem_map_of_mem ha))

theorem lassoLingam_nodup (cfg : Direct.Config) (n : Nat) (D : Data ℝ) : (lassoLingam cfg lin lars n D).1.Nodup := by
  unfold lassoLingam
  split
  · rename_i q hq
    unfold fitLasso at hq
    split at hq
    · cases hq
    · rename_i order' ho'
      split at hq
      · cases hq
      · simp only [Except.ok.injEq] at hq
        subst hq
        exact (Pairwise.fitOrder_perm ho').nodup_iff.2 List.nodup_range
  · exact List.nodup_nil

theorem identified_reordered {N : Nat} {X : Nat → Fin N → ℝ} (hπ : Rearranges n π) (h : Identified n X) : Identified n (fun j => X (π j)) := by
  intro b b0 hz j hj
  have hex : ∀ k, ∃ j, k < n → j < n ∧ π j = k := fun k => by
    by_cases hk : k < n
    · obtain ⟨j, h1, h2⟩ := rearranges_surj hπ hk
      exact ⟨j, fun _ => ⟨h1, h2⟩⟩
    · exact ⟨0, fun h => absurd h hk⟩
  choose τ hτ using hex
  have hτπ : ∀ k, k < n → τ (π k) = k := fun k hk => rearranges_inj hπ (hτ _ (rearranges_lt hπ hk)).1 hk (hτ _ (rearranges_lt hπ hk)).2
  have := h (fun k => b (τ k)) b0 (fun r => by
    rw [← hz r, ← sum_rearranged hπ (fun k => b (τ k) * X k r)]
    congr 1
    exact sum_congr rfl fun k hk => by beta_reduce; rw [hτπ k (mem_range.1 hk)]) (π j) (rearranges_lt hπ hj)
  beta_reduce at this
  rwa [hτπ j hj] at this

/-- `DirectLiNGAM` on data with independent columns and a unique order follows the description of the data. -/
theorem lassoLingam_restates {cfg : Direct.Config} (hard : cfg.pk ≠ none → cfg.soft = false) (hlin : ∀ N, RightRegression (lin N))
    (hπ : Rearranges n π) (hfix : ∀ j, n ≤ j → π j = j) (hc : ∀ j, j < n → 0 < c j) {D : Data ℝ} (hN : D.rows ≠ 0)
    (hid : Identified n (fun j (r : Fin D.rows) => D.val r j)) {l : List Nat}
    (hj : JointOrder (Requires cfg n) [⟨D.rows, fun j r => D.val r j⟩] (List.range n) l) :
    LingamRestates n π c (lassoLingam cfg lin lars n) (lassoLingam (reorderCfg π cfg) lin lars n) D := by
  intro D' hrows hres
  obtain ⟨h1, h2, h3⟩ := Var.lassoLingam_reorders (lin := lin) (lars := lars) hard hπ hfix hN hid hj (Var.reorder π D) rfl (fun r _ i _ => rfl)
  have hid' : Identified n (fun j (r : Fin (Var.reorder π D).rows) => (Var.reorder π D).val r j) := identified_reordered hπ hid
  obtain ⟨h4, h5⟩ := Var.lassoLingam_units lars (reorderCfg π cfg) hlin hc hid' D' hrows hres
  refine ⟨by rw [h4]; exact h1, lassoLingam_nodup _ _ _, by rw [h4]; exact h2, fun i hi j hj => ?_⟩
  rw [h5 i hi j hj, h3 i hi j hj]

/-- **C228, partial**, for the default parts: `DirectLiNGAM` on the residuals and the adaptive Lasso for pruning.  Assumed is that the VARMA
estimation follows the description, that the residuals determine their order without ties and that the columns of the regressions are
independent. -/
theorem C228_default_partial {cfg : Direct.Config} (hard : cfg.pk ≠ none → cfg.soft = false) (hlin : ∀ N, RightRegression (lin N))
    (hlars : ∀ N cols, IndependentCols cols → ∀ d y, TreatsAlike (lars N) (multiplied d cols) y) (E : Env ℝ)
    (hEl : E.lingam = lassoLingam cfg lin lars E.n) (hEr : E.lasso = lassoSel lin lars) (noise' : Data ℝ → Nat → Nat → ℝ) (o : Obj ℝ) (X : Data ℝ)
    (hn : 0 < E.n) (hX : X.rows ≠ 0) (hπ : Rearranges E.n π) (hfix : ∀ j, E.n ≤ j → π j = j) (hc : ∀ j, j < E.n → 0 < c j)
    (hvar : o.ar = none ∨ o.ma = none → ∀ pq, pq ∈ orders o.order ∨ pq = o.order → FitRestates E.n π c (E.varmax X pq) (E.varmax (restate π c X) pq))
    (hcr : o.ar = none ∨ o.ma = none → ∃ g : ℝ → ℝ, StrictMono g ∧
      ∀ pq ∈ orders o.order, (E.varmax (restate π c X) pq).crit = (E.varmax X pq).crit.map g)
    (hnoise : ∀ phis thetas, o.ar = some phis → o.ma = some thetas → thetas ≠ [] →
      ∀ r, r < max phis.length thetas.length → ∀ i, i < E.n → noise' (restate π c X) r i = c i * E.noise X r (π i))
    (hres : ∀ phis thetas pq R, armaPart E o X = .ok (phis, thetas, pq, R) → Identified E.n (fun j (r : Fin R.rows) => R.val r j) ∧
      (∃ l, JointOrder (Requires cfg E.n) [⟨R.rows, fun j r => R.val r j⟩] (List.range E.n) l) ∧
      (o.prune = true → Identified (E.n * (1 + pq.1 + pq.2))
        (fun a (r : Fin X.rows) => joined E.n pq.1 X (disturbances E.n (E.lingam R).2 R) r a))) :
    (∀ e, fit E o X = .error e →
      fit { E with lingam := lassoLingam (reorderCfg π cfg) lin lars E.n, noise := noise' } (restateObj π c o) (restate π c X) = .error e) ∧
    ∀ o1, fit E o X = .ok o1 → ∃ o2 order order' psis omegas psis' omegas',
      fit { E with lingam := lassoLingam (reorderCfg π cfg) lin lars E.n, noise := noise' } (restateObj π c o) (restate π c X) = .ok o2 ∧
      o1.causalOrder = some order ∧ o2.causalOrder = some order' ∧ order'.map π = order ∧ o2.order = o1.order ∧
      o1.adjacency = some (psis, omegas) ∧ o2.adjacency = some (psis', omegas') ∧ psis'.length = psis.length ∧ omegas'.length = omegas.length ∧
      (∀ k, RestatedMatrix E.n π c (lagFn psis k) (lagFn psis' k)) ∧ ∀ k, RestatedMatrix E.n π c (lagFn omegas k) (lagFn omegas' k) := by
  refine C228_fit_partial E _ noise' o X hn hX hπ hc hvar hcr hnoise (fun phis thetas pq R hR => ?_) (fun hp phis thetas pq R hR i _ => ?_)
  · obtain ⟨hid, ⟨l, hl⟩, _⟩ := hres _ _ _ _ hR
    have hN : R.rows ≠ 0 := fun h0 => by
      have := hid (fun _ => 1) 0 (fun r => absurd r.2 (by omega)) 0 hn
      norm_num at this
    rw [hEl]
    exact lassoLingam_restates hard hlin hπ hfix hc hN hid hl
  · obtain ⟨_, _, h⟩ := hres _ _ _ _ hR
    rw [hEr]
    have hnd : (predictors E.n pq.1 pq.2 (E.lingam R).1 ((E.lingam R).1.idxOf i)).Nodup := List.nodup_range.filter _
    exact lassoSel_restates hlin hlars hX hnd (Pairwise.independent_of_identified (h hp) hnd fun a ha =>
      List.mem_range.1 (List.mem_of_mem_filter ha))

/-! ### A concrete series -/

theorem joined_identified {p : Nat} {X ee : Data ℝ} (h : WindowIndependent n p X.rows X.val) :
    Identified (n * (1 + p + 0)) (fun a (r : Fin X.rows) => joined n p X ee r a) := by
  intro b b0 hz a ha
  have hn : 0 < n := Nat.pos_of_ne_zero fun h0 => by subst h0; simp at ha
  have hk : a / n < 1 + p := Nat.div_lt_of_lt_mul (by simpa using ha)
  have := h b0 (fun k j => b (n * k + j)) (fun t h1 h2 => by
    refine Eq.trans ?_ (hz ⟨t, h2⟩)
    congr 1
    rw [Longitudinal.sum_blocks, Nat.add_zero, Nat.add_comm 1 p]
    refine sum_congr rfl fun k hk => sum_congr rfl fun j hj => ?_
    have hk := mem_range.1 hk
    have hj := mem_range.1 hj
    unfold joined
    beta_reduce
    rw [Nat.mul_add_div hn, Nat.div_eq_of_lt hj, Nat.add_zero, Nat.mul_add_mod, Nat.mod_eq_of_lt hj, if_pos (by omega),
      Nat.mod_eq_of_lt (show k < X.rows by omega), show t + X.rows - k = (t - k) + X.rows by omega, Nat.add_mod_right,
      Nat.mod_eq_of_lt (by omega)]) (a / n) (by omega) (a % n) (Nat.mod_lt _ hn)
  beta_reduce at this
  rwa [Nat.div_add_mod] at this

/-- The environment of the example: coefficients are given, so that the VARMA estimation is not used. -/
noncomputable def givenEnv (lin : ∀ N, Lin N) (lars : ∀ N, Lars N) : Env ℝ where
  n := 2
  varmax := fun X pq => ⟨none, none, pq, X, none⟩
  lingam := lassoLingam { } lin lars 2
  lasso := lassoSel lin lars
  noise := fun _ _ _ => 1

theorem residuals_zero (noise : Nat → Nat → ℝ) (X : Data ℝ) {r : Nat} (hr : r + 1 < X.rows) (i : Nat) :
    (calcResiduals n noise X [fun _ _ => 0] []).val r i = X.val (r + 1) i := by
  unfold calcResiduals
  simp only [List.length_singleton, List.length_nil, Nat.max_zero]
  rw [epsilon_row _ _ _ _ _ hr, if_neg (by simp)]
  simp [lagFn1, mv]

/-- The hypotheses of `C228_default_partial` hold for this series with the lag coefficients zero and with pruning, the columns exchanged and
both variables in another unit. -/
example : ∃ (lin : ∀ N, Lin N) (lars : ∀ N, Lars N) (o1 o2 : Obj ℝ) (order order' : List Nat) (psis psis' omegas omegas' : List (Nat → Nat → ℝ)),
    fit (givenEnv lin lars) ⟨some [fun _ _ => 0], some [], (1, 0), false, true, none, none, none⟩ Var.shockSeries = .ok o1 ∧
    fit (givenEnv lin lars) (restateObj (fun j => if j < 2 then 1 - j else j) (fun j => if j = 0 then 2 else 3)
        ⟨some [fun _ _ => 0], some [], (1, 0), false, true, none, none, none⟩)
      (restate (fun j => if j < 2 then 1 - j else j) (fun j => if j = 0 then 2 else 3) Var.shockSeries) = .ok o2 ∧
    o1.causalOrder = some order ∧ o2.causalOrder = some order' ∧ order'.map (fun j => if j < 2 then 1 - j else j) = order ∧
    o1.adjacency = some (psis, omegas) ∧ o2.adjacency = some (psis', omegas') ∧
    lagFn psis' 0 1 0 = lagFn psis 0 0 1 * (3 / 2) ∧ lagFn psis' 1 0 0 = lagFn psis 1 1 1 * (2 / 2) := by
  choose lin lars hlin _ hal using Pairwise.exists_alike
  have hreq : Requires { } 2 = fun _ _ => False := by
    funext a b
    simp [Requires]
  have hsum : ∀ f : Fin 4 → ℝ, ∑ r, f (Var.twice r) = 2 * ∑ r, f r := fun f => by
    simp [Fin.sum_univ_eight, Fin.sum_univ_four, Var.twice]
    ring
  have hval : ∀ j (r : Fin 8), Var.shockSeries.val (r + 1) j = Pairwise.witnessX j (Var.twice r) := fun j r => by
    have : 1 ≤ (r : Nat) + 1 ∧ (r : Nat) + 1 < 9 := by omega
    simp [Var.shockSeries, this]
  have hid : Identified 2 (fun j (r : Fin 8) => Pairwise.witnessX j (Var.twice r)) := by
    have := Var.identified_of_window Var.shockSeries_window (lagFn1 [fun _ _ => (0 : ℝ)]) (N := 8) rfl
      (v := fun r j => Var.shockSeries.val (r + 1) j) fun r _ i _ => (Var.residFull_zero _ _ _).symm
    simpa only [hval] using this
  have hR : ∀ noise, (fun j (r : Fin 8) => (calcResiduals 2 noise Var.shockSeries [fun _ _ => 0] []).val r j) =
      fun j (r : Fin 8) => Pairwise.witnessX j (Var.twice r) := fun noise => by
    funext j r
    rw [residuals_zero noise Var.shockSeries (by show (r : Nat) + 1 < 9; omega), hval]
  obtain ⟨_, h⟩ := C228_default_partial (cfg := { }) (fun h => absurd rfl h) hlin hal (givenEnv lin lars) rfl rfl (fun _ _ _ => 1)
    ⟨some [fun _ _ => 0], some [], (1, 0), false, true, none, none, none⟩ Var.shockSeries
    (π := fun j => if j < 2 then 1 - j else j) (c := fun j => if j = 0 then 2 else 3) (by show 0 < 2; omega) (by show 9 ≠ 0; omega)
    (by show Rearranges 2 _; unfold Rearranges; decide) (fun j hj => if_neg (by have : 2 ≤ j := hj; omega))
    (fun j _ => by beta_reduce; split <;> norm_num) (fun h => by rcases h with h | h <;> cases h) (fun h => by rcases h with h | h <;> cases h)
    (fun phis thetas _ h h0 => absurd (by injection h with h; exact h.symm) h0)
    (fun phis thetas pq R h => by
      rw [armaPart_some rfl rfl] at h
      simp only [Except.ok.injEq, Prod.mk.injEq] at h
      obtain ⟨-, -, rfl, rfl⟩ := h
      refine ⟨?_, ⟨[1, 0], ?_⟩, fun _ => joined_identified Var.shockSeries_window⟩
      · have h1 : Identified 2 (fun j (r : Fin 8) => (calcResiduals 2 (fun _ _ => 1) Var.shockSeries [fun _ _ => 0] []).val r j) := by
          rw [hR]
          exact hid
        exact h1
      · have h1 : JointOrder (Requires { } 2) [⟨8, fun j r => (calcResiduals 2 (fun _ _ => 1) Var.shockSeries [fun _ _ => 0] []).val r j⟩] (List.range 2)
            [1, 0] := by
          rw [hR, hreq]
          exact GroupData.joint_of_copies (k := 1) one_ne_zero
            (Var.pairwise_repeated two_ne_zero (by norm_num) hsum Pairwise.witness_order) List.nodup_range (Pairwise.indep_range hid)
        exact h1)
  obtain ⟨o1, ho1⟩ : ∃ o1, fit (givenEnv lin lars) ⟨some [fun _ _ => 0], some [], (1, 0), false, true, none, none, none⟩ Var.shockSeries = .ok o1 := by
    simp [fit, armaPart, matrices, pruning]
  obtain ⟨o2, order, order', psis, omegas, psis', omegas', h1, h2, h3, h4, h5, h6, h7, h8, h9, h10, h11⟩ := h o1 ho1
  refine ⟨lin, lars, o1, o2, order, order', psis, psis', omegas, omegas', ho1, h1, h2, h3, h4, h6, h7, ?_, ?_⟩
  · exact (h10 0 1 (by show 1 < 2; omega) 0 (by show 0 < 2; omega)).trans (by norm_num)
  · exact (h10 1 0 (by show 0 < 2; omega) 0 (by show 0 < 2; omega)).trans (by norm_num)

end Reals

section Noise
variable {K : Type} [Field K] [LinearOrder K] [IsStrictOrderedRing K]

/-- **C228, the noise.** With a given moving average part the first errors are drawn from a standard normal distribution whatever the
unit of the series: with the same noise `z` the residuals in another unit are not the converted residuals. -/
theorem C228_noise_violated (E : Env K) (hn : E.n = 1) {θ z q : K} (hz : E.noise = fun _ _ _ => z) (hθ : θ ≠ 0) (hz0 : z ≠ 0) (hq : 0 < q)
    (hq1 : q ≠ 1) (x : Nat → Nat → K) : ∃ o1 o2 R R',
      fit E ⟨some [], some [fun _ _ => θ], (0, 1), false, false, none, none, none⟩ ⟨2, x⟩ = .ok o1 ∧
      fit E (restateObj id (fun _ => q) ⟨some [], some [fun _ _ => θ], (0, 1), false, false, none, none, none⟩) (restate id (fun _ => q) ⟨2, x⟩) = .ok o2 ∧
      o1.residuals = some R ∧ o2.residuals = some R' ∧ R'.val 0 0 ≠ q * R.val 0 0 := by
  refine ⟨_, _, _, _, rfl, rfl, rfl, rfl, ?_⟩
  have e1 : (calcResiduals E.n (E.noise ⟨2, x⟩) ⟨2, x⟩ [] [fun _ _ => θ]).val 0 0 = x 1 0 - θ * z := by
    rw [hn, hz]
    unfold calcResiduals
    simp only [List.length_singleton, List.length_nil, Nat.zero_max]
    rw [epsilon_row _ _ _ _ _ (by omega), if_neg (by simp)]
    simp only [List.length_singleton, List.length_nil, Finset.sum_range_zero, zero_add, Finset.sum_range_one, mv, lagFn1]
    rw [epsilon_row _ _ _ _ _ (by omega), if_pos (by simp)]
    simp
  have e2 : (calcResiduals E.n (E.noise (restate id (fun _ => q) ⟨2, x⟩)) (restate id (fun _ => q) ⟨2, x⟩) (List.map (restateM id (fun _ => q)) [])
      (List.map (restateM id (fun _ => q)) [fun _ _ => θ])).val 0 0 = q * x 1 0 - θ * z := by
    rw [hn, hz]
    unfold calcResiduals
    simp only [List.map_nil, List.map_cons, List.length_singleton, List.length_nil, Nat.zero_max]
    have hr : (restate id (fun _ => q) (⟨2, x⟩ : Data K)).rows = 2 := rfl
    rw [hr, epsilon_row _ _ _ _ _ (by omega), if_neg (by simp)]
    simp only [List.length_singleton, List.length_nil, Finset.sum_range_zero, zero_add, Finset.sum_range_one, mv, lagFn1]
    rw [epsilon_row _ _ _ _ _ (by omega), if_pos (by simp)]
    simp [restateM, restate, div_self hq.ne']
  refine fun h => ?_
  have h' := e2.symm.trans (h.trans (congrArg (q * ·) e1))
  have : (q - 1) * (θ * z) = 0 := by linear_combination h'
  rcases mul_eq_zero.1 this with h | h
  · exact hq1 (sub_eq_zero.1 h)
  · rcases mul_eq_zero.1 h with h | h
    · exact hθ h
    · exact hz0 h

example : ∃ R R' : Data ℚ, R'.val 0 0 ≠ 2 * R.val 0 0 := by
  obtain ⟨_, _, R, R', _, _, _, _, h⟩ := C228_noise_violated (K := ℚ)
    ⟨1, fun X pq => ⟨none, none, pq, X, none⟩, fun _ => ([0], fun _ _ => 0), fun _ _ _ _ _ => 0, fun _ _ _ => 1⟩ rfl (θ := 1) (q := 2) rfl one_ne_zero one_ne_zero
    two_pos (by norm_num) (fun _ _ => 1)
  exact ⟨R, R', h⟩

end Noise
end Verif.Varma
