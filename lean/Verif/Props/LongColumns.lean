import Verif.Props.LongUnits
import Verif.Props.VarColumns

/-!
# The order of the columns in LongitudinalLiNGAM (C227)
-/
set_option linter.unusedSectionVars false
set_option autoImplicit false
namespace Verif.LongData
open Finset
open Verif.Longitudinal (Panel Obj stacked lagged pkFull pkBase allData splitAdj blockOf orderAt orderAt_eq documented)
open Verif.Pairwise (Lin Lars FitErr fitLasso list_getD_map getD_of_lt rearranges_lt rearranges_inj rearranges_surj sum_rearranged lin_shuffled)
open Verif.GroupData (Requires reorderCfg)
open Verif.Var (rowOrder rowOrder_rearranges joint_congr)

/-- The same panel with its columns in another order (the same at all time points). -/
def reorder (π : Nat → Nat) (X : Panel ℝ) : Panel ℝ := ⟨X.T, X.n, X.p, fun t s i => X.val t s (π i)⟩

/-- The same object, with prior knowledge in the order of the columns. -/
def reorderObj (π : Nat → Nat) (o : Obj ℝ) : Obj ℝ := { o with pk := o.pk.map (fun A t k i j => A t k (π i) (π j)) }

/-- The position of a variable among all variables of all time points. -/
def blocks (p : Nat) (π : Nat → Nat) (c : Nat) : Nat := p * (c / p) + π (c % p)

variable {lib : Lib} {X : Panel ℝ} {π : Nat → Nat} {L t : Nat}

theorem blocks_eq (p : Nat) (π : Nat → Nat) : blocks p π = rowOrder p 0 π := by
  funext c
  simp [blocks, rowOrder]

theorem blocks_rearranges {p : Nat} (hπ : Rearranges p π) (L : Nat) : Rearranges (p * L) (blocks p π) := by
  have := rowOrder_rearranges (m := 0) (p := L) hπ
  rwa [Nat.zero_add, ← blocks_eq] at this

theorem blocks_div {p : Nat} (hp : 0 < p) (hπ : Rearranges p π) (c : Nat) : blocks p π c / p = c / p ∧ blocks p π c % p = π (c % p) :=
  block_div (rearranges_lt hπ (Nat.mod_lt c hp))

theorem blocks_lt {p : Nat} (hp : 0 < p) (hπ : Rearranges p π) (T c : Nat) : blocks p π c < T * p ↔ c < T * p := by
  rw [← Nat.div_lt_iff_lt_mul hp, ← Nat.div_lt_iff_lt_mul hp, (blocks_div hp hπ c).1]

theorem stacked_reordered (hp : 0 < X.p) (hπ : Rearranges X.p π) (c s : Nat) :
    stacked L (reorder π X) t c s = stacked L X t (blocks X.p π c) s := by
  unfold stacked
  rw [(blocks_div hp hπ c).1, (blocks_div hp hπ c).2]
  rfl

theorem coef_reordered (hlin : ∀ N, RightRegression (lib.lin N)) (hp : 0 < X.p) (hπ : Rearranges X.p π) (ht : L ≤ t)
    (h : TimesIndependent X.n X.p (t - L) (t + 1) X.val) {i c : Nat} (hc : c < X.p * L) :
    coef lib L (reorder π X) t i c = coef lib L X t (π i) (blocks X.p π c) := by
  refine lin_shuffled (σ := blocks X.p π) (cols := (List.range (X.p * L)).map (fun c (s : Fin X.n) => stacked L X t c s))
    (cols' := (List.range (X.p * L)).map (fun c (s : Fin X.n) => stacked L (reorder π X) t c s)) (y := fun s => X.val t s (π i))
    (hlin X.n) ⟨by simp, by simpa using blocks_rearranges hπ L, fun k hk => ?_⟩ (stacked_independent ht h) (by simpa using hc)
  have hk : k < X.p * L := by simpa using hk
  have hk' := rearranges_lt (blocks_rearranges hπ L) hk
  rw [list_getD_map _ _ (by simpa using hk) 0 0, list_getD_map _ _ (by simpa using hk') 0 0, getD_of_lt (by simpa using hk),
    getD_of_lt (by simpa using hk'), List.getElem_range, List.getElem_range]
  funext s
  exact stacked_reordered hp hπ k s

theorem resid_reordered (hlin : ∀ N, RightRegression (lib.lin N)) (hp : 0 < X.p) (hπ : Rearranges X.p π) (ht : L ≤ t)
    (h : TimesIndependent X.n X.p (t - L) (t + 1) X.val) (i s : Nat) :
    resid lib L (reorder π X) t i s = resid lib L X t (π i) s := by
  unfold resid
  have e : (reorder π X).p = X.p := rfl
  rw [e, ← sum_rearranged (blocks_rearranges hπ L) fun c => coef lib L X t (π i) c * stacked L X t c s]
  congr 1
  refine sum_congr rfl fun c hc => ?_
  rw [coef_reordered hlin hp hπ ht h (mem_range.1 hc), stacked_reordered hp hπ]

/-- `DirectLiNGAM` on reordered columns. -/
theorem direct_reordered {pk : Option (Nat → Nat → Int)} {n N : Nat} (hN : N ≠ 0) {D D' : Nat → Nat → ℝ} {σ : Nat → Nat}
    (hσ : Rearranges n σ) (hlt : ∀ j, σ j < n ↔ j < n) (hid : Identified n (fun j (r : Fin N) => if j < n then D j r else 0))
    (hj : ∃ l, JointOrder (Requires ⟨pk, false, .pwling⟩ n) [⟨N, fun j r => D j r⟩] (List.range n) l)
    (hD : ∀ j, j < n → ∀ s, D' j s = D (σ j) s) :
    (∀ e, direct lib pk n N D = .error e → direct lib (pk.map (fun pk i j => pk (σ i) (σ j))) n N D' = .error e) ∧
    ∀ order B, direct lib pk n N D = .ok (order, B) → ∃ order' B', direct lib (pk.map (fun pk i j => pk (σ i) (σ j))) n N D' = .ok (order', B') ∧
      order'.map σ = order ∧ ∀ i j, i < n → j < n → B' i j = B (σ i) (σ j) := by
  obtain ⟨l, hl⟩ := hj
  have hl' : JointOrder (Requires ⟨pk, false, .pwling⟩ n) [⟨N, fun j r => if j < n then D j r else 0⟩] (List.range n) l :=
    joint_congr (fun i hi => by funext r; rw [if_pos (List.mem_range.1 hi)]) hl
  have := GroupData.C215_single_partial (cfg := ⟨pk, false, .pwling⟩) (fun _ => rfl) hN (lib.lin N) (lib.lars N) hσ hid hl'
  have he : (fun j (r : Fin N) => if σ j < n then D (σ j) r else 0) = fun j (r : Fin N) => if j < n then D' j r else 0 := by
    funext j r
    by_cases h : j < n
    · rw [if_pos ((hlt j).2 h), if_pos h, hD j h r]
    · rw [if_neg (fun h' => h ((hlt j).1 h')), if_neg h]
  rw [he] at this
  exact this

/-- The loop over the time points. -/
theorem instants_reordered (hlin : ∀ N, RightRegression (lib.lin N)) (hn : X.n ≠ 0) (hp : 0 < X.p) (hπ : Rearranges X.p π)
    (hlt : ∀ j, π j < X.p ↔ j < X.p) : ∀ ts : List Nat,
    (∀ t ∈ ts, L ≤ t ∧ TimesIndependent X.n X.p (t - L) (t + 1) X.val ∧
      ∃ l, JointOrder (fun _ _ => False) [⟨X.n, fun j r => resid lib L X t j r⟩] (List.range X.p) l) →
    (∀ e, instants lib L X ts = .error e → instants lib L (reorder π X) ts = .error e) ∧
    ∀ rs, instants lib L X ts = .ok rs → rs.length = ts.length ∧ ∃ rs', instants lib L (reorder π X) ts = .ok rs' ∧
      rs'.length = ts.length ∧ ∀ k (_ : k < ts.length) d, (rs'.getD k d).1.map π = (rs.getD k d).1 ∧
        ∀ i j, i < X.p → j < X.p → (rs'.getD k d).2 i j = (rs.getD k d).2 (π i) (π j)
  | [], _ => by
    refine ⟨fun e h => (by cases h), fun rs h => ?_⟩
    simp only [instants, Except.ok.injEq] at h
    subst h
    exact ⟨rfl, [], rfl, rfl, fun k h => by simp at h⟩
  | t :: ts, h => by
    obtain ⟨h1, h2, h3⟩ := h t (by simp)
    have hreq : Requires ⟨none, false, .pwling⟩ X.p = fun _ _ => False := by
      funext a b
      simp [Requires]
    obtain ⟨d1, d2⟩ := direct_reordered (lib := lib) (pk := none) hn hπ hlt (resid_identified lib h1 h2) (hreq ▸ h3)
      (D' := resid lib L (reorder π X) t) (fun j _ s => resid_reordered hlin hp hπ h1 h2 j s)
    obtain ⟨i1, i2⟩ := instants_reordered hlin hn hp hπ hlt ts (fun t ht => h t (by simp [ht]))
    have ep : (reorder π X).p = X.p := rfl
    have en : (reorder π X).n = X.n := rfl
    rw [Option.map_none] at d1 d2
    unfold instants
    rw [ep, en]
    cases hd : direct lib none X.p X.n (resid lib L X t) with
    | error e =>
      rw [d1 e hd]
      exact ⟨fun e h => h, fun rs h => by cases h⟩
    | ok r =>
      obtain ⟨order, B⟩ := r
      obtain ⟨order', B', hB, ho, hc⟩ := d2 order B hd
      rw [hB]
      simp only
      cases hi : instants lib L X ts with
      | error e =>
        rw [i1 e hi]
        exact ⟨fun e h => h, fun rs h => by cases h⟩
      | ok rs =>
        obtain ⟨hl, rs', hr, hl', hk⟩ := i2 rs hi
        rw [hr]
        refine ⟨fun e h => (by cases h), fun rs0 h0 => ?_⟩
        simp only [Except.ok.injEq] at h0
        subst h0
        refine ⟨by simp [hl], _, rfl, by simp [hl'], fun k hkl d => ?_⟩
        cases k with
        | zero => exact ⟨ho, hc⟩
        | succ k =>
          have := hk k (by simpa using hkl) d
          simpa using this

theorem lagged_reordered {p : Nat} (hπ : Rearranges p π) {B B' M M' : Nat → Nat → ℝ}
    (hB : ∀ i j, i < p → j < p → B' i j = B (π i) (π j)) {i j j' : Nat} (hi : i < p) (hM : ∀ k, k < p → M' k j = M (π k) j') :
    lagged p B' M' i j = lagged p B M (π i) j' := by
  unfold lagged
  rw [← sum_rearranged hπ fun k => ((if π i = k then 1 else 0) - B (π i) k) * M k j']
  refine sum_congr rfl fun k hk => ?_
  have hk := mem_range.1 hk
  beta_reduce
  rw [hB i k hi hk, hM k hk]
  by_cases hik : i = k
  · rw [if_pos hik, if_pos (by rw [hik])]
  · rw [if_neg hik, if_neg fun e => hik (rearranges_inj hπ hi hk e)]

theorem pkFull_reordered {p : Nat} (hp : 0 < p) (hπ : Rearranges p π) (L : Nat) (A : Nat → Nat → Nat → Nat → Int) :
    pkFull p L (fun t k i j => A t k (π i) (π j)) = fun r c => pkFull p L A (blocks p π r) (blocks p π c) := by
  funext r c
  have hbase : pkBase p L (blocks p π r) (blocks p π c) = pkBase p L r c := by
    have key : ∀ e, (blocks p π c < p * e ↔ c < p * e) := fun e => by rw [Nat.mul_comm]; exact blocks_lt hp hπ e c
    unfold pkBase
    simp only [(blocks_div hp hπ r).1]
    have e1 : (r / p + 1) * p = p * (r / p + 1) := Nat.mul_comm _ _
    have e2 : (r / p + 1) * p - p * (L + 1) = p * (r / p + 1 - (L + 1)) := by rw [e1, Nat.mul_sub]
    rw [e2, e1]
    refine if_congr (and_congr ?_ (key _)) rfl rfl
    rw [← not_lt, ← not_lt, key]
  unfold pkFull
  simp only [(blocks_div hp hπ r).1, (blocks_div hp hπ r).2, (blocks_div hp hπ c).1, (blocks_div hp hπ c).2, hbase]

theorem orderAt_reordered {p T : Nat} (hp : 0 < p) (hπ : Rearranges p π) {order order' : List Nat} (ho : IsOrder (T * p) order)
    (ho' : IsOrder (T * p) order') (h : order'.map (blocks p π) = order) {t : Nat} (ht : t < T) :
    (orderAt p order' t).map π = orderAt p order t := by
  rw [orderAt_eq ho ht hp, orderAt_eq ho' ht hp, ← h, List.filter_map, List.map_map, List.map_map]
  have hblock : ∀ x, (t * p ≤ x ∧ x < (t + 1) * p) ↔ x / p = t := fun x => by
    rw [← Nat.div_lt_iff_lt_mul hp, ← Nat.le_div_iff_mul_le hp]
    omega
  have hf : order'.filter ((fun x => decide (t * p ≤ x ∧ x < (t + 1) * p)) ∘ blocks p π) =
      order'.filter (fun x => decide (t * p ≤ x ∧ x < (t + 1) * p)) := by
    refine List.filter_congr fun x _ => ?_
    simp only [Function.comp]
    rw [decide_eq_decide, hblock, hblock, (blocks_div hp hπ x).1]
  rw [hf]
  refine List.map_congr_left fun x hx => ?_
  rw [List.mem_filter, decide_eq_true_eq, hblock] at hx
  have e := Nat.div_add_mod x p
  simp only [Function.comp]
  unfold blocks
  rw [hx.2] at e ⊢
  have e3 : x - t * p = x % p := by rw [Nat.mul_comm t p]; omega
  rw [e3, Nat.mul_comm t p, Nat.add_sub_cancel_left]

/-- The causal order of the residuals of every time point (without prior knowledge), or of all variables of all time points, is
determined by the data without ties. -/
def UniqueOrders (lib : Lib) (o : Obj ℝ) (X : Panel ℝ) : Prop :=
  match o.pk with
  | none => ∀ t, o.nLags ≤ t → t < X.T →
      ∃ l, JointOrder (fun _ _ => False) [⟨X.n, fun j r => resid lib o.nLags X t j r⟩] (List.range X.p) l
  | some A => ∃ l, JointOrder (MustPrecede (X.T * X.p) (pkFull X.p o.nLags A)) [⟨X.n, fun j r => allData X r j⟩] (List.range (X.T * X.p)) l

/-- **C227, partial** (no ties, see `C227_violated`): `fit` on the same panel with its columns in another order gives the same exception,
or the same orders of the variables and the same coefficients, with and without prior knowledge. -/
theorem C227_fit_partial (hlin : ∀ N, RightRegression (lib.lin N)) (o : Obj ℝ) (X : Panel ℝ) (hX : EnoughData o X) (hu : UniqueOrders lib o X)
    (hn : X.n ≠ 0) (hp : 0 < X.p) (hπ : Rearranges X.p π) (hlt : ∀ j, π j < X.p ↔ j < X.p) :
    (∀ e, fit lib o X = .error e → fit lib (reorderObj π o) (reorder π X) = .error e) ∧
    ∀ o1, fit lib o X = .ok o1 → ∃ o2 os os' A A', fit lib (reorderObj π o) (reorder π X) = .ok o2 ∧
      o1.orders = some os ∧ o2.orders = some os' ∧ os'.map (List.map (Option.map π)) = os ∧
      o1.adjacency = some A ∧ o2.adjacency = some A' ∧ ∀ t l i j, i < X.p → j < X.p → A' t l i j = A t l (π i) (π j) := by
  have hT : (reorder π X).T = X.T := rfl
  have ep : (reorder π X).p = X.p := rfl
  have en : (reorder π X).n = X.n := rfl
  have eL : (reorderObj π o).nLags = o.nLags := rfl
  unfold fit
  rw [hT]
  by_cases hT2 : X.T < 2
  · rw [if_pos hT2, if_pos hT2]
    exact ⟨fun e h => h, fun o1 h => by cases h⟩
  rw [if_neg hT2, if_neg hT2]
  unfold EnoughData at hX
  unfold UniqueOrders at hu
  cases hpk : o.pk with
  | none =>
    have hpk' : (reorderObj π o).pk = none := by simp [reorderObj, hpk]
    rw [hpk] at hX hu
    rw [hpk']
    simp only at hX hu ⊢
    unfold fitPlain
    rw [hT, eL]
    by_cases hL : o.nLags = 0
    · rw [if_pos hL, if_pos hL]
      exact ⟨fun e h => h, fun o1 h => by cases h⟩
    rw [if_neg hL, if_neg hL]
    obtain ⟨i1, i2⟩ := instants_reordered (L := o.nLags) hlin hn hp hπ hlt (List.range' o.nLags (X.T - o.nLags)) (fun t ht => by
      rw [List.mem_range'_1] at ht
      exact ⟨ht.1, hX t ht.1 (by omega), hu t ht.1 (by omega)⟩)
    cases hi : instants lib o.nLags X (List.range' o.nLags (X.T - o.nLags)) with
    | error e =>
      rw [i1 e hi]
      exact ⟨fun e h => h, fun o1 h => by cases h⟩
    | ok rs =>
      obtain ⟨hl, rs', hr, hl', hk⟩ := i2 rs hi
      rw [hr]
      refine ⟨fun e h => (by cases h), fun o1 h1 => ?_⟩
      simp only [Except.ok.injEq] at h1
      subst h1
      refine ⟨_, _, _, _, _, rfl, rfl, rfl, ?_, rfl, rfl, fun t l i j hij hj => ?_⟩
      · simp only [ep, List.map_append, List.map_replicate, Option.map_none, List.map_map]
        congr 1
        apply List.ext_getElem (by simp [hl, hl'])
        intro k h1 h2
        have h3 : k < rs'.length := by simpa using h1
        have h4 : k < rs.length := by simpa using h2
        have := (hk k (by omega) ([], fun _ _ => 0)).1
        rw [getD_of_lt h3, getD_of_lt h4] at this
        simp [← this]
      · by_cases htT : o.nLags ≤ t ∧ t < X.T
        · have hB : ∀ i j, i < X.p → j < X.p → (rs'.getD (t - o.nLags) ([], fun _ _ => 0)).2 i j =
              (rs.getD (t - o.nLags) ([], fun _ _ => 0)).2 (π i) (π j) :=
            (hk (t - o.nLags) (by simp; omega) ([], fun _ _ => 0)).2
          simp only [if_pos htT]
          by_cases hl0 : l = 0
          · simp only [if_pos hl0, hB i j hij hj]
          · simp only [if_neg hl0]
            by_cases hlL : l ≤ o.nLags
            · simp only [if_pos hlL]
              by_cases h0 : t - (l - 1) ≠ 0
              · simp only [if_pos h0]
                congr 1
                refine lagged_reordered hπ hB hij fun k hk => ?_
                rw [ep, coef_reordered hlin hp hπ htT.1 (hX t htT.1 htT.2) (block_lt (by omega) hj)]
                unfold blocks
                rw [(block_div hj).1, (block_div hj).2]
              · simp only [if_neg h0]
            · simp only [if_neg hlL]
        · simp only [if_neg htT]
  | some P =>
    have hpk' : (reorderObj π o).pk = some (fun t k i j => P t k (π i) (π j)) := by simp [reorderObj, hpk]
    rw [hpk] at hX hu
    rw [hpk']
    simp only at hX hu ⊢
    unfold fitPrior
    rw [hT, ep, en, eL, pkFull_reordered hp hπ]
    have hreq : Requires ⟨some (pkFull X.p o.nLags P), false, .pwling⟩ (X.T * X.p) = MustPrecede (X.T * X.p) (pkFull X.p o.nLags P) := by
      funext a b
      simp [Requires]
    obtain ⟨d1, d2⟩ := direct_reordered (lib := lib) (pk := some (pkFull X.p o.nLags P)) hn (D := fun c s => allData X s c)
      (D' := fun c s => allData (reorder π X) s c) (σ := blocks X.p π) (by rw [Nat.mul_comm]; exact blocks_rearranges hπ X.T)
      (fun j => blocks_lt hp hπ X.T j) (allData_identified hX) (hreq ▸ hu) (fun j _ s => by
        unfold allData
        rw [(blocks_div hp hπ j).1, (blocks_div hp hπ j).2]
        rfl)
    rw [Option.map_some] at d1 d2
    cases hd : direct lib (some (pkFull X.p o.nLags P)) (X.T * X.p) X.n (fun c s => allData X s c) with
    | error e =>
      rw [d1 e hd]
      exact ⟨fun e h => h, fun o1 h => by cases h⟩
    | ok r =>
      obtain ⟨order, B⟩ := r
      obtain ⟨order', B', hB, ho, hc⟩ := d2 order B hd
      rw [hB]
      refine ⟨fun e h => (by cases h), fun o1 h1 => ?_⟩
      simp only [Except.ok.injEq] at h1
      subst h1
      refine ⟨_, _, _, _, _, rfl, rfl, rfl, ?_, rfl, rfl, fun t l i j hij hj => ?_⟩
      · have isOrd : ∀ {pk D o B}, direct lib pk (X.T * X.p) X.n D = .ok (o, B) → IsOrder (X.T * X.p) o := by
          intro pk D o B h
          unfold direct fitLasso at h
          split at h
          · cases h
          · rename_i order' ho'
            split at h
            · cases h
            · simp only [Except.ok.injEq, Prod.mk.injEq] at h
              obtain ⟨rfl, _⟩ := h
              have hperm := Pairwise.fitOrder_perm ho'
              exact ⟨hperm.nodup_iff.2 List.nodup_range, fun i => by rw [hperm.mem_iff, List.mem_range]⟩
        rw [List.map_map]
        refine List.map_congr_left fun t ht => ?_
        have ht := List.mem_range.1 ht
        simp only [Function.comp]
        by_cases htL : t < o.nLags
        · rw [if_pos htL, if_pos htL, List.map_replicate, Option.map_none]
        · rw [if_neg htL, if_neg htL, ← orderAt_reordered hp hπ (isOrd hd) (isOrd hB) ho ht]
          simp
      · have hb : ∀ s, t < X.T → s < X.T → blockOf X.p B' t s i j = blockOf X.p B t s (π i) (π j) := by
          intro s ht hs
          unfold blockOf
          have h1 : X.p * t + i < X.T * X.p := by rw [Nat.mul_comm X.T]; exact block_lt ht hij
          have h2 : X.p * s + j < X.T * X.p := by rw [Nat.mul_comm X.T]; exact block_lt hs hj
          rw [hc _ _ h1 h2]
          unfold blocks
          rw [(block_div hij).1, (block_div hij).2, (block_div hj).1, (block_div hj).2]
        have hs : ∀ lag, (if o.nLags ≤ t ∧ t < X.T ∧ lag < o.nLags + 1 then some (blockOf X.p B' t (t - lag) i j) else none) =
            if o.nLags ≤ t ∧ t < X.T ∧ lag < o.nLags + 1 then some (blockOf X.p B t (t - lag) (π i) (π j)) else none := by
          intro lag
          by_cases h : o.nLags ≤ t ∧ t < X.T ∧ lag < o.nLags + 1
          · rw [if_pos h, if_pos h, hb _ h.2.1 (by omega)]
          · rw [if_neg h, if_neg h]
        unfold splitAdj
        simp only [hs]

/-! ### Concrete panels -/

/-- Two time points, eight samples: at the second time point every row of `b` occurs twice, at the first time point these two samples
differ. -/
noncomputable def pairPanel (b : Nat → Fin 4 → ℝ) : Panel ℝ := ⟨2, 8, 2, fun t s i =>
  if t = 0 then (if s = 2 * i then 1 else if s = 2 * i + 1 then -1 else 0) else b i ⟨s / 2 % 4, by omega⟩⟩

theorem pairPanel_independent {b : Nat → Fin 4 → ℝ} (h : Identified 2 b) : TimesIndependent 8 2 0 2 (pairPanel b).val := by
  intro b0 d hs
  have h0 := hs 0 (by omega)
  have h1 := hs 1 (by omega)
  have h2 := hs 2 (by omega)
  have h3 := hs 3 (by omega)
  have h4 := hs 4 (by omega)
  have h6 := hs 6 (by omega)
  norm_num [sum_range_succ, pairPanel, sum_Ico_eq_sum_range] at h0 h1 h2 h3 h4 h6
  have d0 : d 0 0 = 0 := by linarith
  have d1 : d 0 1 = 0 := by linarith
  have hd : ∀ j, j < 2 → d 1 j = 0 := by
    refine h (d 1) b0 fun r => ?_
    fin_cases r
    · simpa [sum_range_succ, d0] using h0
    · simpa [sum_range_succ, d1] using h2
    · simpa [sum_range_succ] using h4
    · simpa [sum_range_succ] using h6
  intro t _ ht j hj
  rcases (by omega : t = 0 ∨ t = 1) with rfl | rfl
  · rcases (by omega : j = 0 ∨ j = 1) with rfl | rfl
    · exact d0
    · exact d1
  · exact hd j hj

theorem pairPanel_enough {b : Nat → Fin 4 → ℝ} (h : Identified 2 b) : EnoughData ⟨1, none, none, none, none⟩ (pairPanel b) := by
  intro t h1 h2
  have h1 : 1 ≤ t := h1
  have h2 : t < 2 := h2
  obtain rfl : t = 1 := by omega
  exact pairPanel_independent h

/-- The first time point explains nothing of the second. -/
theorem pairPanel_resid (hlin : ∀ N, RightRegression (lib.lin N)) {b : Nat → Fin 4 → ℝ} (h : Identified 2 b) (i : Nat) (r : Fin 8) :
    resid lib 1 (pairPanel b) 1 i r = b i ⟨r / 2 % 4, by omega⟩ := by
  have hz : ∀ c, c < 2 * 1 → coef lib 1 (pairPanel b) 1 i c = 0 := by
    intro c hc
    obtain ⟨b1, h1⟩ := hlin 8 ((List.range (2 * 1)).map (fun c (s : Fin 8) => stacked 1 (pairPanel b) 1 c s)) (fun s => (pairPanel b).val 1 s i)
    have h0 : SolvesRegression ((List.range (2 * 1)).map (fun c (s : Fin 8) => stacked 1 (pairPanel b) 1 c s))
        (fun s : Fin 8 => (pairPanel b).val 1 s i) ((∑ q, b i q) / 4) (fun _ => 0) := by
      constructor
      · simp [unexplained, Fin.sum_univ_eight, Fin.sum_univ_four, pairPanel]
        ring
      · intro k hk
        have hk : k < 2 := by simpa using hk
        rcases (by omega : k = 0 ∨ k = 1) with rfl | rfl <;>
          simp [unexplained, Fin.sum_univ_eight, Fin.sum_univ_four, pairPanel, stacked, List.range_succ]
    exact Pairwise.leastSquares_unique (stacked_independent (X := pairPanel b) (L := 1) (t := 1) le_rfl (pairPanel_independent h)) h1 h0
      (k := c) (by rw [List.length_map, List.length_range]; exact hc)
  have e : (pairPanel b).p = 2 := rfl
  unfold resid
  rw [e, sum_eq_zero fun c hc => by rw [hz c (mem_range.1 hc), zero_mul], sub_zero]
  rfl

/-- All hypotheses hold for the rows of `witnessX`: at the second time point the second variable comes first, and with the columns
exchanged the first. -/
example : ∃ lib : Lib, (∀ N, RightRegression (lib.lin N)) ∧ ∃ o1 o2 os os' A A',
    fit lib ⟨1, none, none, none, none⟩ (pairPanel Pairwise.witnessX) = .ok o1 ∧
    fit lib ⟨1, none, none, none, none⟩ (reorder (fun j => if j < 2 then 1 - j else j) (pairPanel Pairwise.witnessX)) = .ok o2 ∧
    o1.orders = some os ∧ o2.orders = some os' ∧ os'.map (List.map (Option.map (fun j => if j < 2 then 1 - j else j))) = os ∧
    o1.adjacency = some A ∧ o2.adjacency = some A' ∧ A' 1 0 1 0 = A 1 0 0 1 ∧ A' 1 1 0 0 = A 1 1 1 1 := by
  choose lin lars h _ using fun N => Pairwise.exists_oracles N
  refine ⟨⟨lin, lars⟩, h, ?_⟩
  obtain ⟨o1, h1⟩ := C203_defined ⟨lin, lars⟩ (o := ⟨1, none, none, none, none⟩) (X := pairPanel Pairwise.witnessX) rfl (by decide) (by show 2 ≤ 2; omega)
    (by show 2 < 8; omega)
  have hu : UniqueOrders ⟨lin, lars⟩ ⟨1, none, none, none, none⟩ (pairPanel Pairwise.witnessX) := by
    intro t h1 h2
    have h1 : 1 ≤ t := h1
    have h2 : t < 2 := h2
    obtain rfl : t = 1 := by omega
    refine ⟨[1, 0], ?_⟩
    have hsum : ∀ f : Fin 4 → ℝ, ∑ r : Fin 8, f ⟨r / 2 % 4, by omega⟩ = 2 * ∑ r, f r := fun f => by
      simp [Fin.sum_univ_eight, Fin.sum_univ_four]
      ring
    have hid : Identified 2 (fun j (r : Fin 8) => Pairwise.witnessX j ⟨r / 2 % 4, by omega⟩) := by
      have := resid_identified ⟨lin, lars⟩ (X := pairPanel Pairwise.witnessX) (L := 1) (t := 1) le_rfl (pairPanel_independent Pairwise.witness_identified)
      refine fun d b0 hd => this d b0 fun r => ?_
      rw [← hd r]
      congr 1
      refine sum_congr rfl fun j hj => ?_
      have hj' : j < (pairPanel Pairwise.witnessX).p := mem_range.1 hj
      beta_reduce
      rw [if_pos hj', pairPanel_resid (lib := ⟨lin, lars⟩) h Pairwise.witness_identified j r]
    have hj := GroupData.joint_of_copies (k := 1) one_ne_zero
      (Var.pairwise_repeated (M := 8) (m := fun r => ⟨r / 2 % 4, by omega⟩) two_ne_zero (by norm_num) hsum Pairwise.witness_order) List.nodup_range
      (Pairwise.indep_range hid)
    refine joint_congr (x' := fun j (r : Fin 8) => resid ⟨lin, lars⟩ 1 (pairPanel Pairwise.witnessX) 1 j r) (fun i _ => ?_) hj
    funext r
    rw [pairPanel_resid (lib := ⟨lin, lars⟩) h Pairwise.witness_identified i r]
  obtain ⟨o2, os, os', A, A', h2, h3, h4, h5, h6, h7, h8⟩ := (C227_fit_partial (lib := ⟨lin, lars⟩) h ⟨1, none, none, none, none⟩
    (pairPanel Pairwise.witnessX) (π := fun j => if j < 2 then 1 - j else j) (pairPanel_enough Pairwise.witness_identified) hu
    (by show 8 ≠ 0; omega) (by show 0 < 2; omega) (by show Rearranges 2 _; unfold Rearranges; decide)
    (fun j => by show (if j < 2 then 1 - j else j) < 2 ↔ j < 2; split <;> omega)).2 o1 h1
  exact ⟨o1, o2, os, os', A, A', h1, h2, h3, h4, h5, h6, h7, h8 1 0 1 0 (by show 1 < 2; omega) (by show 0 < 2; omega),
    h8 1 1 0 0 (by show 0 < 2; omega) (by show 0 < 2; omega)⟩

theorem square_identified : Identified 2 Pairwise.square := by
  intro d b0 hd j hj
  have h0 := hd 0
  have h1 := hd 1
  have h2 := hd 2
  have h3 := hd 3
  simp [sum_range_succ, Pairwise.square] at h0 h1 h2 h3
  rcases (by omega : j = 0 ∨ j = 1) with rfl | rfl <;> linarith

/-- Two variables whose residuals are exchanged by a permutation of the rows. -/
theorem tie_fit {v : Nat → Nat → Nat → ℝ} {σ : Equiv.Perm (Fin 8)}
    (h01 : ∀ r : Fin 8, resid lib 1 ⟨2, 8, 2, v⟩ 1 1 r = resid lib 1 ⟨2, 8, 2, v⟩ 1 0 (σ r))
    (h10 : ∀ r : Fin 8, resid lib 1 ⟨2, 8, 2, v⟩ 1 0 r = resid lib 1 ⟨2, 8, 2, v⟩ 1 1 (σ r)) :
    ∃ o, fit lib ⟨1, none, none, none, none⟩ ⟨2, 8, 2, v⟩ = .ok o ∧ o.orders = some [[none, none], [some 0, some 1]] := by
  have ho : Pairwise.fitOrder ⟨none, false, .pwling⟩ 2 (fun j (r : Fin 8) => if j < 2 then resid lib 1 ⟨2, 8, 2, v⟩ 1 j r else 0) = .ok [0, 1] :=
    Pairwise.C142_ties_violated rfl (σ := σ) (fun r => by simpa using h01 r) (fun r => by simpa using h10 r)
  obtain ⟨B, hd⟩ : ∃ B, direct lib none 2 8 (resid lib 1 ⟨2, 8, 2, v⟩ 1) = .ok ([0, 1], B) := by
    unfold direct fitLasso
    rw [ho]
    simp [Direct.predictors, List.range']
  have hi : instants lib 1 ⟨2, 8, 2, v⟩ (List.range' 1 (2 - 1)) = .ok [([0, 1], B)] := by
    show instants lib 1 ⟨2, 8, 2, v⟩ [1] = _
    unfold instants
    simp only
    rw [hd]
    rfl
  refine ⟨_, by
    unfold fit
    simp only
    rw [if_neg (by omega)]
    unfold fitPlain
    simp only
    rw [if_neg (by omega), hi], rfl⟩

/-- **C227 is violated when there are ties.** For this panel the first column comes first whichever of the two variables it is. -/
theorem C227_violated (hlin : ∀ N, RightRegression (lib.lin N)) : ∃ o1 o2,
    fit lib ⟨1, none, none, none, none⟩ (pairPanel Pairwise.square) = .ok o1 ∧
    fit lib ⟨1, none, none, none, none⟩ (reorder (1 - ·) (pairPanel Pairwise.square)) = .ok o2 ∧
    o1.orders = some [[none, none], [some 0, some 1]] ∧ o2.orders = some [[none, none], [some 0, some 1]] := by
  have hr : ∀ i (r : Fin 8), resid lib 1 (pairPanel Pairwise.square) 1 i r = Pairwise.square i ⟨r / 2 % 4, by omega⟩ := fun i r =>
    pairPanel_resid hlin square_identified i r
  have hr' : ∀ i (r : Fin 8), resid lib 1 (reorder (1 - ·) (pairPanel Pairwise.square)) 1 i r =
      Pairwise.square (1 - i) ⟨r / 2 % 4, by omega⟩ := fun i r => by
    rw [resid_reordered (X := pairPanel Pairwise.square) (L := 1) (t := 1) hlin (by show 0 < 2; omega) (by show Rearranges 2 _; unfold Rearranges; decide) le_rfl
      (pairPanel_independent square_identified), hr]
  obtain ⟨o1, h1, h2⟩ := tie_fit (lib := lib) (v := (pairPanel Pairwise.square).val) (σ := Equiv.addRight 4)
    (fun r => (hr 1 r).trans (by
      refine Eq.trans ?_ (hr 0 _).symm
      fin_cases r <;> simp [Pairwise.square]))
    (fun r => (hr 0 r).trans (by
      refine Eq.trans ?_ (hr 1 _).symm
      fin_cases r <;> simp [Pairwise.square]))
  obtain ⟨o2, h3, h4⟩ := tie_fit (lib := lib) (v := (reorder (1 - ·) (pairPanel Pairwise.square)).val) (σ := Equiv.addRight 4)
    (fun r => (hr' 1 r).trans (by
      refine Eq.trans ?_ (hr' 0 _).symm
      fin_cases r <;> simp [Pairwise.square]))
    (fun r => (hr' 0 r).trans (by
      refine Eq.trans ?_ (hr' 1 _).symm
      fin_cases r <;> simp [Pairwise.square]))
  exact ⟨o1, o2, h1, h3, h2, h4⟩

end Verif.LongData
