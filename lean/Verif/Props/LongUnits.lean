import Verif.Model.LongData
import Verif.Props.AdaptiveLasso
import Verif.Props.Longitudinal
import Verif.Spec.Units
import Mathlib.Tactic.FieldSimp

/-!
# LongitudinalLiNGAM in other units and with other origins (C203)

Every variable may be measured in another unit and from another origin at every time point.  Orders and exceptions stay the same
and every coefficient is converted.
-/
set_option linter.unusedSectionVars false
set_option autoImplicit false
namespace Verif.LongData
open Finset
open Verif.Longitudinal (Panel Obj stacked lagged pkFull allData splitAdj blockOf orderAt reversed documented)
open Verif.Pairwise (Lin Lars FitErr fitLasso list_getD_map getD_of_lt leastSquares_units leastSquares_unique)

/-- The same panel: variable `i` at time `t` in a unit `a t i` times smaller, with the origin moved by `b t i`. -/
def otherUnits (a b : Nat → Nat → ℝ) (X : Panel ℝ) : Panel ℝ := ⟨X.T, X.n, X.p, fun t s i => a t i * X.val t s i + b t i⟩

variable {lib : Lib} {X : Panel ℝ} {a b : Nat → Nat → ℝ} {L t : Nat}

theorem split_lt {p L c : Nat} (hc : c < p * L) : c / p < L ∧ c % p < p := by
  have hp : 0 < p := Nat.pos_of_ne_zero (by rintro h; rw [h] at hc; simp at hc)
  exact ⟨by rw [Nat.div_lt_iff_lt_mul hp, Nat.mul_comm]; exact hc, Nat.mod_lt _ hp⟩

theorem block_div {p u j : Nat} (hj : j < p) : (p * u + j) / p = u ∧ (p * u + j) % p = j := by
  rw [Nat.mul_add_div (by omega), Nat.div_eq_of_lt hj, Nat.mul_add_mod, Nat.mod_eq_of_lt hj, Nat.add_zero]
  exact ⟨rfl, rfl⟩

theorem block_lt {p L u j : Nat} (hu : u < L) (hj : j < p) : p * u + j < p * L := by
  have : p * (u + 1) ≤ p * L := Nat.mul_le_mul_left _ hu
  rw [Nat.mul_succ] at this
  omega

/-- The earlier values are independent. -/
theorem stacked_independent (ht : L ≤ t) (h : TimesIndependent X.n X.p (t - L) (t + 1) X.val) :
    IndependentCols ((List.range (X.p * L)).map (fun c (s : Fin X.n) => stacked L X t c s)) := by
  intro b0 w hw k hk
  simp only [List.length_map, List.length_range] at hw hk
  obtain ⟨h1, h2⟩ := split_lt hk
  have := h b0 (fun u j => if u < t then w (X.p * (u - (t - L)) + j) else 0) (fun s hs => by
    refine Eq.trans ?_ (hw ⟨s, hs⟩)
    congr 1
    rw [sum_Ico_succ_top (by omega)]
    rw [sum_eq_zero (s := range X.p) (fun j _ => by rw [if_neg (lt_irrefl t), zero_mul]), add_zero]
    rw [Longitudinal.sum_blocks, sum_Ico_eq_sum_range, show t - (t - L) = L by omega]
    refine sum_congr rfl fun u hu => sum_congr rfl fun j hj => ?_
    have hu := mem_range.1 hu
    have hj := mem_range.1 hj
    have hlt := block_lt hu hj
    rw [if_pos (by omega), list_getD_map _ _ (by simpa using hlt) 0 0, getD_of_lt (by simpa using hlt), List.getElem_range]
    unfold stacked
    rw [(block_div hj).1, (block_div hj).2, Nat.add_sub_cancel_left]) (t - L + k / X.p) (Nat.le_add_right _ _) (by omega) (k % X.p) h2
  beta_reduce at this
  rw [if_pos (by omega), Nat.add_sub_cancel_left, Nat.div_add_mod] at this
  exact this

/-- The regression coefficients of one time point are converted. -/
theorem coef_units (hlin : ∀ N, RightRegression (lib.lin N)) (ht : L ≤ t) (h : TimesIndependent X.n X.p (t - L) (t + 1) X.val)
    (ha : ∀ u, u ≤ t → ∀ j, j < X.p → 0 < a u j) {i c : Nat} (hi : i < X.p) (hc : c < X.p * L) :
    coef lib L (otherUnits a b X) t i c = coef lib L X t i c * (a t i / a (t - L + c / X.p) (c % X.p)) := by
  have ha' : ∀ c, c < X.p * L → 0 < a (t - L + c / X.p) (c % X.p) := by
    intro c hc
    obtain ⟨h1, h2⟩ := split_lt hc
    exact ha _ (by omega) _ h2
  obtain ⟨b0, h0⟩ := hlin X.n ((List.range (X.p * L)).map (fun c (s : Fin X.n) => stacked L X t c s)) (fun s => X.val t s i)
  obtain ⟨b1, h1⟩ := hlin X.n ((List.range (X.p * L)).map (fun c (s : Fin X.n) => stacked L (otherUnits a b X) t c s))
    (fun s => (otherUnits a b X).val t s i)
  obtain ⟨b2, h2, _⟩ := leastSquares_units
    (cols' := (List.range (X.p * L)).map (fun c (s : Fin X.n) => stacked L X t c s)) (by simp)
    (y' := fun s : Fin X.n => X.val t s i) (s := fun c => a (t - L + c / X.p) (c % X.p))
    (a := fun c => b (t - L + c / X.p) (c % X.p)) (s0 := a t i) (a0 := b t i) (ha t le_rfl i hi).ne'
    (fun k hk => (ha' k (by simpa using hk)).ne') (fun k hk r => by
      have hk : k < X.p * L := by simpa using hk
      rw [list_getD_map _ _ (by simpa using hk) 0 0, list_getD_map _ _ (by simpa using hk) 0 0,
        getD_of_lt (by simpa using hk), List.getElem_range]
      rfl) (fun r => rfl) h1
  have hu := leastSquares_unique (stacked_independent ht h) h0 h2 (k := c) (by simpa using hc)
  have e0 : coef lib L X t i c = lib.lin X.n ((List.range (X.p * L)).map (fun c (s : Fin X.n) => stacked L X t c s))
    (fun s => X.val t s i) c := rfl
  have e1 : coef lib L (otherUnits a b X) t i c = lib.lin X.n ((List.range (X.p * L)).map
    (fun c (s : Fin X.n) => stacked L (otherUnits a b X) t c s)) (fun s => (otherUnits a b X).val t s i) c := rfl
  rw [e0, e1, hu]
  have h3 := ha' c hc
  have h4 := ha t le_rfl i hi
  field_simp

/-- The origin of the residuals. -/
noncomputable def residOrigin (lib : Lib) (a b : Nat → Nat → ℝ) (L : Nat) (X : Panel ℝ) (t i : Nat) : ℝ :=
  b t i - ∑ c ∈ range (X.p * L), coef lib L (otherUnits a b X) t i c * b (t - L + c / X.p) (c % X.p)

theorem resid_units (hlin : ∀ N, RightRegression (lib.lin N)) (ht : L ≤ t) (h : TimesIndependent X.n X.p (t - L) (t + 1) X.val)
    (ha : ∀ u, u ≤ t → ∀ j, j < X.p → 0 < a u j) {i : Nat} (hi : i < X.p) (s : Nat) :
    resid lib L (otherUnits a b X) t i s = a t i * resid lib L X t i s + residOrigin lib a b L X t i := by
  have e : ∀ c ∈ range (X.p * L), coef lib L (otherUnits a b X) t i c * stacked L (otherUnits a b X) t c s =
      a t i * (coef lib L X t i c * stacked L X t c s) +
        coef lib L (otherUnits a b X) t i c * b (t - L + c / X.p) (c % X.p) := by
    intro c hc
    have hc := mem_range.1 hc
    obtain ⟨h1, h2⟩ := split_lt hc
    have h3 := ha (t - L + c / X.p) (by omega) _ h2
    have e1 : stacked L (otherUnits a b X) t c s = a (t - L + c / X.p) (c % X.p) * stacked L X t c s + b (t - L + c / X.p) (c % X.p) :=
      rfl
    rw [e1, mul_add]
    congr 1
    rw [coef_units hlin ht h ha hi hc]
    field_simp
  have e2 : resid lib L (otherUnits a b X) t i s = a t i * X.val t s i + b t i -
    ∑ c ∈ range (X.p * L), coef lib L (otherUnits a b X) t i c * stacked L (otherUnits a b X) t c s := rfl
  rw [e2, sum_congr rfl e, sum_add_distrib, ← mul_sum]
  unfold resid residOrigin
  ring

/-- The residuals of one time point are independent. -/
theorem resid_identified (lib : Lib) (ht : L ≤ t) (h : TimesIndependent X.n X.p (t - L) (t + 1) X.val) :
    Identified X.p (fun j (r : Fin X.n) => if j < X.p then resid lib L X t j r else 0) := by
  intro d b0 hd j hj
  have := h b0 (fun u j => if u = t then d j else - ∑ i ∈ range X.p, d i * coef lib L X t i (X.p * (u - (t - L)) + j)) (fun s hs => by
    refine Eq.trans ?_ (hd ⟨s, hs⟩)
    congr 1
    have e1 : ∀ i ∈ range X.p, d i * (if i < X.p then resid lib L X t i s else 0) =
        d i * X.val t s i - ∑ c ∈ range (X.p * L), d i * coef lib L X t i c * stacked L X t c s := by
      intro i hi
      rw [if_pos (mem_range.1 hi)]
      unfold resid
      rw [mul_sub, mul_sum]
      congr 1
      exact sum_congr rfl fun c _ => by ring
    beta_reduce
    rw [sum_congr rfl e1, sum_sub_distrib, sum_Ico_succ_top (by omega), add_comm, sub_eq_add_neg]
    congr 1
    · exact sum_congr rfl fun j _ => by rw [if_pos rfl]
    · rw [sum_comm (s := range X.p) (t := range (X.p * L)), Longitudinal.sum_blocks, sum_Ico_eq_sum_range, show t - (t - L) = L by omega, ← sum_neg_distrib]
      refine sum_congr rfl fun u hu => ?_
      have hu := mem_range.1 hu
      rw [← sum_neg_distrib]
      refine sum_congr rfl fun j hj => ?_
      have hj := mem_range.1 hj
      rw [if_neg (by omega), neg_mul, sum_mul, Nat.add_sub_cancel_left]
      unfold stacked
      rw [(block_div hj).1, (block_div hj).2]) t (by omega) (by omega) j hj
  simpa using this

/-- `DirectLiNGAM` on converted columns. -/
theorem direct_units (hlin : ∀ N, RightRegression (lib.lin N)) (pk : Option (Nat → Nat → Int)) {n N : Nat} {D D' : Nat → Nat → ℝ}
    {c o : Nat → ℝ} (hc : ∀ j, j < n → 0 < c j) (hid : Identified n (fun j (r : Fin N) => if j < n then D j r else 0))
    (hD : ∀ j, j < n → ∀ s, D' j s = c j * D j s + o j) :
    (∀ e, direct lib pk n N D = .error e → direct lib pk n N D' = .error e) ∧
    ∀ order B, direct lib pk n N D = .ok (order, B) → ∃ B', direct lib pk n N D' = .ok (order, B') ∧
      ∀ i j, B' i j = B i j * (c i / c j) := by
  have he : (fun j (r : Fin N) => c j * (if j < n then D j r else 0) + (if j < n then o j else 0)) =
      fun j (r : Fin N) => if j < n then D' j r else 0 := by
    funext j r
    split
    · rename_i hj
      rw [hD j hj]
    · simp
  have := Pairwise.C197_fit ⟨pk, false, .pwling⟩ (hlin N) (lib.lars N) hid (c := c) (a := fun j => if j < n then o j else 0) hc
  rw [he] at this
  exact this

/-- The loop over the time points. -/
theorem instants_units (hlin : ∀ N, RightRegression (lib.lin N))
    (ha : ∀ u, u < X.T → ∀ j, j < X.p → 0 < a u j) : ∀ ts : List Nat,
    (∀ t ∈ ts, L ≤ t ∧ t < X.T ∧ TimesIndependent X.n X.p (t - L) (t + 1) X.val) →
    (∀ e, instants lib L X ts = .error e → instants lib L (otherUnits a b X) ts = .error e) ∧
    ∀ rs, instants lib L X ts = .ok rs → rs.length = ts.length ∧ ∃ rs', instants lib L (otherUnits a b X) ts = .ok rs' ∧
      rs'.length = ts.length ∧ ∀ k (h : k < ts.length) d, (rs'.getD k d).1 = (rs.getD k d).1 ∧
        ∀ i j, (rs'.getD k d).2 i j = (rs.getD k d).2 i j * (a ts[k] i / a ts[k] j)
  | [], _ => by
    refine ⟨fun e h => (by cases h), fun rs h => ?_⟩
    simp only [instants, Except.ok.injEq] at h
    subst h
    exact ⟨rfl, [], rfl, rfl, fun k h => by simp at h⟩
  | t :: ts, h => by
    obtain ⟨h1, h2, h3⟩ := h t (by simp)
    obtain ⟨d1, d2⟩ := direct_units (lib := lib) hlin none (c := a t) (o := residOrigin lib a b L X t) (fun j hj => ha t h2 j hj)
      (resid_identified lib h1 h3) (D' := resid lib L (otherUnits a b X) t)
      (fun j hj s => resid_units hlin h1 h3 (fun u hu j hj => ha u (by omega) j hj) hj s)
    obtain ⟨i1, i2⟩ := instants_units hlin ha ts (fun t ht => h t (by simp [ht]))
    have hp : (otherUnits a b X).p = X.p := rfl
    have hn : (otherUnits a b X).n = X.n := rfl
    unfold instants
    rw [hp, hn]
    cases hd : direct lib none X.p X.n (resid lib L X t) with
    | error e =>
      rw [d1 e hd]
      exact ⟨fun e h => h, fun rs h => by cases h⟩
    | ok r =>
      obtain ⟨order, B⟩ := r
      obtain ⟨B', hB, hc⟩ := d2 order B hd
      rw [hB]
      simp only
      cases hi : instants lib L X ts with
      | error e =>
        rw [i1 e hi]
        exact ⟨fun e h => h, fun rs h => by cases h⟩
      | ok rs =>
        obtain ⟨hl, rs', hr, hl', hk⟩ := i2 rs hi
        rw [hr]
        refine ⟨fun e h => (by cases h), fun rs0 h0 => ?_⟩
        simp only [Except.ok.injEq] at h0
        subst h0
        refine ⟨by simp [hl], _, rfl, by simp [hl'], fun k hkl d => ?_⟩
        cases k with
        | zero => exact ⟨rfl, hc⟩
        | succ k =>
          have := hk k (by simpa using hkl) d
          simpa using this

/-- Lagged effects are converted. -/
theorem lagged_units {p : Nat} {B B' M M' : Nat → Nat → ℝ} {c f : Nat → ℝ} (hc : ∀ j, j < p → 0 < c j)
    (hB : ∀ i j, B' i j = B i j * (c i / c j)) (hM : ∀ i, i < p → ∀ j, j < p → M' i j = M i j * (c i / f j)) {i j : Nat} (hi : i < p)
    (hj : j < p) : lagged p B' M' i j = lagged p B M i j * (c i / f j) := by
  unfold lagged
  rw [sum_mul]
  refine sum_congr rfl fun k hk => ?_
  have hk := mem_range.1 hk
  rw [hB, hM k hk j hj]
  have h1 := (hc k hk).ne'
  have h2 := (hc i hi).ne'
  by_cases hik : i = k
  · subst hik
    rw [if_pos rfl, div_self h2]
    ring
  · rw [if_neg hik]
    field_simp
    ring

/-- The time of the causes in entry `[t, l]` of the stored matrices: the lags are stored in reverse (see C41). -/
def storedTime (L t l : Nat) : Nat := if l = 0 then t else t - (L + 1 - l)

/-- The hypothesis about the data: enough samples in general position. -/
def EnoughData (o : Obj ℝ) (X : Panel ℝ) : Prop :=
  match o.pk with
  | none => ∀ t, o.nLags ≤ t → t < X.T → TimesIndependent X.n X.p (t - o.nLags) (t + 1) X.val
  | some _ => TimesIndependent X.n X.p 0 X.T X.val

theorem allData_identified (h : TimesIndependent X.n X.p 0 X.T X.val) :
    Identified (X.T * X.p) (fun j (r : Fin X.n) => if j < X.T * X.p then allData X r j else 0) := by
  intro d b0 hd c hc
  rw [Nat.mul_comm] at hc
  obtain ⟨h1, h2⟩ := split_lt hc
  have := h b0 (fun u j => d (X.p * u + j)) (fun s hs => by
    refine Eq.trans ?_ (hd ⟨s, hs⟩)
    congr 1
    rw [Nat.mul_comm X.T, Longitudinal.sum_blocks, ← range_eq_Ico]
    refine sum_congr rfl fun u hu => sum_congr rfl fun j hj => ?_
    have hj := mem_range.1 hj
    beta_reduce
    rw [if_pos (block_lt (mem_range.1 hu) hj)]
    unfold allData
    rw [(block_div hj).1, (block_div hj).2]) (c / X.p) (Nat.zero_le _) h1 (c % X.p) h2
  beta_reduce at this
  rwa [Nat.div_add_mod] at this

/-- **C203.** `fit` in other units and with other origins, which may differ between the time points: the same exception, or the
same orders and converted matrices. -/
theorem C203_fit (hlin : ∀ N, RightRegression (lib.lin N)) (o : Obj ℝ) (X : Panel ℝ) (hX : EnoughData o X)
    (ha : ∀ t, t < X.T → ∀ j, j < X.p → 0 < a t j) :
    (∀ e, fit lib o X = .error e → fit lib o (otherUnits a b X) = .error e) ∧
    ∀ o1, fit lib o X = .ok o1 → ∃ o2 A A', fit lib o (otherUnits a b X) = .ok o2 ∧ o2.orders = o1.orders ∧
      o1.adjacency = some A ∧ o2.adjacency = some A' ∧
      ∀ t l i j, i < X.p → j < X.p → A' t l i j = (A t l i j).map (· * (a t i / a (storedTime o.nLags t l) j)) := by
  have hT : (otherUnits a b X).T = X.T := rfl
  have hp : (otherUnits a b X).p = X.p := rfl
  have hn : (otherUnits a b X).n = X.n := rfl
  unfold fit
  rw [hT]
  by_cases hT2 : X.T < 2
  · rw [if_pos hT2, if_pos hT2]
    exact ⟨fun e h => h, fun o1 h => by cases h⟩
  rw [if_neg hT2, if_neg hT2]
  unfold EnoughData at hX
  cases hpk : o.pk with
  | none =>
    rw [hpk] at hX
    simp only at hX ⊢
    unfold fitPlain
    rw [hT]
    by_cases hL : o.nLags = 0
    · rw [if_pos hL, if_pos hL]
      exact ⟨fun e h => h, fun o1 h => by cases h⟩
    rw [if_neg hL, if_neg hL]
    obtain ⟨i1, i2⟩ := instants_units (b := b) (L := o.nLags) hlin ha (List.range' o.nLags (X.T - o.nLags)) (fun t ht => by
      rw [List.mem_range'_1] at ht
      exact ⟨ht.1, by omega, hX t ht.1 (by omega)⟩)
    cases hi : instants lib o.nLags X (List.range' o.nLags (X.T - o.nLags)) with
    | error e =>
      rw [i1 e hi]
      exact ⟨fun e h => h, fun o1 h => by cases h⟩
    | ok rs =>
      obtain ⟨hl, rs', hr, hl', hk⟩ := i2 rs hi
      rw [hr]
      refine ⟨fun e h => (by cases h), fun o1 h1 => ?_⟩
      simp only [Except.ok.injEq] at h1
      subst h1
      refine ⟨_, _, _, rfl, ?_, rfl, rfl, fun t l i j hij hj => ?_⟩
      · simp only [hp]
        congr 2
        apply List.ext_getElem (by simp [hl, hl'])
        intro k h1 h2
        have h3 : k < rs'.length := by simpa using h1
        have h4 : k < rs.length := by simpa using h2
        have := (hk k (by omega) ([], fun _ _ => 0)).1
        rw [getD_of_lt h3, getD_of_lt h4] at this
        simp [this]
      · by_cases htT : o.nLags ≤ t ∧ t < X.T
        · have hB : ∀ i j, (rs'.getD (t - o.nLags) ([], fun _ _ => 0)).2 i j =
              (rs.getD (t - o.nLags) ([], fun _ _ => 0)).2 i j * (a t i / a t j) := by
            intro i j
            have := (hk (t - o.nLags) (by simp; omega) ([], fun _ _ => 0)).2 i j
            simp only [List.getElem_range', one_mul] at this
            rw [show o.nLags + (t - o.nLags) = t by omega] at this
            exact this
          simp only [if_pos htT]
          unfold storedTime
          by_cases hl0 : l = 0
          · simp only [if_pos hl0, Option.map_some, hB]
          · simp only [if_neg hl0]
            by_cases hlL : l ≤ o.nLags
            · simp only [if_pos hlL]
              by_cases h0 : t - (l - 1) ≠ 0
              · simp only [if_pos h0, Option.map_some]
                congr 1
                refine lagged_units (fun j hj => ha t htT.2 j hj) hB (f := a (t - (o.nLags + 1 - l))) (fun i hi j hj => ?_) hij hj
                rw [hp, coef_units hlin htT.1 (hX t htT.1 htT.2) (fun u hu j hj => ha u (by omega) j hj) hi
                  (block_lt (by omega) hj), (block_div hj).1, (block_div hj).2,
                  show t - o.nLags + (l - 1) = t - (o.nLags + 1 - l) by omega]
              · simp only [if_neg h0, Option.map_none]
            · simp only [if_neg hlL, Option.map_none]
        · simp only [if_neg htT, Option.map_none]
  | some P =>
    rw [hpk] at hX
    simp only at hX ⊢
    unfold fitPrior
    rw [hT, hp, hn]
    obtain ⟨d1, d2⟩ := direct_units (lib := lib) hlin (some (pkFull X.p o.nLags P)) (c := fun c => a (c / X.p) (c % X.p))
      (o := fun c => b (c / X.p) (c % X.p)) (D := fun c s => allData X s c) (D' := fun c s => allData (otherUnits a b X) s c)
      (fun j hj => by
        rw [Nat.mul_comm] at hj
        exact ha _ (split_lt hj).1 _ (split_lt hj).2) (allData_identified hX) (fun j _ s => rfl)
    cases hd : direct lib (some (pkFull X.p o.nLags P)) (X.T * X.p) X.n (fun c s => allData X s c) with
    | error e =>
      rw [d1 e hd]
      exact ⟨fun e h => h, fun o1 h => by cases h⟩
    | ok r =>
      obtain ⟨order, B⟩ := r
      obtain ⟨B', hB, hc⟩ := d2 order B hd
      rw [hB]
      refine ⟨fun e h => (by cases h), fun o1 h1 => ?_⟩
      simp only [Except.ok.injEq] at h1
      subst h1
      refine ⟨_, _, _, rfl, rfl, rfl, rfl, fun t l i j hij hj => ?_⟩
      have hb : ∀ s, blockOf X.p B' t s i j = blockOf X.p B t s i j * (a t i / a s j) := by
        intro s
        unfold blockOf
        rw [hc, (block_div hij).1, (block_div hij).2, (block_div hj).1, (block_div hj).2]
      unfold splitAdj storedTime
      by_cases hl0 : l = 0
      · simp only [if_pos hl0, hb]
        split <;> simp
      · simp only [if_neg hl0]
        by_cases hlL : l ≤ o.nLags
        · simp only [if_pos hlL, hb]
          split <;> simp
        · simp only [if_neg hlL, Option.map_none]

/-- **C203.** One lag (the default), in the documented reading: `adjacency_matrices_[t, k]` holds the effects of time `t - k` on time
`t`, and these are converted with the units of the two time points.  With more lags this holds for units that are the same at all
time points. -/
theorem C203_documented (hlin : ∀ N, RightRegression (lib.lin N)) {o : Obj ℝ} {X : Panel ℝ} (hX : EnoughData o X)
    (ha : ∀ t, t < X.T → ∀ j, j < X.p → 0 < a t j) (hL : o.nLags = 1 ∨ ∀ t, a t = a 0) {o1 o2 : Obj ℝ}
    (h1 : fit lib o X = .ok o1) (h2 : fit lib o (otherUnits a b X) = .ok o2) :
    o2.orders = o1.orders ∧ ∃ A A', o1.adjacency = some A ∧ o2.adjacency = some A' ∧
      ∀ t k i j, k ≤ o.nLags → i < X.p → j < X.p → documented A' t k i j = documented A t k i j * (a t i / a (t - k) j) := by
  obtain ⟨o2', A, A', h3, h4, h5, h6, h7⟩ := (C203_fit (b := b) hlin o X hX ha).2 o1 h1
  rw [h2] at h3
  injection h3 with h3
  subst h3
  refine ⟨h4, A, A', h5, h6, fun t k i j hk hi hj => ?_⟩
  have hs : a (storedTime o.nLags t k) = a (t - k) := by
    unfold storedTime
    rcases hL with hL | hL
    · rcases (by omega : k = 0 ∨ k = 1) with rfl | rfl
      · rw [if_pos rfl, Nat.sub_zero]
      · rw [if_neg (by omega), hL]
    · rw [hL, hL (t - k)]
  unfold documented
  rw [h7 t k i j hi hj, hs]
  cases A t k i j <;> simp

/-- **C203.** The residuals of every variable and time are converted up to a constant, so tests that do not depend on origins and
scales, such as the independence tests, see the same. -/
theorem C203_residuals (hlin : ∀ N, RightRegression (lib.lin N)) {o : Obj ℝ} {X : Panel ℝ} (hpk : o.pk = none) (hX : EnoughData o X)
    (ha : ∀ t, t < X.T → ∀ j, j < X.p → 0 < a t j) {o1 o2 : Obj ℝ}
    (h1 : fit lib o X = .ok o1) (h2 : fit lib o (otherUnits a b X) = .ok o2) :
    ∃ R R', o1.residuals = some R ∧ o2.residuals = some R' ∧
      ∀ t i, i < X.p → ∃ q, ∀ s, R' t s i = (R t s i).map (fun v => a t i * v + q) := by
  have key : ∀ (Y : Panel ℝ) (o' : Obj ℝ), fit lib o Y = .ok o' → o'.residuals =
      some (fun t s i => if o.nLags ≤ t ∧ t < Y.T then some (resid lib o.nLags Y t i s) else none) := by
    intro Y o' h
    unfold fit at h
    rw [hpk] at h
    split at h
    · cases h
    · simp only at h
      unfold fitPlain at h
      split at h
      · cases h
      · split at h
        · cases h
        · simp only [Except.ok.injEq] at h
          subst h
          rfl
  refine ⟨_, _, key X o1 h1, key _ o2 h2, fun t i hi => ?_⟩
  unfold EnoughData at hX
  rw [hpk] at hX
  simp only at hX
  by_cases ht : o.nLags ≤ t ∧ t < X.T
  · refine ⟨residOrigin lib a b o.nLags X t i, fun s => ?_⟩
    have ht' : o.nLags ≤ t ∧ t < (otherUnits a b X).T := ht
    rw [if_pos ht, if_pos ht', Option.map_some,
      resid_units hlin ht.1 (hX t ht.1 ht.2) (fun u hu j hj => ha u (by omega) j hj) hi s]
  · refine ⟨0, fun s => ?_⟩
    have ht' : ¬ (o.nLags ≤ t ∧ t < (otherUnits a b X).T) := ht
    rw [if_neg ht, if_neg ht', Option.map_none]

/-- **C203.** Without prior knowledge and with more samples than variables, `fit` is defined. -/
theorem C203_defined (lib : Lib) {o : Obj ℝ} {X : Panel ℝ} (hpk : o.pk = none) (hL : 0 < o.nLags) (hT : 2 ≤ X.T) (hn : X.p < X.n) :
    ∃ o1, fit lib o X = .ok o1 := by
  have hd : ∀ D : Nat → Nat → ℝ, ∃ r, direct lib none X.p X.n D = .ok r := by
    intro D
    unfold direct fitLasso
    obtain ⟨order, ho⟩ := Pairwise.C144_found (cfg := ⟨none, false, .pwling⟩) rfl X.p
      (fun j (r : Fin X.n) => if j < X.p then D j r else 0)
    rw [ho]
    simp only
    rw [if_neg]
    · exact ⟨_, rfl⟩
    · intro h
      rw [List.any_eq_true] at h
      obtain ⟨i, hi, h⟩ := h
      rw [List.mem_range'_1] at hi
      have hlen : order.length = X.p := by simpa using (Pairwise.fitOrder_perm ho).length_eq
      have hm : (Direct.predictors none (order.take i) (order.getD i 0)).length ≤ i := by
        simp [Direct.predictors]
      rw [decide_eq_true_eq] at h
      omega
  have hi : ∀ ts, ∃ rs, instants lib o.nLags X ts = .ok rs := by
    intro ts
    induction ts with
    | nil => exact ⟨[], rfl⟩
    | cons t ts ih =>
      obtain ⟨rs, hrs⟩ := ih
      obtain ⟨r, hr⟩ := hd (resid lib o.nLags X t)
      unfold instants
      rw [hr, hrs]
      exact ⟨_, rfl⟩
  obtain ⟨rs, hrs⟩ := hi (List.range' o.nLags (X.T - o.nLags))
  unfold fit
  rw [if_neg (by omega), hpk]
  simp only
  unfold fitPlain
  rw [if_neg (by omega), hrs]
  exact ⟨_, rfl⟩

/-! ### A concrete panel -/

/-- Two variables, two time points, six samples. -/
def unitPanel : Panel ℝ := ⟨2, 6, 2, fun t s i =>
  if t = 0 then (if s = i + 1 then 1 else 0) else if s = 1 then 3 else if s = 3 ∨ s = i + 3 then 1 else 0⟩

theorem unitPanel_all : TimesIndependent 6 2 0 2 unitPanel.val := by
  intro b0 d h
  have h0 := h 0 (by omega)
  have h1 := h 1 (by omega)
  have h2 := h 2 (by omega)
  have h3 := h 3 (by omega)
  have h4 := h 4 (by omega)
  norm_num [sum_range_succ, unitPanel, sum_Ico_eq_sum_range] at h0 h1 h2 h3 h4
  intro t _ ht j hj
  interval_cases t <;> interval_cases j <;> linarith

theorem unitPanel_enough (pk : Option (Nat → Nat → Nat → Nat → Int)) : EnoughData ⟨1, pk, none, none, none⟩ unitPanel := by
  unfold EnoughData
  cases pk with
  | none =>
    intro t h1 h2
    have h1 : 1 ≤ t := h1
    have h2 : t < 2 := h2
    obtain rfl : t = 1 := by omega
    exact unitPanel_all
  | some P => exact unitPanel_all

/-- All hypotheses hold: the first variable in other units at the second time point, the second with another origin. -/
example : ∃ lib : Lib, (∀ N, RightRegression (lib.lin N)) ∧ ∃ o1 o2, fit lib ⟨1, none, none, none, none⟩ unitPanel = .ok o1 ∧
    fit lib ⟨1, none, none, none, none⟩ (otherUnits (fun t i => if t = 1 ∧ i = 0 then 100 else 1) (fun _ i => i) unitPanel) = .ok o2 ∧
    o2.orders = o1.orders ∧ ∃ A A', o1.adjacency = some A ∧ o2.adjacency = some A' ∧
      documented A' 1 0 1 0 = documented A 1 0 1 0 / 100 ∧ documented A' 1 1 0 1 = documented A 1 1 0 1 * 100 := by
  choose lin lars h _ using fun N => Pairwise.exists_oracles N
  refine ⟨⟨lin, lars⟩, h, ?_⟩
  obtain ⟨o1, h1⟩ := C203_defined ⟨lin, lars⟩ (o := ⟨1, none, none, none, none⟩) (X := unitPanel) rfl (by decide) (by decide)
    (by decide)
  obtain ⟨o2, h2⟩ := C203_defined ⟨lin, lars⟩ (o := ⟨1, none, none, none, none⟩)
    (X := otherUnits (fun t i => if t = 1 ∧ i = 0 then 100 else 1) (fun _ i => i) unitPanel) rfl (by decide) (by decide) (by decide)
  obtain ⟨h3, A, A', h4, h5, h6⟩ := C203_documented (lib := ⟨lin, lars⟩) h (unitPanel_enough none)
    (fun t _ j _ => by split <;> norm_num) (Or.inl rfl) h1 h2
  refine ⟨o1, o2, h1, h2, h3, A, A', h4, h5, ?_, ?_⟩
  · rw [h6 1 0 1 0 (by decide) (by decide) (by decide)]
    norm_num
    ring
  · rw [h6 1 1 0 1 (by decide) (by decide) (by decide)]
    norm_num

end Verif.LongData
