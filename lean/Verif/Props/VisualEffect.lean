import Verif.Model.VisualEffect
import Verif.Props.DirectData
import Mathlib.Tactic.IntervalCases

/-!
C174, C175, C176: `visualize_nonlinear_causal_effect`.
-/
set_option autoImplicit false
set_option linter.unusedSectionVars false
namespace Verif.VisualEffect

variable {K C : Type} [Field K] [LinearOrder K] [IsStrictOrderedRing K] [DecidableEq C]

/-! ### C174: which variables the regression adjusts for -/

theorem mem_explanatory (n : Nat) (m : Nat → Nat → Option K) (cause effect k : Nat) :
    k ∈ explanatory n m cause effect ↔ k ≠ effect ∧ (k = cause ∨ (k < n ∧ m cause k = some 1)) := by
  simp only [explanatory, covariates, List.mem_filter, List.mem_insertionSort, List.mem_cons, List.mem_range, decide_eq_true_eq]
  tauto

/-- **C174.** For a matrix of zeros and ones without self loops, the explanatory variables are, in increasing order and once each, the
cause and its parents, without the effect. -/
theorem C174_adjustment_partial (n : Nat) (m : Nat → Nat → Option K) (cause effect : Nat)
    (h01 : ∀ j, j < n → m cause j = some 0 ∨ m cause j = some 1) (hself : m cause cause ≠ some 1) :
    (explanatory n m cause effect).Pairwise (· < ·) ∧
    ∀ k, k ∈ explanatory n m cause effect ↔ k ≠ effect ∧ (k = cause ∨ (k < n ∧ ∃ x, m cause k = some x ∧ x ≠ 0)) := by
  constructor
  · have hs : ((cause :: covariates n m cause).insertionSort (· ≤ ·)).Pairwise (· ≤ ·) := List.pairwise_insertionSort _ _
    have hn : ((cause :: covariates n m cause).insertionSort (· ≤ ·)).Nodup := by
      refine (List.perm_insertionSort (· ≤ ·) _).nodup_iff.2 (List.nodup_cons.2 ⟨?_, List.nodup_range.filter _⟩)
      simp [covariates, hself]
    refine List.Pairwise.filter _ ?_
    exact (hs.and hn).imp fun {a b} h => lt_of_le_of_ne h.1 h.2
  · intro k
    rw [mem_explanatory]
    refine and_congr_right fun _ => or_congr_right (and_congr_right fun hk => ?_)
    constructor
    · intro h; exact ⟨1, h, one_ne_zero⟩
    · rintro ⟨x, hx, h0⟩
      rcases h01 k hk with h | h
      · rw [h] at hx; exact absurd (Option.some.inj hx).symm h0
      · exact h

/-- **C174, violated.** A matrix in which no coefficient of the cause is exactly 1, such as the estimate of a linear model, is treated like
the empty graph: the same regression, the same values, no adjustment at all. -/
theorem C174_graph_ignored (n : Nat) (m : Nat → Nat → Option K) (cause effect : Nat) (hne : cause ≠ effect)
    (hm : ∀ j, j < n → m cause j ≠ some 1) (est : Estimator K C) (classes : List C) (positions : List K) (rows : List (Nat → K))
    (info : Info K C) :
    explanatory n m cause effect = [cause] ∧
    addSample est n classes positions cause effect rows m info =
      addSample est n classes positions cause effect rows (fun _ _ => some 0) info := by
  have h1 : ∀ m : Nat → Nat → Option K, (∀ j, j < n → m cause j ≠ some 1) → explanatory n m cause effect = [cause] := by
    intro m hm
    have : covariates n m cause = [] := by
      simp only [covariates, List.filter_eq_nil_iff, List.mem_range, decide_eq_true_eq]
      exact hm
    unfold explanatory
    rw [this]
    simp [hne]
  have h2 := h1 m hm
  have h3 := h1 (fun _ _ => some (0 : K)) (fun j _ h => zero_ne_one (Option.some.inj h))
  refine ⟨h2, ?_⟩
  unfold addSample train
  rw [h2, h3]

/-- Model: a linear regression with intercept, trained on the rows `X` (one for each of `Fin N`). -/
def TrainsLeastSquares {N : Nat} (est : Estimator ℚ C) (S : List Nat) (X : Nat → Fin N → ℚ) (y : Fin N → ℚ) (c : C) (b : Nat → ℚ) : Prop :=
  IsLeastSquares S X y b ∧ ∃ a : ℚ, ∀ g : Nat → ℚ,
    (est ((List.ofFn fun r k => X k r).map (fun r => S.map r)) (List.ofFn y)).predict (S.map g) c = a + (S.map (fun k => b k * g k)).sum

theorem sum_replace (S : List Nat) (hS : S.Nodup) (cause : Nat) (hc : cause ∈ S) (b g : Nat → ℚ) (v : ℚ) :
    (S.map (fun k => b k * if k = cause then v else g k)).sum = b cause * v + ((S.filter (· ≠ cause)).map (fun k => b k * g k)).sum := by
  induction S with
  | nil => simp at hc
  | cons x S ih =>
    have hn := List.nodup_cons.1 hS
    by_cases hx : x = cause
    · subst hx
      have h1 : S.map (fun k => b k * if k = x then v else g k) = S.map (fun k => b k * g k) :=
        List.map_congr_left fun k hk => by rw [if_neg (fun h : k = x => hn.1 (h ▸ hk))]
      have h2 : S.filter (· ≠ x) = S := List.filter_eq_self.2 fun k hk => by
        simp only [decide_eq_true_eq]; exact fun h => hn.1 (h ▸ hk)
      simp only [List.map_cons, List.sum_cons, if_true]
      rw [h1, List.filter_cons_of_neg (by simp), h2]
    · have hc' : cause ∈ S := by
        rcases List.mem_cons.1 hc with h | h
        · exact absurd h.symm hx
        · exact h
      simp only [List.map_cons, List.sum_cons, if_neg hx]
      rw [ih hn.2 hc', List.filter_cons_of_pos (by simpa using hx), List.map_cons, List.sum_cons]
      ring

theorem leastSquares_perm {N : Nat} {S T : List Nat} (h : S.Perm T) {X : Nat → Fin N → ℚ} {y : Fin N → ℚ} {c : Nat → ℚ}
    (hS : IsLeastSquares S X y c) : IsLeastSquares T X y c := by
  intro q hq
  have h1 := hS q (h.mem_iff.2 hq)
  have h2 : ∀ r, (T.map (fun p => c p * X p r)).sum = (S.map (fun p => c p * X p r)).sum := fun r => ((h.map _).sum_eq).symm
  simp only [h2]
  exact h1

/-- **C174.** Linear data, a graph of zeros and ones with the true parents of the cause, none of them the effect, and a least squares
estimator: the curve is a straight line whose slope is the total effect of the cause on the effect. -/
theorem C174_linear_partial {N n : Nat} (hN : 0 < N) {B : Nat → Nat → ℚ} {X e : Nat → Fin N → ℚ} (he : GoodErrors n e)
    (hX : FollowsModel (Finset.range n) B X e) {order : List Nat} (ho : IsOrder n order)
    (htop : ∀ i j, i < n → j < n → B i j ≠ 0 → Before order j i) {cause effect : Nat} (hc : cause < n) (hf : effect < n)
    (hne : cause ≠ effect) (m : Nat → Nat → Option ℚ) (hm : ∀ j, j < n → m cause j = if B cause j ≠ 0 then some 1 else some 0)
    (hnp : B cause effect = 0) (est : Estimator ℚ C) (c : C) (b : Nat → ℚ)
    (hls : TrainsLeastSquares est (explanatory n m cause effect) X (X effect) c b) (v w : ℚ) :
    let rows := List.ofFn fun r k => X k r
    let curve := fun v => effectAt (train est n rows m cause effect) rows (explanatory n m cause effect) cause v c
    ∃ t, Paths.calcTotalEffect n (fun i j => some (B i j)) cause effect = some (.ok (some t)) ∧ curve w - curve v = t * (w - v) := by
  intro rows curve
  obtain ⟨hls, a, ha⟩ := hls
  have hself : B cause cause = 0 := by
    by_contra h
    exact Before.irrefl ho.1 cause (htop cause cause hc hc h)
  set S := explanatory n m cause effect with hS
  have hm1 : ∀ j, j < n → (m cause j = some 1 ↔ B cause j ≠ 0) := by
    intro j hj
    rw [hm j hj]
    split_ifs with h
    · simp [h]
    · simp only [not_not] at h; simp [h]
  have hmem : ∀ k, k ∈ S ↔ k = cause ∨ (k < n ∧ B cause k ≠ 0) := by
    intro k
    rw [hS, mem_explanatory]
    constructor
    · rintro ⟨_, h | ⟨h, h'⟩⟩
      · exact Or.inl h
      · exact Or.inr ⟨h, (hm1 k h).1 h'⟩
    · rintro (h | ⟨h, h'⟩)
      · exact ⟨h ▸ hne, Or.inl h⟩
      · exact ⟨fun hk => h' (hk ▸ hnp), Or.inr ⟨h, (hm1 k h).2 h'⟩⟩
  have hSn : S.Nodup := by
    have := (C174_adjustment_partial n m cause effect (fun j hj => by rw [hm j hj]; split_ifs <;> simp)
      (fun h => ((hm1 cause hc).1 h) hself)).1
    exact this.imp fun {a b} h => ne_of_lt h
  set P := S.filter (· ≠ cause) with hP
  have hcS : cause ∈ S := (hmem cause).2 (Or.inl rfl)
  have hPn : P.Nodup := hSn.filter _
  have hmemP : ∀ k, k ∈ P ↔ k < n ∧ B cause k ≠ 0 := by
    intro k
    rw [hP, List.mem_filter, hmem]
    simp only [decide_eq_true_eq]
    constructor
    · rintro ⟨h | h, h'⟩
      · exact absurd h h'
      · exact h
    · rintro ⟨h, h'⟩
      exact ⟨Or.inr ⟨h, h'⟩, fun hk => h' (hk ▸ hself)⟩
  have hperm : S.Perm (cause :: P) := by
    refine (List.perm_ext_iff_of_nodup hSn (List.nodup_cons.2 ⟨by rw [hP]; simp, hPn⟩)).2 fun k => ?_
    rw [List.mem_cons, hmemP, hmem]
  refine ⟨b cause, Direct.total_effect_of_leastSquares he hX ho htop hc hf hne hPn
    (fun p hp => htop cause p hc ((hmemP p).1 hp).1 ((hmemP p).1 hp).2) (fun j hj hB => (hmemP j).2 ⟨hj, hB⟩) (leastSquares_perm hperm hls), ?_⟩
  have hrows : rows.length = N := by simp [rows]
  have htrain : ∀ g : Nat → ℚ, (train est n rows m cause effect).predict (S.map g) c = a + (S.map (fun k => b k * g k)).sum := by
    intro g
    have : rows.map (fun r => r effect) = List.ofFn (X effect) := by simp [rows, List.map_ofFn, Function.comp_def]
    unfold train
    rw [← hS, this]
    exact ha g
  have hcurve : ∀ v, curve v = b cause * v + (rows.map (fun r => a + (P.map (fun k => b k * r k)).sum)).sum / N := by
    intro v
    have hN' : (N : ℚ) ≠ 0 := by exact_mod_cast hN.ne'
    have h1 : ∀ r : Nat → ℚ, (train est n rows m cause effect).predict (S.map (fun k => if k = cause then v else r k)) c =
        b cause * v + (a + (P.map (fun k => b k * r k)).sum) := by
      intro r
      rw [htrain, sum_replace S hSn cause hcS]
      ring
    have h2 : ∀ (l : List (Nat → ℚ)) (x : ℚ) (f : (Nat → ℚ) → ℚ), (l.map (fun r => x + f r)).sum = l.length * x + (l.map f).sum := by
      intro l x f
      induction l with
      | nil => simp
      | cons r l ih => simp only [List.map_cons, List.sum_cons, ih, List.length_cons]; push_cast; ring
    simp only [curve, effectAt]
    rw [List.map_congr_left (g := fun r => b cause * v + (a + (P.map (fun k => b k * r k)).sum)) (fun r _ => h1 r), h2, hrows]
    field_simp
  rw [hcurve, hcurve]
  ring

/-- Four samples: `x0 = ±1` is a common cause of `x1 = 2 x0 + e1` and `x2 = 3 x0`. -/
def exX : Nat → Fin 4 → ℚ
  | 0 => ![1, 1, -1, -1]
  | 1 => ![3, 1, -1, -3]
  | _ => ![3, 3, -3, -3]

/-- The coefficients of these data; `x1` has no effect on `x2`. -/
def exB (i j : Nat) : ℚ := if i = 1 ∧ j = 0 then 2 else if i = 2 ∧ j = 0 then 3 else 0

/-- Least squares of `x2`: on `x1` alone the slope is 6/5, with `x0` the slope of `x1` is 0. -/
def exEst : Estimator ℚ Unit := fun rows _ =>
  ⟨[()], fun l _ => if (rows.headD []).length = 1 then 6 / 5 * l.headD 0 else 3 * l.headD 0⟩

/-- **C174, violated.** With the true coefficients the regression ignores the common cause: the curve of `x2` over `x1` rises with slope
6/5 although `x1` has no effect on `x2`; with ones instead of the coefficients it is flat. -/
theorem C174_confounded :
    let rows := List.ofFn fun (r : Fin 4) k => exX k r
    let curve := fun (m : Nat → Nat → Option ℚ) v => effectAt (train exEst 3 rows m 1 2) rows (explanatory 3 m 1 2) 1 v ()
    Paths.calcTotalEffect 3 (fun i j => some (exB i j)) 1 2 = some (.ok (some 0)) ∧
    IsLeastSquares [1] exX (exX 2) (fun _ => 6 / 5) ∧ IsLeastSquares [0, 1] exX (exX 2) (fun k => if k = 0 then 3 else 0) ∧
    explanatory 3 (fun i j => some (exB i j)) 1 2 = [1] ∧
    curve (fun i j => some (exB i j)) 1 - curve (fun i j => some (exB i j)) 0 = 6 / 5 ∧
    curve (fun i j => some (if exB i j ≠ 0 then 1 else 0)) 1 - curve (fun i j => some (if exB i j ≠ 0 then 1 else 0)) 0 = 0 := by
  refine ⟨by decide +kernel, ?_, ?_, by decide +kernel, by decide +kernel, by decide +kernel⟩
  · intro q hq
    rw [List.mem_singleton] at hq
    subst hq
    unfold Uncorrelated
    decide +kernel
  · intro q hq
    rcases List.mem_cons.1 hq with rfl | hq
    · unfold Uncorrelated
      decide +kernel
    · rw [List.mem_singleton] at hq
      subst hq
      unfold Uncorrelated
      decide +kernel

/-- A model with an effect: `x1 = 2 x0 + e1`, `x2 = x0 + x1 + e2`. -/
def exE : Nat → Fin 4 → ℚ
  | 0 => ![1, 1, -1, -1]
  | 1 => ![1, -1, 1, -1]
  | _ => ![1, -1, -1, 1]

/-- Its coefficients. -/
def exB2 (i j : Nat) : ℚ := if i = 1 ∧ j = 0 then 2 else if i = 2 ∧ (j = 0 ∨ j = 1) then 1 else 0

/-- Its data. -/
def exX2 : Nat → Fin 4 → ℚ
  | 0 => ![1, 1, -1, -1]
  | 1 => ![3, 1, -1, -3]
  | _ => ![5, 1, -3, -3]

/-- The least squares fit of `x2` on `x0` and `x1` has coefficients 1 and 1. -/
def exEst2 : Estimator ℚ Unit := fun _ _ => ⟨[()], fun l _ => l.sum⟩

/-- The hypotheses of `C174_linear_partial` hold for these data. -/
example (v w : ℚ) :
    let rows := List.ofFn fun (r : Fin 4) k => exX2 k r
    let m : Nat → Nat → Option ℚ := fun i j => if exB2 i j ≠ 0 then some 1 else some 0
    let curve := fun v => effectAt (train exEst2 3 rows m 1 2) rows (explanatory 3 m 1 2) 1 v ()
    ∃ t, Paths.calcTotalEffect 3 (fun i j => some (exB2 i j)) 1 2 = some (.ok (some t)) ∧ curve w - curve v = t * (w - v) := by
  refine C174_linear_partial (e := exE) (order := [0, 1, 2]) (by norm_num) ⟨?_, ?_⟩ ?_ ⟨by decide, ?_⟩ ?_ (by norm_num) (by norm_num)
    (by norm_num) _ (fun j _ => rfl) (by decide +kernel) exEst2 () (fun _ => 1) ⟨?_, 0, ?_⟩ v w
  · intro i j hi hj hij
    unfold Uncorrelated
    interval_cases i <;> interval_cases j <;> first | exact absurd rfl hij | decide +kernel
  · intro i hi
    interval_cases i
    · exact ⟨0, 3, by decide +kernel⟩
    · exact ⟨0, 1, by decide +kernel⟩
    · exact ⟨0, 1, by decide +kernel⟩
  · intro i hi r
    rw [Finset.mem_range] at hi
    interval_cases i <;> fin_cases r <;> decide +kernel
  · intro i
    simp
    omega
  · intro i j hi hj h
    interval_cases i <;> interval_cases j <;> first
      | exact absurd (by decide +kernel) h
      | exact ⟨[], [], [2], rfl⟩
      | exact ⟨[], [1], [], rfl⟩
      | exact ⟨[0], [], [], rfl⟩
  · intro q hq
    have : q = 0 ∨ q = 1 := by
      have h := (mem_explanatory 3 (fun i j => if exB2 i j ≠ 0 then some (1 : ℚ) else some 0) 1 2 q).1 hq
      obtain ⟨h2, h | ⟨h, _⟩⟩ := h
      · exact Or.inr h
      · omega
    have he : explanatory 3 (fun i j => if exB2 i j ≠ 0 then some (1 : ℚ) else some 0) 1 2 = [0, 1] := by decide +kernel
    rw [he]
    unfold Uncorrelated
    rcases this with rfl | rfl <;> decide +kernel
  · intro g
    simp [exEst2]

/-! ### C175: the values -/

theorem foldl_classes (info : Info K C) (v : K) (g : C → K) (cs : List C) (hcs : cs.Nodup) (c' : C) (v' : K) :
    cs.foldl (fun info c => push info c v (g c)) info c' v' = info c' v' ++ if v' = v ∧ c' ∈ cs then [g c'] else [] := by
  induction cs generalizing info with
  | nil => simp
  | cons c cs ih =>
    have hn := List.nodup_cons.1 hcs
    rw [List.foldl_cons, ih _ hn.2]
    unfold push
    by_cases hv : v' = v
    · subst hv
      by_cases hc : c' = c
      · subst hc; simp [hn.1]
      · simp [hc]
    · simp [hv]

theorem foldl_positions (info : Info K C) (g : K → C → K) (cs : List C) (hcs : cs.Nodup) (ps : List K) (hps : ps.Nodup) (c' : C) (v' : K) :
    ps.foldl (fun info v => cs.foldl (fun info c => push info c v (g v c)) info) info c' v' =
      info c' v' ++ if v' ∈ ps ∧ c' ∈ cs then [g v' c'] else [] := by
  induction ps generalizing info with
  | nil => simp
  | cons v ps ih =>
    have hn := List.nodup_cons.1 hps
    rw [List.foldl_cons, ih _ hn.2, foldl_classes _ _ _ _ hcs]
    by_cases hv : v' = v
    · subst hv
      simp [hn.1]
    · simp [hv]

theorem addSamples_values (est : Estimator K C) (n : Nat) (all : List (Nat → K)) (classes : List C) (positions : List K)
    (cause effect : Nat) (hpos : positions.Nodup) (hcls : classes.Nodup) (hest : ∀ A y, (est A y).classes = classes) (c : C)
    (hc : c ∈ classes) (v : K) (hv : v ∈ positions) (l : List ((Nat → Nat → Option K) × List Int)) :
    ∀ info info', addSamples est n all classes positions cause effect l info = .ok info' →
    ∃ vals, info' c v = info c v ++ vals ∧ List.Forall₂ (fun s x => ∃ rows, iloc all s.2 = .ok rows ∧
      x = effectAt (train est n rows s.1 cause effect) rows (explanatory n s.1 cause effect) cause v c) l vals := by
  induction l with
  | nil =>
    intro info info' h
    simp only [addSamples, Except.ok.injEq] at h
    exact ⟨[], by simp [h], List.Forall₂.nil⟩
  | cons s l ih =>
    intro info info' h
    obtain ⟨m, idx⟩ := s
    rw [addSamples] at h
    split at h
    · simp at h
    · rename_i rows hrows
      split at h
      · simp at h
      · rename_i info1 h1
        obtain ⟨vals, e1, e2⟩ := ih _ _ h
        have hF : (train est n rows m cause effect).classes = classes := hest _ _
        unfold addSample at h1
        simp only [hF] at h1
        rw [if_pos (by simp)] at h1
        have h2 := congrArg (fun x => x c v) (Except.ok.inj h1)
        rw [foldl_positions info (fun v c => effectAt (train est n rows m cause effect) rows (explanatory n m cause effect) cause v c)
          classes hcls positions hpos c v, if_pos ⟨hv, hc⟩] at h2
        refine ⟨effectAt (train est n rows m cause effect) rows (explanatory n m cause effect) cause v c :: vals, ?_, ?_⟩
        · rw [e1, ← h2]; simp
        · exact List.Forall₂.cons ⟨rows, hrows, rfl⟩ e2

/-- What `visualize_nonlinear_causal_effect` hands to the loop. -/
theorem effectInfo_ok {est : Estimator K C} {X : Frame K} {cd : CdResult K} {causeName effectName : String} {classes : List C}
    {positions : List K} {p : Pct K} {info : Info K C} (h : effectInfo est X cd causeName effectName classes positions p = .ok info) :
    addSamples est X.columns.length X.rows classes positions (X.columns.idxOf causeName) (X.columns.idxOf effectName) (samples X cd)
      (fun _ _ => []) = .ok info := by
  unfold effectInfo at h
  split at h
  · simp at h
  · split_ifs at h
    split at h
    · simp at h
    · exact h

/-- **C175.** A bootstrap result with row numbers: for every class and every one of the (distinct) positions there is exactly one value per
bootstrap sample, in order: the mean prediction, over the rows of that sample with the cause set to the position, of a model trained on
those rows with that sample's graph. -/
theorem C175_values {est : Estimator K C} {X : Frame K} {ms : List (Nat → Nat → Option K)} {idx : List (List Int)}
    (hlen : ms.length = idx.length) {causeName effectName : String} {classes : List C} {positions : List K} (hpos : positions.Nodup)
    (hcls : classes.Nodup) (hest : ∀ A y, (est A y).classes = classes) {p : Pct K} {info : Info K C}
    (h : effectInfo est X (.boot ms (some idx)) causeName effectName classes positions p = .ok info) {c : C} (hc : c ∈ classes) {v : K}
    (hv : v ∈ positions) :
    (info c v).length = ms.length ∧ ∀ (i : Nat) (m : Nat → Nat → Option K) (ix : List Int), ms[i]? = some m → idx[i]? = some ix → ∃ rows, iloc X.rows ix = .ok rows ∧
      (info c v)[i]? = some (
        let exp := explanatory X.columns.length m (X.columns.idxOf causeName) (X.columns.idxOf effectName)
        let F := est (rows.map (fun r => exp.map r)) (rows.map (fun r => r (X.columns.idxOf effectName)))
        (rows.map (fun r => F.predict (exp.map (fun k => if k = X.columns.idxOf causeName then v else r k)) c)).sum / (rows.length : K)) := by
  obtain ⟨vals, e1, e2⟩ := addSamples_values est _ _ classes positions _ _ hpos hcls hest c hc v hv _ _ _ (effectInfo_ok h)
  rw [List.nil_append] at e1
  have hl : (samples X (.boot ms (some idx))).length = ms.length := by simp [samples, hlen]
  constructor
  · rw [e1, ← e2.length_eq, hl]
  · intro i m ix hm hix
    have hz : (samples X (.boot ms (some idx)))[i]? = some (m, ix) := by
      simp only [samples]
      rw [List.getElem?_zip_eq_some]
      exact ⟨hm, hix⟩
    obtain ⟨hi, hz'⟩ := List.getElem?_eq_some_iff.1 hz
    have hi' : i < vals.length := by rw [← e2.length_eq]; exact hi
    have h3 := e2.get hi hi'
    simp only [List.get_eq_getElem, hz'] at h3
    obtain ⟨rows, hr, hx⟩ := h3
    refine ⟨rows, hr, ?_⟩
    rw [e1, List.getElem?_eq_getElem hi', hx]
    rfl

/-- **C175, violated.** A bootstrap result without row numbers (its documented default): only the first sample is used, however many there
are. -/
theorem C175_first_only (est : Estimator K C) (X : Frame K) (m : Nat → Nat → Option K) (ms : List (Nat → Nat → Option K))
    (causeName effectName : String) (classes : List C) (positions : List K) (p : Pct K) :
    effectInfo est X (.boot (m :: ms) none) causeName effectName classes positions p =
      effectInfo est X (.boot [m] none) causeName effectName classes positions p := by
  unfold effectInfo checkResult samples
  simp

/-- **C175.** With the default labels `0, 1, …` of the rows, all rows are used, in order. -/
theorem C175_all_rows_partial (rows : List (Nat → K)) : iloc rows ((List.range rows.length).map (fun k : Nat => (k : Int))) = .ok rows := by
  have : ∀ pre l : List (Nat → K), pre ++ l = rows →
      iloc rows ((List.range' pre.length l.length).map (fun k : Nat => (k : Int))) = .ok l := by
    intro pre l
    induction l generalizing pre with
    | nil => intro _; simp [iloc]
    | cons r l ih =>
      intro h
      have h2 := ih (pre ++ [r]) (by rw [List.append_assoc]; exact h)
      rw [List.length_append, List.length_singleton] at h2
      rw [List.length_cons, List.range'_succ, List.map_cons, iloc]
      have hnn : ¬ ((pre.length : Int) < 0) := by omega
      simp only [if_neg hnn, Int.toNat_natCast]
      rw [if_pos (by omega)]
      have hr : rows[pre.length]? = some r := by rw [← h]; simp
      rw [hr, h2]
  have h := this [] rows rfl
  rwa [List.length_nil, ← List.range_eq_range'] at h

/-- **C175, violated.** Labels are used as row numbers: a frame whose labels start at 1 makes the call with an adjacency matrix raise
IndexError. -/
theorem C175_labels (rows : List (Nat → K)) (hr : rows ≠ []) :
    iloc rows ((List.range rows.length).map (fun k : Nat => ((k + 1 : Nat) : Int))) = .error .index := by
  have : ∀ k, k < rows.length → iloc rows ((List.range' k (rows.length - k)).map (fun k : Nat => ((k + 1 : Nat) : Int))) = .error .index := by
    intro k
    induction hd : rows.length - k generalizing k with
    | zero => intro hk; omega
    | succ d ih =>
      intro hk
      rw [List.range'_succ, List.map_cons, iloc]
      have hnn : ¬ (((k + 1 : Nat) : Int) < 0) := by omega
      simp only [if_neg hnn, Int.toNat_natCast]
      rw [if_pos (by omega)]
      by_cases hk1 : k + 1 < rows.length
      · have h2 := ih (k + 1) (by omega) hk1
        rw [List.getElem?_eq_getElem hk1, h2]
      · rw [List.getElem?_eq_none (by omega)]
  have h := this 0 (List.length_pos_iff.2 hr)
  rwa [Nat.sub_zero, ← List.range_eq_range'] at h

/-- The whole call with such a frame. -/
theorem C175_labels_raise (est : Estimator K C) (rows : List (Nat → K)) (hr : rows ≠ []) (columns : List String)
    (m : Nat → Nat → Option K) (hm : ∀ i j, (m i j).isSome) (causeName effectName : String) (h1 : causeName ∈ columns)
    (h2 : effectName ∈ columns) (classes : List C) (positions : List K) :
    effectInfo est ⟨rows, (List.range rows.length).map (fun k : Nat => ((k + 1 : Nat) : Int)), columns⟩
      (.matrix true columns.length columns.length m) causeName effectName classes positions .default = .error .index := by
  unfold effectInfo checkResult
  have hnone : ∀ i j, (m i j).isNone = false := fun i j => by
    have := hm i j
    cases hx : m i j
    · rw [hx] at this; simp at this
    · rfl
  simp only [hnone]
  have h3 := C175_labels rows hr
  push_cast at h3
  simp [h1, h2, checkPct, samples, addSamples, h3]

/-- Two samples of two rows, one position. -/
example : (effectInfo (K := ℚ) (C := Unit) (fun A y => ⟨[()], fun l _ => A.length + y.sum + l.sum⟩)
    ⟨[fun k => k, fun k => k + 1], [0, 1], ["x", "y", "z"]⟩
    (.boot [fun _ _ => some 0, fun _ j => some (if j = 2 then 1 else 0)] (some [[0, 1], [1, 1]])) "x" "y" [()] [7, 8] .default).toOption.map (fun i => i () 7) =
    some [12, 16] := by decide +kernel

/-- **C175.** The rows used are those at the given positions, counted from the end when negative. -/
theorem C175_positions_of_rows (rows : List (Nat → K)) (idx : List Int) (rs : List (Nat → K)) (h : iloc rows idx = .ok rs) :
    List.Forall₂ (fun i r => (0 ≤ i ∧ rows[i.toNat]? = some r) ∨
      (i < 0 ∧ ∃ k : Nat, 1 ≤ k ∧ k ≤ rows.length ∧ i = -(k : Int) ∧ rows[rows.length - k]? = some r)) idx rs := by
  induction idx generalizing rs with
  | nil =>
    simp only [iloc, Except.ok.injEq] at h
    subst h
    exact List.Forall₂.nil
  | cons i l ih =>
    rw [iloc] at h
    split_ifs at h with h1 h2 h2
    all_goals
      split at h
      · cases h
      · rename_i r hr
        split at h
        · cases h
        · rename_i rs' hrs
          simp only [Except.ok.injEq] at h
          subst h
          refine List.Forall₂.cons ?_ (ih rs' hrs)
          first
            | (right
               refine ⟨h1, (-i).toNat, by omega, by omega, by omega, ?_⟩
               have he : (i + (rows.length : Int)).toNat = rows.length - (-i).toNat := by omega
               rw [← he]; exact hr)
            | (left; exact ⟨h2, hr⟩)

/-- Rows −1 and 0 of three rows are the last and the first. -/
example : (iloc (K := ℚ) [fun _ => 7, fun _ => 8, fun _ => 9] [-1, 0]).toOption.map (List.map (fun r => r 0)) = some [9, 7] := by
  decide +kernel

/-! ### C176: arguments -/

/-- **C176, violated.** The documented type of `percentile`, a tuple, is always rejected. -/
theorem C176_tuple (est : Estimator K C) (X : Frame K) (cd : CdResult K) (causeName effectName : String) (classes : List C)
    (positions l : List K) : ∃ e, effectInfo est X cd causeName effectName classes positions (.tuple l) = .error e := by
  unfold effectInfo
  split
  · exact ⟨_, rfl⟩
  · split_ifs
    · exact ⟨_, rfl⟩
    · exact ⟨_, rfl⟩
    · exact ⟨_, rfl⟩

/-- **C176.** A list is accepted if and only if it has three entries between 0 and 100 (limits included). -/
theorem C176_list (l : List K) : checkPct (.list l) = .ok l ↔ l.length = 3 ∧ ∀ x ∈ l, 0 ≤ x ∧ x ≤ 100 := by
  simp only [checkPct]
  split_ifs with h1 h2
  · simp [h1]
  · simp only [true_iff]
    refine ⟨not_not.1 h1, fun x hx => ?_⟩
    have := List.all_eq_true.1 h2 x hx
    simpa using this
  · simp only [reduceCtorEq, false_iff, not_and]
    intro _ h
    exact h2 (List.all_eq_true.2 fun x hx => by simpa using h x hx)

/-- **C176, violated.** An adjacency matrix given as nested lists (array-like, as documented) or with a NaN entry (as RCD, CAM-UV and
BottomUpParceLiNGAM return it) is rejected; an array of the right shape without NaN is accepted. -/
theorem C176_matrix (n : Nat) (isArray : Bool) (r c : Nat) (m : Nat → Nat → Option K) :
    checkResult n (.matrix isArray r c m) = .ok () ↔
      isArray = true ∧ r = n ∧ c = n ∧ ∀ i j, i < n → j < n → m i j ≠ none := by
  simp only [checkResult]
  have hany : ((List.range r).any (fun i => (List.range c).any (fun j => (m i j).isNone)) = true) ↔
      ∃ i j, i < r ∧ j < c ∧ m i j = none := by
    simp only [List.any_eq_true, List.mem_range, Option.isNone_iff_eq_none]
    constructor
    · rintro ⟨i, hi, j, hj, h⟩; exact ⟨i, j, hi, hj, h⟩
    · rintro ⟨i, j, hi, hj, h⟩; exact ⟨i, hi, j, hj, h⟩
  split_ifs with h1 h2 h3
  · simp only [reduceCtorEq, false_iff]
    rintro ⟨_, rfl, rfl, h⟩
    obtain ⟨i, j, hi, hj, h0⟩ := hany.1 h1
    exact h i j hi hj h0
  · simp only [reduceCtorEq, false_iff]
    rintro ⟨h, _⟩
    simp [h] at h2
  · simp only [reduceCtorEq, false_iff]
    rintro ⟨_, hr, hc, _⟩
    rcases h3 with h3 | h3
    · exact h3 hr
    · exact h3 hc
  · simp only [true_iff]
    push Not at h3
    obtain ⟨rfl, rfl⟩ := h3
    refine ⟨by simpa using h2, rfl, rfl, fun i j hi hj h0 => h1 (hany.2 ⟨i, j, hi, hj, h0⟩)⟩

theorem keys_subset (l : List K) : ∀ x, x ∈ keys l ↔ x ∈ l := by
  induction l with
  | nil => simp [keys]
  | cons y l ih =>
    intro x
    simp only [keys, List.mem_cons, List.mem_filter, ih, decide_eq_true_eq]
    by_cases hx : x = y <;> simp [hx]

theorem keys_length_le (l : List K) : (keys l).length ≤ l.length := by
  induction l with
  | nil => simp [keys]
  | cons y l ih =>
    simp only [keys, List.length_cons]
    exact Nat.succ_le_succ (le_trans (List.length_filter_le _ _) ih)

theorem keys_length (l : List K) : (keys l).length = l.length ↔ l.Nodup := by
  induction l with
  | nil => simp [keys]
  | cons y l ih =>
    rw [List.nodup_cons, ← ih]
    simp only [keys, List.length_cons, Nat.add_right_cancel_iff]
    constructor
    · intro h
      have h1 : (keys l).length = l.length := le_antisymm (keys_length_le l) (h ▸ List.length_filter_le _ _)
      refine ⟨fun hy => ?_, h1⟩
      rw [← h1] at h
      have := List.length_filter_eq_length_iff.1 h y ((keys_subset l y).2 hy)
      simp at this
    · rintro ⟨hy, h1⟩
      rw [List.filter_eq_self.2, h1]
      intro x hx
      simp only [decide_eq_true_eq]
      rintro rfl
      exact hy ((keys_subset l x).1 hx)

theorem keys_nodup_eq (l : List K) (h : l.Nodup) : keys l = l := by
  induction l with
  | nil => rfl
  | cons y l ih =>
    have hn := List.nodup_cons.1 h
    simp only [keys]
    rw [ih hn.2, List.filter_eq_self.2]
    intro x hx
    simp only [decide_eq_true_eq]
    rintro rfl
    exact hn.1 hx

theorem line_length (pct : List K → K → K) (effects : K → List K) (positions percentile : List K) (hp : percentile.Nodup) (p : K)
    (hpm : p ∈ percentile) : line pct effects positions percentile p = (keys positions).map (fun v => pct (effects v) p) := by
  unfold line
  have h1 : percentile.filter (fun x => x = p) = [p] := by
    induction percentile with
    | nil => simp at hpm
    | cons y l ih =>
      have hn := List.nodup_cons.1 hp
      rcases List.mem_cons.1 hpm with rfl | hm
      · rw [List.filter_cons_of_pos (by simp)]
        congr 1
        rw [List.filter_eq_nil_iff]
        intro x hx
        simp only [decide_eq_true_eq]
        rintro rfl
        exact hn.1 hx
      · rw [List.filter_cons_of_neg, ih hn.2 hm]
        simp only [decide_eq_true_eq]
        rintro rfl
        exact hn.1 hm
  rw [h1, List.map_eq_flatMap]
  simp

/-- **C176.** With distinct percentiles the lines can be drawn if and only if the positions are distinct; then there is one line per
percentile, with that percentile of the values at every position.  A repeated position makes the call raise. -/
theorem C176_positions_partial (pct : List K → K → K) (effects : K → List K) (positions percentile : List K) (hp : percentile.Nodup)
    (hne : percentile ≠ []) : draw pct effects positions percentile =
      if positions.Nodup then .ok (percentile.map (fun p => (p, positions.map (fun v => pct (effects v) p)))) else .error .value := by
  unfold draw
  rw [keys_nodup_eq _ hp]
  have hlen : ∀ p ∈ percentile, (line pct effects positions percentile p).length = (keys positions).length := fun p hpm => by
    rw [line_length pct effects positions percentile hp p hpm, List.length_map]
  by_cases hpos : positions.Nodup
  · rw [if_pos hpos, if_pos]
    · congr 1
      refine List.map_congr_left fun p hpm => ?_
      rw [line_length pct effects positions percentile hp p hpm, keys_nodup_eq _ hpos]
    · refine List.all_eq_true.2 fun p hpm => ?_
      rw [hlen p hpm, (keys_length _).2 hpos, beq_self_eq_true]
  · rw [if_neg hpos, if_neg]
    intro hall
    obtain ⟨p, hpm⟩ := List.exists_mem_of_ne_nil _ hne
    have := List.all_eq_true.1 hall p hpm
    rw [hlen p hpm] at this
    exact hpos ((keys_length _).1 (by simpa using this))

example : draw (K := ℚ) (fun l _ => l.sum) (fun v => [v, v]) [1, 2] [95, 50] = .ok [(95, [2, 4]), (50, [2, 4])] := by decide +kernel

/-- A repeated percentile raises too. -/
example : draw (K := ℚ) (fun l _ => l.sum) (fun v => [v, v]) [1, 2] [50, 50] = .error .value := by decide +kernel

example : checkResult (K := ℚ) 2 (.matrix true 2 2 (fun i j => if i = j then none else some 0)) = .error .value := by decide +kernel

/-- The labels of the lines in a panel. -/
theorem draw_labels (pct : List K → K → K) (effects : K → List K) (positions percentile : List K) (hp : percentile.Nodup)
    (lines : List (K × List K)) (h : draw pct effects positions percentile = .ok lines) : lines.map Prod.fst = percentile := by
  unfold draw at h
  split_ifs at h
  simp only [Except.ok.injEq] at h
  subst h
  rw [List.map_map, keys_nodup_eq _ hp]
  exact List.map_id' _

theorem mapM_forall {A B E : Type} (f : A → Except E B) (l : List A) (r : List B) (h : l.mapM f = .ok r) :
    List.Forall₂ (fun a b => f a = .ok b) l r := by
  induction l generalizing r with
  | nil =>
    rw [List.mapM_nil] at h
    cases h
    exact List.Forall₂.nil
  | cons a l ih =>
    rw [List.mapM_cons] at h
    cases hf : f a with
    | error e => rw [hf] at h; cases h
    | ok b =>
      rw [hf] at h
      cases hl : l.mapM f with
      | error e => rw [hl] at h; cases h
      | ok bs =>
        rw [hl] at h
        cases h
        exact List.Forall₂.cons hf (ih bs hl)

/-- **C176.** The lines of the figure: a single matrix gives one panel per class with the median line only, whatever percentiles are
asked for; a bootstrap result without `percentile` gives the lines for 95, 50 and 5, in this order. -/
theorem C176_lines (pct : List K → K → K) (est : Estimator K C) (X : Frame K) (cd : CdResult K)
    (causeName effectName : String) (classes : List C) (positions : List K) (pctArg : Pct K) (panels : List (List (K × List K)))
    (h : visualize pct est X cd causeName effectName classes positions pctArg = .ok panels) :
    panels.length = classes.length ∧
    (∀ a r c m, cd = .matrix a r c m → ∀ lines ∈ panels, lines.map Prod.fst = [50]) ∧
    (∀ ms idx, cd = .boot ms idx → pctArg = .default → ∀ lines ∈ panels, lines.map Prod.fst = [95, 50, 5]) := by
  unfold visualize at h
  split at h
  · rename_i info percentile _ hp
    have hf := mapM_forall _ _ _ h
    have hmem : ∀ lines ∈ panels, ∃ c, draw pct (info c) positions (drawnPct percentile cd) = .ok lines := by
      intro lines hl
      obtain ⟨k, hk⟩ := List.getElem?_of_mem hl
      have hk1 : k < panels.length := (List.getElem?_eq_some_iff.1 hk).1
      have hk2 : k < classes.length := by rw [hf.length_eq]; exact hk1
      have := (List.forall₂_iff_get.1 hf).2 k hk2 hk1
      refine ⟨classes[k], ?_⟩
      have he : panels[k] = lines := (List.getElem?_eq_some_iff.1 hk).2
      rw [← he]; exact this
    refine ⟨hf.length_eq.symm, ?_, ?_⟩
    · rintro a r c m rfl lines hl
      obtain ⟨c, hc⟩ := hmem lines hl
      exact draw_labels pct (info c) positions [50] (List.nodup_singleton _) lines hc
    · rintro ms idx rfl rfl lines hl
      obtain ⟨c, hc⟩ := hmem lines hl
      have hpe : percentile = [95, 50, 5] := by
        simp only [checkPct, Except.ok.injEq] at hp
        exact hp.symm
      subst hpe
      refine draw_labels pct (info c) positions [95, 50, 5] ?_ lines hc
      simp
  · cases h
  · cases h

end Verif.VisualEffect
