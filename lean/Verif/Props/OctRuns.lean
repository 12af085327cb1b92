import Verif.Props.Oct
import Mathlib.Tactic.Linarith
import Mathlib.Tactic.LinearCombination
import Mathlib.Tactic.Positivity
import Mathlib.Tactic.FieldSimp
import Mathlib.Algebra.BigOperators.Group.List.Basic
import Mathlib.Algebra.Order.BigOperators.Group.List

/-! What the scores of `OutOfSampleCausalTuning` depend on and what they mean. -/
set_option autoImplicit false
set_option linter.unusedSectionVars false
namespace Verif.Oct

/-! ### C110: predictions are out of sample -/

theorem sub_congr {data data' : Nat → Nat → ℚ} {rows cols : List Nat}
    (h : ∀ r ∈ rows, ∀ c ∈ cols, data r c = data' r c) : sub data rows cols = sub data' rows cols := by
  unfold sub
  apply List.map_congr_left
  intro r hr
  apply List.map_congr_left
  intro c hc
  exact h r hr c hc

theorem predict_congr {data data' : Nat → Nat → ℚ} (rf : Forest) {exp : List Nat} {v : Nat} {train test : List Nat}
    (h1 : ∀ r ∈ train, ∀ c ∈ exp, data r c = data' r c) (h2 : ∀ r ∈ train, data r v = data' r v)
    (h3 : ∀ r ∈ test, ∀ c ∈ exp, data r c = data' r c) :
    predict data rf exp v train test = predict data' rf exp v train test := by
  unfold predict
  have e : train.map (fun r => data r v) = train.map (fun r => data' r v) := List.map_congr_left h2
  rw [e, sub_congr h1, sub_congr h3]

/-- The explanatory variables are below `n`. -/
theorem exp_lt {G : Option Mat} {n v u : Nat} (h : u ∈ explanatory G n v) : u < n := by
  unfold explanatory at h
  cases G with
  | none => exact List.mem_range.1 (List.mem_filter.1 h).1
  | some G => exact List.mem_range.1 (List.mem_filter.1 h).1

/-- A variable is not among its own explanatory variables unless the graph has a loop there. -/
theorem not_mem_exp {G : Option Mat} {n v : Nat} (hv : v < n) (h : ∀ G', G = some G' → ¬ Arc n G' v v) :
    v ∉ explanatory G n v := by
  intro hm
  cases G with
  | none =>
    have := (List.mem_filter.1 hm).2
    simp at this
  | some G =>
    have h2 := (C47_blanket G n v v hv).1 hm
    rcases h2 with h2 | h2 | ⟨h2, _⟩
    · exact h G rfl h2
    · exact h G rfl h2
    · exact h2 rfl

/-- **C110 (out of sample).** The explanatory variables of a fold are chosen from the training rows alone, and the
predictions of a variable on the test rows depend only on the training rows and on the test values of its
explanatory variables; the variable itself is not one of them.  So replacing the values that are to be predicted
changes no prediction. -/
theorem C110_out_of_sample (data data' : Nat → Nat → ℚ) (n : Nat) (rf : Nat → Forest) (c : Config) (k : Nat)
    (train test : List Nat) (f : Fold) (h : makeFold data n rf c k train test = Except.ok f)
    (htr : ∀ r ∈ train, ∀ u, u < n → data r u = data' r u) :
    ∃ f', makeFold data' n rf c k train test = Except.ok f' ∧ f'.test = test ∧ f'.exps = f.exps ∧
      (∀ v, v < n → (∀ m, c.model = some m → ¬ Arc n (m k (sub data train (List.range n))) v v) → v ∉ f.exps v) ∧
      ∀ v, v < n → (∀ r ∈ test, ∀ u ∈ f.exps v, data r u = data' r u) → f'.preds v = f.preds v := by
  unfold makeFold at h
  cases hc : c.allOthers with
  | true =>
    rw [hc] at h
    simp only [if_true] at h
    cases h
    refine ⟨⟨test, explanatory none n, fun v => predict data' (rf v) (explanatory none n v) v train test⟩, ?_, rfl, rfl, ?_, ?_⟩
    · unfold makeFold
      simp only [hc, if_true]
    · intro v hv _
      exact not_mem_exp (G := none) hv (fun G' h => by cases h)
    · intro v hv hte
      exact (predict_congr (rf v) (fun r hr u hu => htr r hr u (exp_lt hu)) (fun r hr => htr r hr v hv) hte).symm
  | false =>
    rw [hc] at h
    simp only [Bool.false_eq_true, if_false] at h
    cases hm : c.model with
    | none => rw [hm] at h; cases h
    | some m =>
      rw [hm] at h
      simp only [] at h
      cases h
      have hs : sub data train (List.range n) = sub data' train (List.range n) :=
        sub_congr (fun r hr u hu => htr r hr u (List.mem_range.1 hu))
      refine ⟨⟨test, explanatory (some (m k (sub data train (List.range n)))) n, fun v => predict data' (rf v)
        (explanatory (some (m k (sub data train (List.range n)))) n v) v train test⟩, ?_, rfl, rfl, ?_, ?_⟩
      · unfold makeFold
        simp only [hc, hm, Bool.false_eq_true, if_false, ← hs]
      · intro v hv hl
        apply not_mem_exp (G := some (m k (sub data train (List.range n)))) hv
        intro G' hG
        cases hG
        exact hl m rfl
      · intro v hv hte
        exact (predict_congr (rf v) (fun r hr u hu => htr r hr u (exp_lt hu)) (fun r hr => htr r hr v hv) hte).symm

/-- The hypotheses are met with data that differ in the test rows, and the predictions of variable 1 agree. -/
example : ∃ data' : Nat → Nat → ℚ, (∀ r ∈ [0, 1], ∀ u, u < 2 → wData r u = data' r u) ∧
    (∀ r ∈ [2, 3, 4], wData r 0 = data' r 0 ∧ wData r 1 ≠ data' r 1) ∧
    (makeFold wData 2 (wR.rf 0 0) (wCfgs.headD ⟨true, none⟩) 0 [0, 1] [2, 3, 4]).toOption.map (fun f => (f.preds 1, f.exps 1)) =
      some ([2, 1, 4], [0]) := by
  refine ⟨fun r v => if 2 ≤ r ∧ v = 1 then 7 else wData r v, ?_, ?_, ?_⟩
  · intro r hr u _
    have : ¬ 2 ≤ r := by simp at hr; omega
    simp [this]
  · intro r hr
    simp at hr
    rcases hr with h | h | h <;> subst h <;> norm_num [wData]
  · decide +kernel

theorem mapM_getElem {α β ε : Type} {f : α → Except ε β} {l : List α} {l' : List β} (h : l.mapM f = Except.ok l') :
    l'.length = l.length ∧ ∀ (i : Nat) (b : β), l'[i]? = some b → ∃ a, l[i]? = some a ∧ f a = Except.ok b := by
  induction l generalizing l' with
  | nil =>
    simp only [List.mapM_nil] at h
    cases h
    exact ⟨rfl, fun i b hb => by simp at hb⟩
  | cons a l ih =>
    rw [List.mapM_cons] at h
    cases ha : f a with
    | error e => rw [ha] at h; cases h
    | ok b =>
      cases hl : l.mapM f with
      | error e => rw [ha, hl] at h; cases h
      | ok bs =>
        rw [ha, hl] at h
        cases h
        obtain ⟨h1, h2⟩ := ih hl
        refine ⟨by simp [h1], ?_⟩
        intro i c hc
        cases i with
        | zero => simp only [List.getElem?_cons_zero] at hc ⊢; cases hc; exact ⟨a, rfl, ha⟩
        | succ i => simpa using h2 i c (by simpa using hc)

theorem makeFold_test {data : Nat → Nat → ℚ} {n : Nat} {rf : Nat → Forest} {c : Config} {k : Nat} {train test : List Nat}
    {f : Fold} (h : makeFold data n rf c k train test = Except.ok f) : f.test = test := by
  unfold makeFold at h
  split at h
  · cases h; rfl
  · split at h
    · cases h
    · cases h; rfl

/-- **C110 (all rows).** Every configuration is evaluated on all folds of its split, the predictions of each fold come from
the training rows of that fold, and if the folds test every row of `rows` exactly once, then the values with which the
predictions are compared are the values in `rows`, each exactly once. -/
theorem C110_every_row_once (data : Nat → Nat → ℚ) (n : Nat) (R : Random) (cfgs : List Config) (infos : List (List Fold))
    (h : infosOf data n R cfgs = Except.ok infos) :
    infos.length = cfgs.length ∧ ∀ (k : Nat) (folds : List Fold), infos[k]? = some folds → folds.length = (R.splits k).length ∧
      (∃ c, cfgs[k]? = some c ∧ ∀ (i : Nat) (f : Fold), folds[i]? = some f → ∃ train test, (R.splits k)[i]? = some (train, test) ∧
        makeFold data n (R.rf k i) c i train test = Except.ok f) ∧
      ∀ rows, ((R.splits k).flatMap Prod.snd).Perm rows → ∀ v, (truth data folds v).Perm (rows.map (fun r => data r v)) := by
  obtain ⟨h1, h2⟩ := mapM_getElem h
  refine ⟨by simpa using h1, ?_⟩
  intro k folds hk
  obtain ⟨⟨c, k'⟩, hc, hf⟩ := h2 k folds hk
  rw [List.getElem?_zipIdx] at hc
  obtain ⟨c', hc1, hc2⟩ := Option.map_eq_some_iff.1 hc
  cases hc2
  simp only [Nat.zero_add] at hf
  obtain ⟨h3, h4⟩ := mapM_getElem hf
  have h5 : ∀ (i : Nat) (f : Fold), folds[i]? = some f → ∃ train test, (R.splits k)[i]? = some (train, test) ∧
        makeFold data n (R.rf k i) c i train test = Except.ok f := by
    intro i f hi
    obtain ⟨⟨⟨tr, te⟩, i'⟩, ha, hm⟩ := h4 i f hi
    rw [List.getElem?_zipIdx] at ha
    obtain ⟨s, hs1, hs2⟩ := Option.map_eq_some_iff.1 ha
    cases hs2
    simp only [Nat.zero_add] at hm
    exact ⟨tr, te, hs1, hm⟩
  refine ⟨by simpa using h3, ⟨c, hc1, h5⟩, ?_⟩
  intro rows hp v
  have h6 : folds.map Fold.test = (R.splits k).map Prod.snd := by
    apply List.ext_getElem?
    intro i
    rw [List.getElem?_map, List.getElem?_map]
    cases hi : folds[i]? with
    | none =>
      have : (R.splits k)[i]? = none := by
        rw [List.getElem?_eq_none_iff] at hi ⊢
        have : folds.length = (R.splits k).length := by simpa using h3
        omega
      rw [this]; rfl
    | some f =>
      obtain ⟨tr, te, hs, hm⟩ := h5 i f hi
      rw [hs]
      simp [makeFold_test hm]
  have h7 : truth data folds v = ((folds.map Fold.test).flatMap id).map (fun r => data r v) := by
    unfold truth
    rw [List.flatMap_map, List.map_flatMap]
    rfl
  rw [h7, h6, List.flatMap_map]
  exact hp.map _

/-- The hypotheses are met by a split into two folds that test the rows 0 to 3 once. -/
example : ((infosOf wData 2 { wR with splits := fun _ => [([2, 3], [0, 1]), ([0, 1], [2, 3])] } wCfgs).toOption.map
      (fun l => l.map (fun f => truth wData f 0))) = some [[0, 1, 2, 3], [0, 1, 2, 3]] ∧
    ([([2, 3], [0, 1]), ([0, 1], [2, 3])] : List (List Nat × List Nat)).flatMap Prod.snd = List.range 4 := by
  decide +kernel

/-! ### C111: what the score means -/

theorem mul_sum_nonneg (x : List ℚ) : 0 ≤ (List.zipWith (fun a b => a * b) x x).sum := by
  induction x with
  | nil => simp
  | cons a l ih =>
    simp only [List.zipWith_cons_cons, List.sum_cons]
    nlinarith [mul_self_nonneg a]

theorem cauchy : ∀ x y : List ℚ, (List.zipWith (fun a b => a * b) x y).sum ^ 2 ≤
    (List.zipWith (fun a b => a * b) x x).sum * (List.zipWith (fun a b => a * b) y y).sum := by
  intro x
  induction x with
  | nil => intro y; simp
  | cons a l ih =>
    intro y
    cases y with
    | nil => simp
    | cons b m =>
      simp only [List.zipWith_cons_cons, List.sum_cons]
      have h := ih m
      have hA := mul_sum_nonneg l
      have hB := mul_sum_nonneg m
      generalize (List.zipWith (fun a b => a * b) l m).sum = S at h ⊢
      generalize (List.zipWith (fun a b => a * b) l l).sum = A at h hA ⊢
      generalize (List.zipWith (fun a b => a * b) m m).sum = B at h hB ⊢
      have h2 : 2 * (a * b * S) ≤ a * a * B + b * b * A := by
        have hn : 0 ≤ a * a * B + b * b * A := add_nonneg (mul_nonneg (mul_self_nonneg a) hB) (mul_nonneg (mul_self_nonneg b) hA)
        apply le_of_sq_le_sq _ hn
        have h3 : (a * b) ^ 2 * S ^ 2 ≤ (a * b) ^ 2 * (A * B) := mul_le_mul_of_nonneg_left h (sq_nonneg _)
        nlinarith [sq_nonneg (a * a * B - b * b * A)]
      nlinarith

theorem zip_map (f g : ℚ → ℚ) (x y : List ℚ) :
    List.zipWith (fun a b => f a * g b) x y = List.zipWith (fun a b => a * b) (x.map f) (y.map g) := by
  rw [List.zipWith_map]

theorem dev_nonneg (x : List ℚ) : 0 ≤ dev x x := by
  unfold dev
  rw [zip_map (fun a => a - (mean x).getD 0) (fun b => b - (mean x).getD 0)]
  exact mul_sum_nonneg _

theorem dev_cauchy (x y : List ℚ) : dev x y ^ 2 ≤ dev x x * dev y y := by
  unfold dev
  rw [zip_map (fun a => a - (mean x).getD 0) (fun b => b - (mean y).getD 0),
    zip_map (fun a => a - (mean x).getD 0) (fun b => b - (mean x).getD 0),
    zip_map (fun a => a - (mean y).getD 0) (fun b => b - (mean y).getD 0)]
  exact cauchy _ _

/-- Squared sample correlation (specification). -/
def corr2 (x y : List ℚ) : ℚ := dev x y ^ 2 / (dev x x * dev y y)

theorem corr2_range (x y : List ℚ) : 0 ≤ corr2 x y ∧ corr2 x y ≤ 1 := by
  unfold corr2
  have h0 : 0 ≤ dev x x * dev y y := mul_nonneg (dev_nonneg x) (dev_nonneg y)
  exact ⟨div_nonneg (sq_nonneg _) h0, div_le_one_of_le₀ (dev_cauchy x y) h0⟩

theorem sum_map_mul_add (a b : ℚ) (l : List ℚ) : (l.map (fun x => a * x + b)).sum = a * l.sum + l.length * b := by
  induction l with
  | nil => simp
  | cons x l ih => simp only [List.map_cons, List.sum_cons, List.length_cons, ih]; push_cast; ring

theorem mean_affine (a b : ℚ) (l : List ℚ) (hl : l ≠ []) :
    (mean (l.map (fun x => a * x + b))).getD 0 = a * (mean l).getD 0 + b := by
  unfold mean
  have h : l.map (fun x => a * x + b) ≠ [] := by simpa using hl
  rw [if_neg h, if_neg hl]
  have hn : (l.length : ℚ) ≠ 0 := by
    simpa using hl
  simp only [Option.getD_some, List.length_map]
  rw [sum_map_mul_add]
  field_simp

theorem zip_same (f : ℚ → ℚ → ℚ) (g : ℚ → ℚ) (l : List ℚ) : List.zipWith f l (l.map g) = l.map (fun x => f x (g x)) := by
  induction l with
  | nil => rfl
  | cons x l ih => simp [ih]

theorem zip_self (f : ℚ → ℚ → ℚ) (l : List ℚ) : List.zipWith f l l = l.map (fun x => f x x) := by
  induction l with
  | nil => rfl
  | cons x l ih => simp

theorem sum_map_mul_left' (c : ℚ) (g : ℚ → ℚ) (l : List ℚ) : (l.map (fun x => c * g x)).sum = c * (l.map g).sum := by
  induction l with
  | nil => simp
  | cons x l ih => simp only [List.map_cons, List.sum_cons, ih]; ring

theorem dev_affine (a b : ℚ) (l : List ℚ) : dev l (l.map (fun x => a * x + b)) = a * dev l l ∧
    dev (l.map (fun x => a * x + b)) (l.map (fun x => a * x + b)) = a ^ 2 * dev l l := by
  by_cases hl : l = []
  · subst hl
    simp [dev]
  · unfold dev
    rw [mean_affine a b l hl]
    generalize (mean l).getD 0 = m
    constructor
    · rw [zip_same, zip_self, ← sum_map_mul_left']
      congr 1
      apply List.map_congr_left
      intro x _
      ring
    · rw [zip_self, zip_self, List.map_map, ← sum_map_mul_left']
      congr 1
      apply List.map_congr_left
      intro x _
      simp only [Function.comp_apply]
      ring

/-- The score is defined exactly when truth and prediction vary for each variable. -/
theorem meanN_some {l : List (Option ℚ)} {s : ℚ} (h : meanN l = some s) :
    ∃ xs : List ℚ, l = xs.map some ∧ xs ≠ [] ∧ s = xs.sum / xs.length := by
  unfold meanN at h
  by_cases ha : l.any Option.isNone = true
  · rw [if_pos ha] at h; cases h
  · rw [if_neg ha] at h
    unfold mean at h
    have hl : l = (l.map (fun x => x.getD 0)).map some := by
      rw [List.map_map]
      conv_lhs => rw [← List.map_id l]
      apply List.map_congr_left
      intro x hx
      cases x with
      | none => exact absurd (List.any_eq_true.2 ⟨none, hx, rfl⟩) ha
      | some y => rfl
    by_cases h0 : l.map (fun x => x.getD 0) = []
    · rw [if_pos h0] at h; cases h
    · rw [if_neg h0] at h
      cases h
      exact ⟨_, hl, h0, rfl⟩

theorem sum_le_of {xs ys : List ℚ} (hl : xs.length = ys.length)
    (h : ∀ (i : Nat) (x y : ℚ), xs[i]? = some x → ys[i]? = some y → x ≤ y) : xs.sum ≤ ys.sum := by
  induction xs generalizing ys with
  | nil =>
    cases ys with
    | nil => exact le_refl _
    | cons y ys => cases hl
  | cons x xs ih =>
    cases ys with
    | nil => cases hl
    | cons y ys =>
      simp only [List.sum_cons]
      have h1 := h 0 x y rfl rfl
      have h2 := ih (by simpa using hl) (fun i a b ha hb => h (i + 1) a b (by simpa using ha) (by simpa using hb))
      linarith

theorem evaluate_some {lg : ℚ → ℚ} {data : Nat → Nat → ℚ} {n : Nat} {folds : List Fold} {s : ℚ}
    (h : evaluate lg data n folds = some s) : ∃ xs : List ℚ, xs.length = n ∧ xs ≠ [] ∧ s = xs.sum / xs.length ∧
      ∀ (v : Nat) (x : ℚ), xs[v]? = some x → v < n ∧ x = -(1 / 2) * lg (1 - corr2 (truth data folds v) (predicted folds v)) := by
  obtain ⟨xs, h1, h2, h3⟩ := meanN_some h
  have hl : xs.length = n := by
    have := congrArg List.length h1
    simpa using this.symm
  refine ⟨xs, hl, h2, h3, ?_⟩
  intro v x hx
  have hv : v < n := by
    have := (List.getElem?_eq_some_iff.1 hx).1
    omega
  refine ⟨hv, ?_⟩
  have h4 : (xs.map some)[v]? = some (some x) := by rw [List.getElem?_map, hx]; rfl
  rw [← h1, List.getElem?_map, List.getElem?_range hv] at h4
  simp only [Option.map_some, Option.some.injEq] at h4
  unfold mutualInfo at h4
  by_cases h0 : dev (truth data folds v) (truth data folds v) * dev (predicted folds v) (predicted folds v) = 0
  · rw [if_pos h0] at h4; cases h4
  · rw [if_neg h0] at h4
    cases h4
    rfl

/-- Monotone on the unit interval with value 0 at 1 (what is used of the logarithm). -/
def LogLike (lg : ℚ → ℚ) : Prop := lg 1 = 0 ∧ ∀ x y, 0 ≤ x → x ≤ y → y ≤ 1 → lg x ≤ lg y

/-- **C111 (score).** A score is never negative, and a configuration whose predictions correlate at least as strongly
with the truth in each variable as those of another one has at least its score. -/
theorem C111_monotone (lg : ℚ → ℚ) (hlg : LogLike lg) (data : Nat → Nat → ℚ) (n : Nat) (A B : List Fold) (s t : ℚ)
    (hs : evaluate lg data n A = some s) (ht : evaluate lg data n B = some t)
    (h : ∀ v, v < n → corr2 (truth data A v) (predicted A v) ≤ corr2 (truth data B v) (predicted B v)) :
    0 ≤ s ∧ s ≤ t := by
  obtain ⟨xs, hx1, hx2, hx3, hx4⟩ := evaluate_some hs
  obtain ⟨ys, hy1, hy2, hy3, hy4⟩ := evaluate_some ht
  have hpos : (0 : ℚ) < n := by
    have : 0 < xs.length := List.length_pos_iff.2 hx2
    rw [hx1] at this
    exact_mod_cast this
  constructor
  · rw [hx3, hx1]
    apply div_nonneg _ hpos.le
    apply List.sum_nonneg
    intro x hx
    obtain ⟨i, hi⟩ := List.mem_iff_getElem?.1 hx
    rw [(hx4 i x hi).2]
    obtain ⟨h1, h2⟩ := corr2_range (truth data A i) (predicted A i)
    have := hlg.2 (1 - corr2 (truth data A i) (predicted A i)) 1 (by linarith) (by linarith) (le_refl _)
    rw [hlg.1] at this
    linarith
  · rw [hx3, hy3, hx1, hy1]
    apply div_le_div_of_nonneg_right _ hpos.le
    apply sum_le_of (by rw [hx1, hy1])
    intro i x y hx hy
    rw [(hx4 i x hx).2, (hy4 i y hy).2]
    obtain ⟨h1, h2⟩ := corr2_range (truth data A i) (predicted A i)
    obtain ⟨h3, h4⟩ := corr2_range (truth data B i) (predicted B i)
    have := hlg.2 (1 - corr2 (truth data B i) (predicted B i)) (1 - corr2 (truth data A i) (predicted A i)) (by linarith)
      (by linarith [h i (hx4 i x hx).1]) (by linarith)
    linarith

/-- Every prediction of the variable is the same invertible affine function of the value it predicts. -/
def PerfectUpToScale (data : Nat → Nat → ℚ) (folds : List Fold) (v : Nat) : Prop :=
  ∃ a b : ℚ, a ≠ 0 ∧ ∀ f ∈ folds, f.preds v = f.test.map (fun r => a * data r v + b)

/-- Two test rows (of any folds) have different values of the variable. -/
def Varies (data : Nat → Nat → ℚ) (folds : List Fold) (v : Nat) : Prop :=
  ∃ f ∈ folds, ∃ g ∈ folds, ∃ r ∈ f.test, ∃ r' ∈ g.test, data r v ≠ data r' v

theorem dev_zero {l : List ℚ} (h : dev l l = 0) : ∀ x ∈ l, x = (mean l).getD 0 := by
  unfold dev at h
  rw [zip_self] at h
  intro x hx
  have h1 : ∀ y ∈ l.map (fun x => (x - (mean l).getD 0) * (x - (mean l).getD 0)), 0 ≤ y := by
    intro y hy
    obtain ⟨z, _, hz⟩ := List.mem_map.1 hy
    rw [← hz]
    exact mul_self_nonneg _
  have h2 := List.single_le_sum h1 _ (List.mem_map.2 ⟨x, hx, rfl⟩)
  rw [h] at h2
  have h3 : (x - (mean l).getD 0) * (x - (mean l).getD 0) = 0 := le_antisymm h2 (mul_self_nonneg _)
  have := mul_self_eq_zero.1 h3
  linarith

/-- **C111 (perfect predictions).** If the predictions are perfect up to scale and shift, for every variable, then the
score is the largest one a configuration can have. -/
theorem C111_perfect (lg : ℚ → ℚ) (hlg : LogLike lg) (data : Nat → Nat → ℚ) (n : Nat) (hn : 0 < n) (A : List Fold)
    (hp : ∀ v, v < n → PerfectUpToScale data A v) (hv : ∀ v, v < n → Varies data A v) :
    ∃ s, evaluate lg data n A = some s ∧ s = -(1 / 2) * lg 0 ∧
      ∀ (B : List Fold) (t : ℚ), evaluate lg data n B = some t → t ≤ s := by
  have hmi : ∀ v, v < n → mutualInfo lg (truth data A v) (predicted A v) = some (-(1 / 2) * lg 0) := by
    intro v hvn
    obtain ⟨a, b, ha, hab⟩ := hp v hvn
    have e : predicted A v = (truth data A v).map (fun x => a * x + b) := by
      unfold predicted truth
      rw [List.map_flatMap]
      clear hp hv
      induction A with
      | nil => rfl
      | cons f A ih =>
        rw [List.flatMap_cons, List.flatMap_cons, hab f List.mem_cons_self,
          ih (fun f hf => hab f (List.mem_cons_of_mem _ hf)), List.map_map]
        rfl
    obtain ⟨h1, h2⟩ := dev_affine a b (truth data A v)
    have hd : dev (truth data A v) (truth data A v) ≠ 0 := by
      intro h0
      have h3 := dev_zero h0
      obtain ⟨f, hf, g, hg, r, hr, r', hr', hne⟩ := hv v hvn
      apply hne
      rw [h3 (data r v) (List.mem_flatMap.2 ⟨f, hf, List.mem_map.2 ⟨r, hr, rfl⟩⟩),
        h3 (data r' v) (List.mem_flatMap.2 ⟨g, hg, List.mem_map.2 ⟨r', hr', rfl⟩⟩)]
    unfold mutualInfo
    rw [e, h1, h2, if_neg (by positivity)]
    congr 3
    field_simp
    ring
  have he : evaluate lg data n A = some (-(1 / 2) * lg 0) := by
    unfold evaluate
    have : (List.range n).map (fun v => mutualInfo lg (truth data A v) (predicted A v)) =
        List.replicate n (some (-(1 / 2) * lg 0)) := by
      rw [List.eq_replicate_iff]
      refine ⟨by simp, ?_⟩
      intro x hx
      obtain ⟨v, hv, rfl⟩ := List.mem_map.1 hx
      exact hmi v (List.mem_range.1 hv)
    rw [this]
    unfold meanN mean
    have hn' : (n : ℚ) ≠ 0 := by exact_mod_cast hn.ne'
    rw [if_neg (by simp), if_neg (by simp; omega)]
    simp only [List.map_replicate, Option.getD_some, List.sum_replicate, List.length_replicate, nsmul_eq_mul]
    congr 1
    field_simp
  refine ⟨_, he, rfl, ?_⟩
  intro B t ht
  obtain ⟨ys, hy1, hy2, hy3, hy4⟩ := evaluate_some ht
  have hpos : (0 : ℚ) < n := by exact_mod_cast hn
  rw [hy3, hy1, div_le_iff₀ hpos]
  have : ys.sum ≤ (List.replicate n (-(1 / 2) * lg 0)).sum := by
    apply sum_le_of (by simp [hy1])
    intro i x y hx hy
    rw [(hy4 i x hx).2]
    rw [List.getElem?_replicate, if_pos (hy4 i x hx).1] at hy
    cases hy
    obtain ⟨h1, h2⟩ := corr2_range (truth data B i) (predicted B i)
    have := hlg.2 0 (1 - corr2 (truth data B i) (predicted B i)) (le_refl _) (by linarith) (by linarith)
    linarith
  rw [List.sum_replicate, nsmul_eq_mul] at this
  linarith

/-- Both hypotheses are met: one fold with a perfect prediction up to scale. -/
example : LogLike (fun x => x - 1) ∧
    PerfectUpToScale wData [⟨[2, 3, 4], fun _ => [], fun v => [2, 3, 4].map (fun r => 2 * wData r v + 1)⟩] 1 ∧
    Varies wData [⟨[2, 3, 4], fun _ => [], fun v => [2, 3, 4].map (fun r => 2 * wData r v + 1)⟩] 1 := by
  refine ⟨⟨by norm_num, fun x y _ h _ => by linarith⟩, ⟨2, 1, by norm_num, ?_⟩, ?_⟩
  · intro f hf
    rw [List.mem_singleton] at hf
    subst hf
    rfl
  · exact ⟨_, List.mem_singleton.2 rfl, _, List.mem_singleton.2 rfl, 2, by simp, 3, by simp, by norm_num [wData]⟩

end Verif.Oct
