import Verif.Model.Longitudinal
import Verif.Proofs.Var
import Verif.Props.DirectLingam
import Mathlib.Algebra.BigOperators.Intervals

/-! Lemmas about the model of `LongitudinalLiNGAM`. -/
set_option autoImplicit false
set_option linter.unusedSectionVars false
namespace Verif.Longitudinal

open Verif.Paths (clean)

variable {K : Type} [Field K] [LinearOrder K] [IsStrictOrderedRing K]

/-! ### Regression on the stacked past -/

theorem sum_blocks (p : Nat) (f : Nat → K) : ∀ L : Nat,
    ∑ c ∈ Finset.range (p * L), f c = ∑ k ∈ Finset.range L, ∑ j ∈ Finset.range p, f (p * k + j)
  | 0 => by simp
  | L + 1 => by rw [Nat.mul_succ, Finset.sum_range_add, sum_blocks p f L, Finset.sum_range_succ]

/-- The regression residuals are the innovations of a VAR whose lag-`k` coefficients are part `n_lags - k` of the
coefficient matrix. -/
theorem nT_innovation (E : Env K) (L : Nat) (X : Panel K) (t : Nat) (ht : L ≤ t) (i s : Nat) :
    nT E L X t i s =
      innovation X.p L (fun k => mTau E L X t (L - k)) (fun t' i' => X.val t' s i') t i := by
  unfold nT innovation
  congr 1
  rw [sum_blocks, ← Finset.sum_range_reflect]
  apply Finset.sum_congr rfl
  intro k hk
  have hk := Finset.mem_range.1 hk
  apply Finset.sum_congr rfl
  intro j hj
  have hj := Finset.mem_range.1 hj
  have hp : 0 < X.p := by omega
  unfold mTau stacked
  have e0 : L - (k + 1) = L - 1 - k := by omega
  have e1 : (X.p * (L - 1 - k) + j) / X.p = L - 1 - k := by
    rw [Nat.mul_add_div hp, Nat.div_eq_of_lt hj, Nat.add_zero]
  have e2 : (X.p * (L - 1 - k) + j) % X.p = j := by rw [Nat.mul_add_mod, Nat.mod_eq_of_lt hj]
  have e3 : t - L + (L - 1 - k) = t - (k + 1) := by omega
  simp only [e0, e1, e2, e3]

theorem instants_ok {E : Env K} {L : Nat} {X : Panel K} : ∀ {ts : List Nat} {rs},
    instants E L X ts = .ok rs → rs.length = ts.length ∧
      ∀ k (h : k < ts.length), ∃ r, rs[k]? = some r ∧ instant E L X ts[k] = .ok r := by
  intro ts
  induction ts with
  | nil =>
    intro rs h
    simp only [instants, Except.ok.injEq] at h
    subst h
    simp
  | cons t ts ih =>
    intro rs h
    unfold instants at h
    split at h
    · cases h
    · rename_i r hr
      split at h
      · cases h
      · rename_i rs' hrs
        injection h with h
        subst h
        obtain ⟨h1, h2⟩ := ih hrs
        refine ⟨by simp [h1], ?_⟩
        intro k hk
        cases k with
        | zero => exact ⟨r, by simp, by simpa using hr⟩
        | succ k => simpa using h2 k (by simpa using hk)

/-- What a successful fit without prior knowledge sets. -/
theorem fitPlain_ok {E : Env K} {o o' : Obj K} {X : Panel K} (h : fitPlain E o X = .ok o') :
    0 < o.nLags ∧ o'.nLags = o.nLags ∧ o'.pk = o.pk ∧
    ∃ (rs : List (List Nat × (Nat → Nat → K))) (A : Nat → Nat → Nat → Nat → Option K), rs.length = X.T - o.nLags ∧
      (∀ t, o.nLags ≤ t → t < X.T → ∃ r, rs[t - o.nLags]? = some r ∧ instant E o.nLags X t = .ok r ∧
        (∀ i j, A t 0 i j = some (r.2 i j)) ∧
        ∀ l, 0 < l → l ≤ o.nLags → ∀ i j, A t l i j = some (lagged X.p r.2 (mTau E o.nLags X t (l - 1)) i j)) ∧
      (∀ t l i j, ¬ (o.nLags ≤ t ∧ t < X.T) → A t l i j = none) ∧
      o'.adjacency = some A ∧
      o'.residuals = some (fun t s i => if o.nLags ≤ t ∧ t < X.T then some (nT E o.nLags X t i s) else none) ∧
      o'.orders = some (List.replicate o.nLags (List.replicate X.p none) ++ rs.map (fun r => r.1.map some)) := by
  unfold fitPlain at h
  split at h
  · cases h
  rename_i hL
  split at h
  · cases h
  · rename_i rs hrs
    obtain ⟨h1, h2⟩ := instants_ok hrs
    injection h with h
    subst h
    refine ⟨by omega, rfl, rfl, rs, _, by simpa using h1, ?_, ?_, rfl, rfl, rfl⟩
    · intro t ht hT
      obtain ⟨r, hr1, hr2⟩ := h2 (t - o.nLags) (by simp; omega)
      rw [List.getElem_range'] at hr2
      have e : o.nLags + 1 * (t - o.nLags) = t := by omega
      rw [e] at hr2
      have hg : rs.getD (t - o.nLags) ([], fun _ _ => 0) = r := by
        rw [List.getD_eq_getElem?_getD, hr1]; rfl
      refine ⟨r, hr1, hr2, ?_, ?_⟩
      · intro i j
        simp only [ht, hT, and_self, if_true, hg]
      · intro l hl0 hl i j
        have : t - (l - 1) ≠ 0 := by omega
        simp only [ht, hT, and_self, if_true, hg, if_neg (by omega : ¬ l = 0), if_pos hl, if_pos this]
    · intro t l i j hn
      simp only [if_neg hn]

/-! ### Total effects: the expansion matrix -/

theorem expandStep_apply (p L srcT : Nat) (hp : 0 < p) (A : Nat → Nat → Nat → Nat → Option K) (m : Nat → Nat → Option K)
    (ij : Nat × Nat) (r c : Nat) : expandStep p L srcT A m ij r c =
      if (ij.2 ≤ ij.1 ∧ ij.1 - ij.2 ≤ L) ∧ r / p = ij.1 ∧ c / p = ij.2
      then A (r / p + srcT) (r / p - c / p) (r % p) (c % p) else m r c := by
  unfold expandStep
  by_cases h1 : ij.2 ≤ ij.1
  · have h1' : ¬ p * ij.1 < p * ij.2 := not_lt.2 (Nat.mul_le_mul_left p h1)
    simp only [if_neg h1']
    by_cases h2 : L < ij.1 - ij.2
    · simp only [if_pos h2]
      rw [if_neg (by omega)]
    · simp only [if_neg h2]
      have hb : (p * ij.1 ≤ r ∧ r < p * ij.1 + p ∧ p * ij.2 ≤ c ∧ c < p * ij.2 + p) ↔ (r / p = ij.1 ∧ c / p = ij.2) := by
        rw [← Var.block_iff hp, ← Var.block_iff hp]
        tauto
      by_cases hrc : r / p = ij.1 ∧ c / p = ij.2
      · rw [if_pos (hb.2 hrc), if_pos ⟨⟨h1, by omega⟩, hrc⟩]
        obtain ⟨e1, e2⟩ := hrc
        rw [← e1, ← e2]
        have e3 : r - p * (r / p) = r % p := by have := Nat.div_add_mod r p; omega
        have e4 : c - p * (c / p) = c % p := by have := Nat.div_add_mod c p; omega
        rw [e3, e4]
      · rw [if_neg (fun h => hrc (hb.1 h)), if_neg (fun h => hrc h.2)]
  · have h1' : p * ij.1 < p * ij.2 := Nat.mul_lt_mul_of_pos_left (by omega) hp
    simp only [if_pos h1']
    rw [if_neg (fun h => h1 h.1.1)]

theorem foldl_expand (p L srcT : Nat) (hp : 0 < p) (A : Nat → Nat → Nat → Nat → Option K) (r c : Nat) :
    ∀ (l : List (Nat × Nat)) (m : Nat → Nat → Option K),
    (l.foldl (expandStep p L srcT A) m) r c =
      if (r / p, c / p) ∈ l ∧ c / p ≤ r / p ∧ r / p - c / p ≤ L
      then A (r / p + srcT) (r / p - c / p) (r % p) (c % p) else m r c := by
  intro l
  induction l with
  | nil => intro m; simp
  | cons x l ih =>
    intro m
    rw [List.foldl_cons, ih, expandStep_apply p L srcT hp]
    obtain ⟨a, b⟩ := x
    by_cases h : c / p ≤ r / p ∧ r / p - c / p ≤ L
    · by_cases hx : r / p = a ∧ c / p = b
      · obtain ⟨rfl, rfl⟩ := hx
        simp [h]
      · have : ¬ (r / p, c / p) = (a, b) := by simpa using hx
        simp [h, this, hx]
    · have h' : ¬ ((b ≤ a ∧ a - b ≤ L) ∧ r / p = a ∧ c / p = b) := by
        rintro ⟨h1, rfl, rfl⟩; exact h h1
      simp only [h, and_false, if_false, h']

/-- The matrix built by `estimate_total_effect2` and `get_paths` is the window of the longitudinal graph that starts
at `from_t`. -/
theorem expansion_unroll (p L srcT k : Nat) (hp : 0 < p) (A : Nat → Nat → Nat → Nat → Option K) {r c : Nat}
    (hr : r < p * k) (hc : c < p * k) :
    clean (expansion p L srcT k A) r c =
      unrollT p L (fun t l i j => (A t l i j).getD 0) (p * srcT + r) (p * srcT + c) := by
  unfold expansion clean Paths.nan0
  rw [foldl_expand p L srcT hp]
  unfold unrollT
  have h1 : r / p < k := (Nat.div_lt_iff_lt_mul hp).2 (by rw [Nat.mul_comm]; exact hr)
  have h2 : c / p < k := (Nat.div_lt_iff_lt_mul hp).2 (by rw [Nat.mul_comm]; exact hc)
  have hm : (r / p, c / p) ∈ Direct.allPairs k := Direct.mem_allPairs.2 ⟨h1, h2⟩
  rw [Nat.mul_add_div hp, Nat.mul_add_div hp, Nat.mul_add_mod, Nat.mul_add_mod]
  have e : srcT + r / p - (srcT + c / p) = r / p - c / p := by omega
  rw [e, Nat.add_comm srcT (r / p), Nat.add_comm srcT (c / p)]
  by_cases h : c / p ≤ r / p ∧ r / p - c / p ≤ L
  · rw [if_pos ⟨hm, h⟩, if_pos ⟨by omega, h.2⟩]
  · rw [if_neg (fun hh => h hh.2), if_neg (fun hh => h ⟨by omega, hh.2⟩)]
    rfl

theorem unrollT_edge {p L N : Nat} {A : Nat → Nat → Nat → Nat → K} {thr : K} (hthr : 0 ≤ thr) {a b : Nat}
    (h : Edge N (unrollT p L A) thr a b) : a / p ≤ b / p ∧ thr < |A (b / p) (b / p - a / p) (b % p) (a % p)| := by
  have := h.2.2
  unfold unrollT at this
  split at this
  · rename_i hc; exact ⟨hc.1, this⟩
  · rw [abs_zero] at this
    exact absurd this (not_lt.2 hthr)

theorem unrollT_trans {p L N : Nat} {A : Nat → Nat → Nat → Nat → K} {thr : K} (hthr : 0 ≤ thr) {a b : Nat}
    (h : Relation.TransGen (Edge N (unrollT p L A) thr) a b) : a / p ≤ b / p := by
  induction h with
  | single h => exact (unrollT_edge hthr h).1
  | tail _ h ih => exact ih.trans (unrollT_edge hthr h).1

theorem unrollT_acyclic {p L N : Nat} {A : Nat → Nat → Nat → Nat → K} {thr : K} (hthr : 0 ≤ thr) (hp : 0 < p)
    (hE : ∀ t, Acyclic (Edge p (A t 0) 0)) : Acyclic (Edge N (unrollT p L A) thr) := by
  have key : ∀ a b, Relation.TransGen (Edge N (unrollT p L A) thr) a b → a / p = b / p →
      Relation.TransGen (Edge p (A (b / p) 0) 0) (a % p) (b % p) := by
    intro a b h
    induction h with
    | single h =>
      intro he
      have h1 := (unrollT_edge hthr h).2
      rw [he, Nat.sub_self] at h1
      exact .single ⟨Nat.mod_lt _ hp, Nat.mod_lt _ hp, lt_of_le_of_lt hthr h1⟩
    | tail h1 h2 ih =>
      intro he
      have e1 := unrollT_trans hthr h1
      have e2 := unrollT_edge hthr h2
      have e3 := e2.2
      have e4 := e2.1
      rename_i b' c'
      have e5 : b' / p = c' / p := by omega
      rw [e5, Nat.sub_self] at e3
      have := ih (by omega)
      rw [e5] at this
      exact .tail this ⟨Nat.mod_lt _ hp, Nat.mod_lt _ hp, lt_of_le_of_lt hthr e3⟩
  intro i hi
  exact hE _ _ (key i i hi rfl)

/-! ### Shifting a path in time -/

theorem chain_between {p L N : Nat} {A : Nat → Nat → Nat → Nat → K} {thr : K} (hthr : 0 ≤ thr) : ∀ {q : List Nat} {a b : Nat},
    IsPath (Edge N (unrollT p L A) thr) a b q → ∀ x ∈ q, a / p ≤ x / p ∧ x / p ≤ b / p := by
  intro q
  induction q with
  | nil => intro a b _ x hx; simp at hx
  | cons v q ih =>
    rintro a b ⟨h1, h2, h3⟩ x hx
    simp at h1
    subst h1
    cases q with
    | nil =>
      simp at h2 hx
      subst h2 hx
      exact ⟨le_refl _, le_refl _⟩
    | cons w q =>
      rw [List.isChain_cons_cons] at h3
      have hw := ih (a := w) (b := b) ⟨rfl, by simpa using h2, h3.2⟩
      have he := (unrollT_edge hthr h3.1).1
      rcases List.mem_cons.1 hx with rfl | hx
      · exact ⟨le_refl _, he.trans (hw w (by simp)).2⟩
      · exact ⟨he.trans (hw x hx).1, (hw x hx).2⟩

theorem pathWeight_shift {W W' : Nat → Nat → K} {off M : Nat} (h : ∀ v w, v < M → w < M → W w v = W' (off + w) (off + v)) :
    ∀ {q : List Nat}, (∀ x ∈ q, x < M) → pathWeight W q = pathWeight W' (q.map (off + ·)) := by
  intro q
  induction q with
  | nil => intro _; rfl
  | cons a q ih =>
    intro hS
    cases q with
    | nil => rfl
    | cons b q =>
      have h1 := ih (fun x hx => hS x (by simp [hx]))
      simp only [pathWeight, List.tail_cons, List.zipWith_cons_cons, List.prod_cons, List.map_cons] at h1 ⊢
      rw [h1, h a b (hS a (by simp)) (hS b (by simp))]

theorem isPath_shift {W W' : Nat → Nat → K} {off M N : Nat} {thr : K} (hMN : off + M ≤ N)
    (h : ∀ v w, v < M → w < M → W w v = W' (off + w) (off + v)) {a b : Nat} {q : List Nat} (hq : ∀ x ∈ q, x < M) :
    IsPath (Edge M W thr) a b q ↔ IsPath (Edge N W' thr) (off + a) (off + b) (q.map (off + ·)) := by
  have hchain : q.IsChain (Edge M W thr) ↔ (q.map (off + ·)).IsChain (Edge N W' thr) := by
    induction q with
    | nil => simp
    | cons v q ih =>
      cases q with
      | nil => simp
      | cons w q =>
        have hv := hq v (by simp)
        have hw := hq w (by simp)
        rw [List.map_cons, List.map_cons, List.isChain_cons_cons, List.isChain_cons_cons,
          ih (fun x hx => hq x (by simp [hx])), List.map_cons]
        refine and_congr_left fun _ => ?_
        unfold Edge
        rw [h v w hv hw]
        constructor
        · rintro ⟨_, _, h3⟩; exact ⟨by omega, by omega, h3⟩
        · rintro ⟨_, _, h3⟩; exact ⟨hv, hw, h3⟩
  unfold IsPath
  rw [hchain]
  have e1 : q.head? = some a ↔ (q.map (off + ·)).head? = some (off + a) := by
    rw [List.head?_map]; cases q.head? <;> simp
  have e2 : q.getLast? = some b ↔ (q.map (off + ·)).getLast? = some (off + b) := by
    rw [List.getLast?_map]; cases q.getLast? <;> simp
  rw [e1, e2]

/-- Paths in the whole longitudinal graph stay between the two time points, so they are exactly the shifted paths of
the window. -/
theorem isPath_window {p L srcT k T : Nat} (hp : 0 < p) (hT : srcT + k ≤ T) {A : Nat → Nat → Nat → Nat → Option K} {thr : K}
    (hthr : 0 ≤ thr) {src dst : Nat} (hs : src < p) (hd : dst < p) (hk : 0 < k) (q : List Nat) :
    IsPath (Edge (p * T) (unrollT p L (fun t l i j => (A t l i j).getD 0)) thr) (p * srcT + src)
        (p * srcT + (p * (k - 1) + dst)) q ↔
      ∃ q', q = q'.map (p * srcT + ·) ∧ (∀ x ∈ q', x < p * k) ∧
        IsPath (Edge (p * k) (clean (expansion p L srcT k A)) thr) src (p * (k - 1) + dst) q' := by
  have hsh : ∀ v w, v < p * k → w < p * k → clean (expansion p L srcT k A) w v =
      unrollT p L (fun t l i j => (A t l i j).getD 0) (p * srcT + w) (p * srcT + v) :=
    fun v w hv hw => expansion_unroll p L srcT k hp A hw hv
  have hN : p * srcT + p * k ≤ p * T := by rw [← Nat.mul_add]; exact Nat.mul_le_mul_left p hT
  constructor
  · intro h
    have hb := chain_between hthr h
    have e1 : (p * srcT + src) / p = srcT := by rw [Nat.mul_add_div hp, Nat.div_eq_of_lt hs, Nat.add_zero]
    have e2 : (p * srcT + (p * (k - 1) + dst)) / p = srcT + (k - 1) := by
      rw [Nat.mul_add_div hp, Nat.mul_add_div hp, Nat.div_eq_of_lt hd, Nat.add_zero]
    rw [e1, e2] at hb
    have hlow : ∀ x ∈ q, p * srcT ≤ x ∧ x - p * srcT < p * k := by
      intro x hx
      have h1 := (hb x hx).1
      have h2 := (hb x hx).2
      have h3 := Nat.div_add_mod x p
      have h4 := Nat.mod_lt x hp
      have h5 : p * srcT ≤ p * (x / p) := Nat.mul_le_mul_left p h1
      have h6 : p * (x / p) ≤ p * (srcT + (k - 1)) := Nat.mul_le_mul_left p h2
      rw [Nat.mul_add] at h6
      have h7 : p * (k - 1) + p = p * k := by rw [← Nat.mul_succ]; congr 1; omega
      omega
    have hq : q = (q.map (· - p * srcT)).map (p * srcT + ·) := by
      rw [List.map_map]
      conv_lhs => rw [← List.map_id q]
      apply List.map_congr_left
      intro x hx
      simp only [id, Function.comp]
      have := (hlow x hx).1
      omega
    have hlt : ∀ x ∈ q.map (· - p * srcT), x < p * k := by
      intro x hx
      obtain ⟨y, hy, rfl⟩ := List.mem_map.1 hx
      exact (hlow y hy).2
    refine ⟨q.map (· - p * srcT), hq, hlt, ?_⟩
    rw [isPath_shift hN hsh hlt, ← hq]
    exact h
  · rintro ⟨q', rfl, hlt, h⟩
    exact (isPath_shift hN hsh hlt).1 h

theorem expansion_acyclic {p L srcT k : Nat} (hp : 0 < p) {A : Nat → Nat → Nat → Nat → Option K} {thr : K} (hthr : 0 ≤ thr)
    (hE : ∀ t, Acyclic (Edge p (fun i j => (A t 0 i j).getD 0) 0)) :
    Acyclic (Edge (p * k) (clean (expansion p L srcT k A)) thr) := by
  intro i hi
  have : Relation.TransGen (Edge (p * (srcT + k)) (unrollT p L (fun t l i j => (A t l i j).getD 0)) thr)
      (p * srcT + i) (p * srcT + i) := by
    refine Relation.TransGen.lift (p * srcT + ·) ?_ _ _ hi
    rintro a b ⟨h1, h2, h3⟩
    rw [expansion_unroll p L srcT k hp A h2 h1] at h3
    show Edge _ _ _ (p * srcT + a) (p * srcT + b)
    rw [Nat.mul_add]
    refine ⟨?_, ?_, h3⟩ <;> rw [← Nat.mul_add, Nat.mul_add] <;> omega
  exact unrollT_acyclic hthr hp hE _ this

/-- `estimate_total_effect2` succeeds on a graph that is acyclic at every time point. -/
theorem totalEffect2_ok {p L : Nat} {orders : List (List (Option Nat))} {A : Nat → Nat → Nat → Nat → Option K}
    (hE : ∀ t, Acyclic (Edge p (fun i j => (A t 0 i j).getD 0) 0))
    {srcT src dstT dst : Nat} (hs : src < p) (hd : dst < p) (hle : srcT ≤ dstT) (hne : ¬ (srcT = dstT ∧ src = dst))
    (hord : srcT = dstT → some src ∈ orders.getD srcT [] ∧ some dst ∈ orders.getD srcT []) :
    ∃ v, totalEffect2 p L orders A srcT src dstT dst = some (.ok v) := by
  have hp : 0 < p := by omega
  have hsrc : src < p * (dstT - srcT + 1) := by
    have : p * 1 ≤ p * (dstT - srcT + 1) := Nat.mul_le_mul_left p (by omega)
    omega
  have hdst : p * (dstT - srcT) + dst < p * (dstT - srcT + 1) := by rw [Nat.mul_succ]; omega
  have hne' : src ≠ p * (dstT - srcT) + dst := by
    intro h
    rcases Nat.eq_zero_or_pos (dstT - srcT) with h0 | h0
    · rw [h0] at h; exact hne ⟨by omega, by omega⟩
    · have : p * 1 ≤ p * (dstT - srcT) := Nat.mul_le_mul_left p h0
      omega
  unfold totalEffect2
  rw [if_neg (by omega), if_neg, Paths.calcTotalEffect_acyclic (expansion_acyclic hp (le_refl 0) hE) hsrc hdst hne']
  · exact ⟨_, rfl⟩
  · rintro ⟨h1, h2⟩
    have := hord h1.symm
    rw [h1] at h2
    tauto

/-! ### Causal orders -/

theorem before_filter {l : List Nat} {a b : Nat} {q : Nat → Bool} (h : Before l a b) (ha : q a = true) (hb : q b = true) :
    Before (l.filter q) a b := by
  obtain ⟨x, y, z, rfl⟩ := h
  refine ⟨x.filter q, y.filter q, z.filter q, ?_⟩
  simp [List.filter_append, ha, hb]

theorem before_map {l : List Nat} {a b : Nat} (f : Nat → Nat) (h : Before l a b) : Before (l.map f) (f a) (f b) := by
  obtain ⟨x, y, z, rfl⟩ := h
  exact ⟨x.map f, y.map f, z.map f, by simp⟩

theorem orderAt_eq {p T : Nat} {order : List Nat} (ho : IsOrder (T * p) order) {t : Nat} (ht : t < T) (hp : 0 < p) :
    orderAt p order t = (order.filter (fun x => decide (t * p ≤ x ∧ x < (t + 1) * p))).map (fun x => x - t * p) := by
  unfold orderAt
  have hmin : (order.filter (fun x => decide (t * p ≤ x ∧ x < (t + 1) * p))).min? = some (t * p) := by
    rw [List.min?_eq_some_iff]
    constructor
    · rw [List.mem_filter]
      refine ⟨(ho.2 _).2 (Nat.mul_lt_mul_of_pos_right ht hp), ?_⟩
      rw [Nat.succ_mul]
      simp
      exact hp
    · intro b hb
      rw [List.mem_filter] at hb
      have := hb.2
      simp only [decide_eq_true_eq] at this
      exact this.1
  simp only [hmin, Option.getD_some]

theorem orderAt_isOrder {p T : Nat} {order : List Nat} (ho : IsOrder (T * p) order) {t : Nat} (ht : t < T) (hp : 0 < p) :
    IsOrder p (orderAt p order t) := by
  rw [orderAt_eq ho ht hp]
  constructor
  · refine List.Nodup.map_on ?_ (ho.1.filter _)
    intro x hx y hy hxy
    rw [List.mem_filter, decide_eq_true_eq] at hx hy
    omega
  · intro i
    rw [List.mem_map]
    constructor
    · rintro ⟨x, hx, rfl⟩
      rw [List.mem_filter, decide_eq_true_eq, Nat.succ_mul] at hx
      omega
    · intro hi
      refine ⟨t * p + i, ?_, by omega⟩
      rw [List.mem_filter, decide_eq_true_eq, Nat.succ_mul, ho.2]
      refine ⟨?_, by omega, by omega⟩
      have : (t + 1) * p ≤ T * p := Nat.mul_le_mul_right p ht
      rw [Nat.succ_mul] at this
      omega

theorem orderAt_before {p T : Nat} {order : List Nat} (ho : IsOrder (T * p) order) {t i j : Nat} (ht : t < T) (hi : i < p)
    (hj : j < p) (h : Before order (p * t + j) (p * t + i)) : Before (orderAt p order t) j i := by
  rw [orderAt_eq ho ht (by omega)]
  have h1 := before_map (fun x => x - t * p) (before_filter (q := fun x => decide (t * p ≤ x ∧ x < (t + 1) * p)) h
    (by rw [decide_eq_true_eq, Nat.succ_mul, Nat.mul_comm t]; omega)
    (by rw [decide_eq_true_eq, Nat.succ_mul, Nat.mul_comm t]; omega))
  have e1 : p * t + j - t * p = j := by rw [Nat.mul_comm]; omega
  have e2 : p * t + i - t * p = i := by rw [Nat.mul_comm]; omega
  rwa [e1, e2] at h1

/-! ### The loop over the total effects -/

theorem totalEffects_ok {p L : Nat} {orders : List (List (Option Nat))} {A : Nat → Nat → Nat → Nat → Option K} :
    ∀ {ps : List ((Nat × Option Nat) × (Nat × Option Nat))} {m : Nat → Nat → Option K},
    (∀ q ∈ ps, ∃ s d v, q.1.2 = some s ∧ q.2.2 = some d ∧ totalEffect2 p L orders A q.1.1 s q.2.1 d = some (.ok v)) →
    ∃ te, totalEffects p L orders A ps m = some (.ok te) := by
  intro ps
  induction ps with
  | nil => intro m _; exact ⟨m, rfl⟩
  | cons q ps ih =>
    intro m h
    obtain ⟨s, d, v, h1, h2, h3⟩ := h q (by simp)
    obtain ⟨⟨srcT, src⟩, ⟨dstT, dst⟩⟩ := q
    simp only at h1 h2 h3
    subst h1 h2
    unfold totalEffects
    rw [h3]
    exact ih (fun q hq => h q (by simp [hq]))

/-- After the loop the entry of a listed pair is its effect; the sources and destinations must be features. -/
theorem totalEffects_entry {p L : Nat} {orders : List (List (Option Nat))} {A : Nat → Nat → Nat → Nat → Option K} :
    ∀ {ps : List ((Nat × Option Nat) × (Nat × Option Nat))} {m te : Nat → Nat → Option K},
    (∀ q ∈ ps, ∀ s d, q.1.2 = some s → q.2.2 = some d → s < p ∧ d < p) →
    totalEffects p L orders A ps m = some (.ok te) → ∀ {srcT src dstT dst : Nat}, src < p → dst < p →
    (((srcT, some src), (dstT, some dst)) ∈ ps →
      totalEffect2 p L orders A srcT src dstT dst = some (.ok (te (dstT * p + dst) (srcT * p + src)))) ∧
    (((srcT, some src), (dstT, some dst)) ∉ ps →
      te (dstT * p + dst) (srcT * p + src) = m (dstT * p + dst) (srcT * p + src)) := by
  intro ps
  induction ps with
  | nil =>
    intro m te _ h srcT src dstT dst _ _
    simp only [totalEffects, Option.some.injEq, Except.ok.injEq] at h
    subst h
    simp
  | cons q ps ih =>
    intro m te hlt h srcT src dstT dst hs hd
    obtain ⟨⟨srcT', src'⟩, ⟨dstT', dst'⟩⟩ := q
    cases src' with
    | none => simp [totalEffects] at h
    | some src' =>
      cases dst' with
      | none => simp [totalEffects] at h
      | some dst' =>
        unfold totalEffects at h
        split at h
        · cases h
        · cases h
        · rename_i v hv
          obtain ⟨i1, i2⟩ := ih (fun q hq => hlt q (by simp [hq])) h hs hd (srcT := srcT) (dstT := dstT)
          have hlt' := hlt _ (List.mem_cons_self ..) src' dst' rfl rfl
          have hkey : (dstT * p + dst = dstT' * p + dst' ∧ srcT * p + src = srcT' * p + src') →
              dstT = dstT' ∧ dst = dst' ∧ srcT = srcT' ∧ src = src' := by
            rintro ⟨e1, e2⟩
            have hp : 0 < p := by omega
            have d1 : dstT = dstT' := by
              have := congrArg (· / p) e1
              simp only [Nat.mul_comm _ p, Nat.mul_add_div hp, Nat.div_eq_of_lt hd, Nat.div_eq_of_lt hlt'.2] at this
              omega
            have d2 : srcT = srcT' := by
              have := congrArg (· / p) e2
              simp only [Nat.mul_comm _ p, Nat.mul_add_div hp, Nat.div_eq_of_lt hs, Nat.div_eq_of_lt hlt'.1] at this
              omega
            subst d1 d2
            exact ⟨rfl, by omega, rfl, by omega⟩
          by_cases hmem : ((srcT, some src), (dstT, some dst)) ∈ ps
          · exact ⟨fun _ => i1 hmem, fun hn => absurd (List.mem_cons_of_mem _ hmem) hn⟩
          · have h2 := i2 hmem
            constructor
            · intro hc
              rcases List.mem_cons.1 hc with hc | hc
              · injection hc with hc1 hc2
                injection hc1 with a1 a2
                injection hc2 with a3 a4
                injection a2 with a2
                injection a4 with a4
                subst a1 a2 a3 a4
                rw [if_pos ⟨rfl, rfl⟩] at h2
                rw [h2]; exact hv
              · exact absurd hc hmem
            · intro hn
              rw [h2, if_neg]
              intro hk
              obtain ⟨rfl, rfl, rfl, rfl⟩ := hkey hk
              exact hn (List.mem_cons_self ..)

theorem mem_effectPairs {T : Nat} {orders : List (List (Option Nat))} {startT : Nat}
    {srcT dstT : Nat} {src dst : Option Nat} :
    ((srcT, src), (dstT, dst)) ∈ effectPairs T orders startT ↔
      (startT ≤ srcT ∧ srcT < T) ∧ ∃ c, c < (orders.getD srcT []).length ∧ src = (orders.getD srcT []).getD c none ∧
        ((dstT = srcT ∧ dst ∈ (orders.getD srcT []).drop (c + 1)) ∨
          (srcT < dstT ∧ dstT < T ∧ dst ∈ orders.getD dstT [])) := by
  unfold effectPairs
  simp only [List.mem_flatMap, List.mem_range'_1, List.mem_range, List.mem_append, List.mem_map, Prod.mk.injEq]
  constructor
  · rintro ⟨a, ha, c, hc, h⟩
    rcases h with ⟨d, hd, ⟨rfl, rfl⟩, rfl, rfl⟩ | ⟨t, ht, d, hd, ⟨rfl, rfl⟩, rfl, rfl⟩
    · exact ⟨by omega, c, hc, rfl, .inl ⟨rfl, hd⟩⟩
    · exact ⟨by omega, c, hc, rfl, .inr ⟨by omega, by omega, hd⟩⟩
  · rintro ⟨h1, c, hc, rfl, h⟩
    refine ⟨srcT, by omega, c, hc, ?_⟩
    rcases h with ⟨rfl, hd⟩ | ⟨h2, h3, hd⟩
    · exact .inl ⟨dst, hd, ⟨rfl, rfl⟩, rfl, rfl⟩
    · exact .inr ⟨dstT, by omega, dst, hd, ⟨rfl, rfl⟩, rfl, rfl⟩

end Verif.Longitudinal
