import Verif.Model.CausalEffect
import Verif.Proofs.Order
import Verif.Proofs.TotalEffect
import Mathlib.Algebra.BigOperators.Group.List.Lemmas
import Mathlib.Algebra.Order.BigOperators.Group.List
import Mathlib.Tactic.Linarith
import Mathlib.Tactic.Ring

set_option linter.unusedSectionVars false
set_option autoImplicit false
namespace Verif.Effect

variable {K : Type} [Field K] [LinearOrder K] [IsStrictOrderedRing K]

/-! ### Sums -/

theorem dot_eq (n : Nat) (f g : Nat → K) : dot n f g = ∑ j ∈ Finset.range n, f j * g j := by
  unfold dot
  induction n with
  | zero => simp
  | succ n ih => rw [List.range_succ, List.map_append, List.sum_append, ih, Finset.sum_range_succ]; simp

theorem sum_filter {n : Nat} {f : Nat → K} {q : Nat → Bool} (h : ∀ i, i < n → q i = false → f i = 0) :
    (((List.range n).filter q).map f).sum = ∑ i ∈ Finset.range n, f i := by
  rw [Paths.sum_filter_range h, Finset.sum_range]

theorem eps_pos : (0 : K) < eps := by unfold eps; positivity

theorem rowAbs_ge {B : Nat → Nat → K} {orig : List Nat} {a b : Nat} (hb : b ∈ orig) : |B a b| ≤ rowAbs B orig a := by
  unfold rowAbs
  exact List.single_le_sum (by intro x hx; obtain ⟨_, _, rfl⟩ := List.mem_map.1 hx; exact abs_nonneg _) _
    (List.mem_map.2 ⟨b, hb, rfl⟩)

/-! ### The order -/

/-- Every placed variable had a small row sum over itself and the variables not placed before it. -/
theorem orderLoop_some {n : Nat} {B : Nat → Nat → K} : ∀ (k : Nat) (orig acc order : List Nat), orig.length = k →
    (acc ++ orig).Perm (List.range n) →
    (∀ p a s, acc = p ++ a :: s → rowAbs B ((a :: s) ++ orig) a < eps) → orderLoop B k orig acc = some order →
    order.Perm (List.range n) ∧ ∀ p a s, order = p ++ a :: s → rowAbs B (a :: s) a < eps
  | 0, orig, acc, order, hl, hp, hr, h => by
    simp only [orderLoop, Option.some.injEq] at h
    subst h
    have : orig = [] := List.length_eq_zero_iff.1 hl
    subst this
    simp only [List.append_nil] at hp hr
    exact ⟨hp, hr⟩
  | k + 1, orig, acc, order, hl, hp, hr, h => by
    unfold orderLoop at h
    split at h
    · cases h
    · rename_i a hfind
      have ha : a ∈ orig := List.mem_of_find?_eq_some hfind
      have hlt : rowAbs B orig a < eps := by simpa using List.find?_some hfind
      have hper : (a :: orig.erase a).Perm orig := (List.perm_cons_erase ha).symm
      refine orderLoop_some k _ _ _ (by rw [List.length_erase_of_mem ha, hl]; rfl) ?_ ?_ h
      · refine List.Perm.trans ?_ hp
        rw [List.append_assoc]
        exact List.Perm.append_left acc hper
      · intro p x s hx
        have hrow : ∀ {l l' : List Nat}, l.Perm l' → rowAbs B l x = rowAbs B l' x := by
          intro l l' hll; unfold rowAbs; exact (hll.map _).sum_eq
        rcases List.eq_nil_or_concat s with rfl | ⟨s', z, rfl⟩
        · have he : acc ++ [a] = p ++ [x] := by simpa using hx
          obtain ⟨_, e2⟩ := List.append_inj' he rfl
          simp only [List.cons.injEq, and_true] at e2
          subst e2
          rw [show ([a] ++ orig.erase a) = a :: orig.erase a from rfl, hrow hper]
          exact hlt
        · have he : acc ++ [a] = (p ++ x :: s') ++ [z] := by simpa using hx
          obtain ⟨e1, e2⟩ := List.append_inj' he rfl
          simp only [List.cons.injEq, and_true] at e2
          subst e2
          have := hr p x s' e1
          rw [hrow (l' := (x :: s') ++ orig)]
          · exact this
          · simp only [List.cons_append, List.append_assoc, List.concat_eq_append]
            exact List.Perm.cons x (List.Perm.append_left s' hper)

/-- The loop fails only at a set of variables each of which has a row sum of at least the tolerance. -/
theorem orderLoop_none {B : Nat → Nat → K} : ∀ (k : Nat) (orig acc : List Nat), orig.length = k →
    orderLoop B k orig acc = none → ∃ T : List Nat, T ≠ [] ∧ T ⊆ orig ∧ ∀ a ∈ T, eps ≤ rowAbs B T a
  | 0, orig, acc, hl, h => by simp [orderLoop] at h
  | k + 1, orig, acc, hl, h => by
    unfold orderLoop at h
    split at h
    · rename_i hfind
      refine ⟨orig, ?_, fun _ h => h, ?_⟩
      · rintro rfl; simp at hl
      · intro a ha
        have := List.find?_eq_none.1 hfind a ha
        simpa using this
    · rename_i a hfind
      have ha : a ∈ orig := List.mem_of_find?_eq_some hfind
      obtain ⟨T, h1, h2, h3⟩ := orderLoop_none k _ _ (by rw [List.length_erase_of_mem ha, hl]; rfl) h
      exact ⟨T, h1, fun x hx => List.mem_of_mem_erase (h2 hx), h3⟩

/-! ### Propagation -/

/-- `order` is an order along which all nonzero coefficients point forward. -/
def Consistent (n : Nat) (B : Nat → Nat → K) (order : List Nat) : Prop :=
  IsOrder n order ∧ ∀ i j, i < n → j < n → B i j ≠ 0 → Before order j i

/-- The structural equations under the intervention `do(x_idx = v)`. -/
def Solves (n : Nat) (B : Nat → Nat → K) (En : Nat → K) (idx : Nat) (v : K) (e : Nat → K) : Prop :=
  e idx = v ∧ ∀ i, i < n → i ≠ idx → e i = ∑ j ∈ Finset.range n, B i j * e j + En i

theorem propagate_prefix {n : Nat} {B : Nat → Nat → K} {order : List Nat} (hc : Consistent n B order) (En : Nat → K)
    (idx : Nat) (v : K) : ∀ (done rest : List Nat) (eff : Nat → K), order = done ++ rest →
    (∀ i ∈ done, if i = idx then eff i = v else eff i = dot n (B i) eff + En i) →
    ∀ i ∈ order, if i = idx then (rest.foldl (propStep n B En idx v) eff) i = v else
      (rest.foldl (propStep n B En idx v) eff) i = dot n (B i) (rest.foldl (propStep n B En idx v) eff) + En i
  | done, [], eff, ho, h => by
    rw [List.append_nil] at ho
    subst ho
    exact h
  | done, a :: rest, eff, ho, h => by
    rw [List.foldl_cons]
    refine propagate_prefix hc En idx v (done ++ [a]) rest _ (by simp [ho]) ?_
    have hnd : (done ++ a :: rest).Nodup := ho ▸ hc.1.1
    have had : a ∉ done := fun hm => (List.nodup_append.1 hnd).2.2 a hm a (by simp) rfl
    have han : a < n := (hc.1.2 a).1 (by rw [ho]; simp)
    -- coefficients on `a` of variables up to `a` vanish
    have hz : ∀ i ∈ done ++ [a], B i a = 0 := by
      intro i hi
      by_contra hne
      have hin : i < n := (hc.1.2 i).1 (by
        rw [ho]
        rcases List.mem_append.1 hi with hi | hi
        · simp [hi]
        · simp only [List.mem_singleton] at hi; subst hi; simp)
      have hb := hc.2 i a hin han hne
      rcases List.mem_append.1 hi with hi | hi
      · have hb' : Before order i a := by rw [ho]; exact Before.of_mem_append hi (by simp)
        exact Before.irrefl hc.1.1 i (hb'.trans hc.1.1 hb)
      · simp only [List.mem_singleton] at hi
        subst hi
        exact Before.irrefl hc.1.1 i hb
    have hdot : ∀ i ∈ done ++ [a], dot n (B i) (propStep n B En idx v eff a) = dot n (B i) eff := by
      intro i hi
      rw [dot_eq, dot_eq]
      refine Finset.sum_congr rfl fun j _ => ?_
      by_cases hj : j = a
      · subst hj; rw [hz i hi]; ring
      · simp [propStep, hj]
    intro i hi
    rw [hdot i hi]
    rcases List.mem_append.1 hi with hi' | hi'
    · have hne : i ≠ a := fun e => had (e ▸ hi')
      have := h i hi'
      simpa [propStep, hne] using this
    · simp only [List.mem_singleton] at hi'
      subst hi'
      by_cases hx : i = idx <;> simp [propStep, hx]

theorem propagate_solves {n : Nat} {B : Nat → Nat → K} {order : List Nat} (hc : Consistent n B order) (En : Nat → K)
    {idx : Nat} (hidx : idx < n) (v : K) : Solves n B En idx v (propagate n order B En idx v) := by
  have h := propagate_prefix hc En idx v [] order (fun _ => 0) rfl (by simp)
  constructor
  · have := h idx ((hc.1.2 idx).2 hidx)
    rw [if_pos rfl] at this
    exact this
  · intro i hi hne
    have := h i ((hc.1.2 i).2 hi)
    rw [if_neg hne, dot_eq] at this
    exact this

theorem Consistent.acyclic {n : Nat} {B : Nat → Nat → K} {order : List Nat} (h : Consistent n B order) :
    Acyclic (Edge n B 0) := by
  refine acyclic_of_before h.1.1 ?_
  rintro a b ⟨ha, hb, hw⟩
  exact h.2 b a hb ha (abs_pos.1 hw)

/-- The equations have at most one solution on the variables `< n`. -/
theorem solves_unique {n : Nat} {B : Nat → Nat → K} (hE : Acyclic (Edge n B 0)) {En : Nat → K} {idx : Nat} {v : K}
    {e e' : Nat → K} (h : Solves n B En idx v e) (h' : Solves n B En idx v e') : ∀ i, i < n → e i = e' i := by
  by_contra hne
  push Not at hne
  obtain ⟨i0, hi0, hne0⟩ := hne
  have hS : (List.range n).filter (fun i => decide (e i ≠ e' i)) ≠ [] := by
    refine List.ne_nil_of_mem (a := i0) ?_
    simp [hi0, hne0]
  obtain ⟨m, hm, hmin⟩ := exists_minimal hE _ hS
  rw [List.mem_filter, List.mem_range, decide_eq_true_eq] at hm
  obtain ⟨hmn, hme⟩ := hm
  apply hme
  by_cases hx : m = idx
  · subst hx; rw [h.1, h'.1]
  · rw [h.2 m hmn hx, h'.2 m hmn hx]
    congr 1
    refine Finset.sum_congr rfl fun j hj => ?_
    have hjn := Finset.mem_range.1 hj
    by_cases hj' : e j = e' j
    · rw [hj']
    · have := hmin j (by simp [hjn, hj'])
      have hb : B m j = 0 := by
        by_contra hc
        exact this ⟨hjn, hmn, abs_pos.2 hc⟩
      rw [hb]; ring

/-- The equations are affine in the intervention value. -/
theorem Solves.affine {n : Nat} {B : Nat → Nat → K} {En : Nat → K} {idx : Nat} {v w : K} {e t : Nat → K}
    (h : Solves n B En idx v e) (ht : Solves n B (fun _ => 0) idx 1 t) :
    Solves n B En idx (v + w) (fun i => e i + w * t i) := by
  constructor
  · simp only [h.1, ht.1, mul_one]
  · intro i hi hne
    simp only
    rw [h.2 i hi hne, ht.2 i hi hne]
    simp only [mul_add, Finset.sum_add_distrib, add_zero]
    rw [Finset.mul_sum]
    have : ∀ j, B i j * (w * t j) = w * (B i j * t j) := fun j => by ring
    simp only [this]
    ring

/-! ### The optimal intervention -/

/-- Loop invariant of lines 234-246. -/
structure Inv (n : Nat) (B : Nat → Nat → K) (En : Nat → K) (idx : Nat) (st : Opt K) : Prop where
  nodup : st.s.Nodup
  sub : ∀ k ∈ st.s, k < n ∧ k ≠ idx
  ex : st.Ex idx = 0
  al : st.alpha idx = 1
  closed : ∀ k, k < n → k ∉ st.s → k ≠ idx → ∀ q, q < n → B k q ≠ 0 → q ∉ st.s
  eqEx : ∀ k, k < n → k ∉ st.s → k ≠ idx → st.Ex k = ∑ j ∈ Finset.range n, B k j * st.Ex j + En k
  eqAl : ∀ k, k < n → k ∉ st.s → k ≠ idx → st.alpha k = ∑ j ∈ Finset.range n, B k j * st.alpha j

theorem mem_parents {n : Nat} {B : Nat → Nat → K} {k q : Nat} : q ∈ parents n B k ↔ q < n ∧ B k q ≠ 0 := by
  simp [parents, abs_pos]

theorem Inv.step {n : Nat} {B : Nat → Nat → K} {En : Nat → K} {idx : Nat} {st : Opt K} (h : Inv n B En idx st) {k : Nat}
    (hk : k ∈ st.s) : Inv n B En idx (optStep n B En idx st k) := by
  unfold optStep
  split
  · rename_i hp
    have hpar : ∀ q, q < n → B k q ≠ 0 → q ∉ st.s := by
      intro q hq hb hs
      have : q ∈ (parents n B k).filter (fun q => decide (q ∈ st.s)) := by
        rw [List.mem_filter]; exact ⟨mem_parents.2 ⟨hq, hb⟩, by simpa using hs⟩
      rw [hp] at this; simp at this
    obtain ⟨hkn, hki⟩ := h.sub k hk
    have hmem : ∀ x, x ∈ st.s.erase k ↔ x ≠ k ∧ x ∈ st.s := fun x => h.nodup.mem_erase_iff
    -- rows of settled variables (including `k`) do not see the change at `k`
    have hzero : ∀ i, i < n → i ∉ st.s.erase k → i ≠ idx → B i k = 0 := by
      intro i hi hs hne
      by_contra hc
      by_cases hik : i = k
      · subst hik; exact hpar i hkn hc hk
      · have : i ∉ st.s := fun hm => hs ((hmem i).2 ⟨hik, hm⟩)
        exact h.closed i hi this hne k hkn hc hk
    have hsum : ∀ (g : Nat → K) (w : K) (i : Nat), B i k = 0 →
        (∑ j ∈ Finset.range n, B i j * (if j = k then w else g j)) = ∑ j ∈ Finset.range n, B i j * g j := by
      intro g w i hz
      refine Finset.sum_congr rfl fun j _ => ?_
      by_cases hj : j = k
      · subst hj; rw [hz]; ring
      · rw [if_neg hj]
    refine ⟨h.nodup.erase k, fun x hx => h.sub x ((hmem x).1 hx).2, ?_, ?_, ?_, ?_, ?_⟩
    · simp only [if_neg (Ne.symm hki)]; exact h.ex
    · simp only [if_neg (Ne.symm hki)]; exact h.al
    · intro i hi hs hne q hq hb
      rw [hmem]
      rintro ⟨_, hqs⟩
      by_cases hik : i = k
      · subst hik; exact hpar q hq hb hqs
      · exact h.closed i hi (fun hm => hs ((hmem i).2 ⟨hik, hm⟩)) hne q hq hb hqs
    · intro i hi hs hne
      simp only
      rw [hsum _ _ i (hzero i hi hs hne)]
      by_cases hik : i = k
      · subst hik
        rw [if_pos rfl]
        congr 1
        rw [parents, List.filter_filter]
        refine sum_filter ?_
        intro q _ hq
        by_cases hqi : q = idx
        · subst hqi; rw [h.ex]; ring
        · simp only [Bool.and_eq_false_iff, decide_eq_false_iff_not, abs_pos, not_not] at hq
          rcases hq with hq | hq
          · exact absurd hq hqi
          · rw [hq]; ring
      · rw [if_neg hik]
        exact h.eqEx i hi (fun hm => hs ((hmem i).2 ⟨hik, hm⟩)) hne
    · intro i hi hs hne
      simp only
      rw [hsum _ _ i (hzero i hi hs hne)]
      by_cases hik : i = k
      · subst hik
        rw [if_pos rfl, parents]
        refine sum_filter ?_
        intro q _ hq
        simp only [decide_eq_false_iff_not, abs_pos, not_not] at hq
        rw [hq]; ring
      · rw [if_neg hik]
        exact h.eqAl i hi (fun hm => hs ((hmem i).2 ⟨hik, hm⟩)) hne
  · exact h

/-- No row of nonzero coefficients sums to zero. -/
def NoCancel (n : Nat) (B : Nat → Nat → K) (idx : Nat) : Prop :=
  ∀ k, k < n → k ≠ idx → ∑ j ∈ Finset.range n, B k j = 0 → ∀ j, j < n → B k j = 0

theorem listSum_range (n : Nat) (f : Nat → K) : ((List.range n).map f).sum = ∑ j ∈ Finset.range n, f j := by
  induction n with
  | zero => simp
  | succ n ih => rw [List.range_succ, List.map_append, List.sum_append, ih, Finset.sum_range_succ]; simp

theorem mem_init {n : Nat} {B : Nat → Nat → K} {Ex : Nat → K} {idx k : Nat} :
    k ∈ (optInit n B Ex idx).s ↔ k < n ∧ k ≠ idx ∧ ∑ j ∈ Finset.range n, B k j ≠ 0 := by
  simp only [optInit, rootVars, List.mem_filter, List.mem_range, decide_eq_true_eq, listSum_range]
  tauto

theorem Inv.init {n : Nat} {B : Nat → Nat → K} {Ex : Nat → K} {idx : Nat} (hn : NoCancel n B idx) :
    Inv n B (noiseMean n B Ex) idx (optInit n B Ex idx) := by
  have hrow : ∀ k, k < n → k ∉ (optInit n B Ex idx).s → k ≠ idx → ∀ j, j < n → B k j = 0 := by
    intro k hk hs hne
    rw [mem_init] at hs
    exact hn k hk hne (by tauto)
  have hsum : ∀ k, (∀ j, j < n → B k j = 0) → ∀ g : Nat → K, ∑ j ∈ Finset.range n, B k j * g j = 0 := by
    intro k hz g
    refine Finset.sum_eq_zero fun j hj => ?_
    rw [hz j (Finset.mem_range.1 hj)]; ring
  refine ⟨?_, ?_, ?_, ?_, ?_, ?_, ?_⟩
  · exact List.nodup_range.filter _
  · intro k hk; rw [mem_init] at hk; exact ⟨hk.1, hk.2.1⟩
  · simp [optInit]
  · simp [optInit]
  · intro k hk hs hne q hq hb
    exact absurd (hrow k hk hs hne q hq) hb
  · intro k hk hs hne
    have hz := hrow k hk hs hne
    rw [hsum k hz]
    simp only [optInit, if_neg hne, noiseMean, dot_eq, hsum k hz]
    ring
  · intro k hk hs hne
    rw [hsum k (hrow k hk hs hne)]
    simp [optInit, hne]

theorem optRun_inv {n : Nat} {B : Nat → Nat → K} {En : Nat → K} {idx : Nat} : ∀ (ks : List Nat) {st st' : Opt K},
    Inv n B En idx st → optRun n B En idx ks st = some st' → Inv n B En idx st' ∧ st'.s = []
  | [], st, st', h, hr => by
    unfold optRun at hr
    split at hr
    · rename_i hs
      cases hr
      exact ⟨h, hs⟩
    · cases hr
  | k :: ks, st, st', h, hr => by
    unfold optRun at hr
    split at hr
    · rename_i hk
      exact optRun_inv ks (h.step hk) hr
    · cases hr

/-- At the end of the loop: `Ex` solves the equations with the intervention at 0, `alpha` those of the effect. -/
theorem Inv.solves {n : Nat} {B : Nat → Nat → K} {En : Nat → K} {idx : Nat} {st : Opt K} (h : Inv n B En idx st)
    (hs : st.s = []) : Solves n B En idx 0 st.Ex ∧ Solves n B (fun _ => 0) idx 1 st.alpha := by
  refine ⟨⟨h.ex, fun i hi hne => h.eqEx i hi (by rw [hs]; simp) hne⟩, ⟨h.al, fun i hi hne => ?_⟩⟩
  rw [add_zero]
  exact h.eqAl i hi (by rw [hs]; simp) hne

/-! ### Linear prediction -/

theorem linearPred_others (n target : Nat) (coef : Nat → K) (b : K) (e : Nat → K) :
    linearPred coef b (others n target e) = (∑ j ∈ Finset.range n, insertZero coef target j * e j) + b := by
  unfold linearPred others
  congr 1
  have key : ∀ n, (((((List.range n).filter (fun i => decide (i ≠ target))).map e).zipIdx).map
      (fun p => coef p.2 * p.1)).sum = ∑ j ∈ Finset.range n, insertZero coef target j * e j := by
    intro n
    induction n with
    | zero => simp
    | succ n ih =>
      have hlen : ((List.range n).filter (fun i => decide (i ≠ target))).length = if target < n then n - 1 else n := by
        clear ih
        induction n with
        | zero => simp
        | succ n ih =>
          rw [List.range_succ, List.filter_append, List.length_append, ih]
          by_cases h : n = target
          · subst h; simp
          · have hf : (List.filter (fun i => decide (i ≠ target)) [n]) = [n] := by simp [h]
            rw [hf]
            simp only [List.length_singleton]
            split <;> split <;> omega
      rw [List.range_succ, List.filter_append, List.map_append, List.zipIdx_append, List.map_append, List.sum_append, ih,
        Finset.sum_range_succ]
      congr 1
      by_cases h : n = target
      · subst h; simp [insertZero]
      · have hf : (List.filter (fun i => decide (i ≠ target)) [n]) = [n] := by simp [h]
        rw [hf]
        simp only [List.map_cons, List.map_nil, List.length_map, List.zipIdx_cons, List.zipIdx_nil, List.sum_cons,
          List.sum_nil, add_zero, hlen, Nat.zero_add]
        congr 1
        unfold insertZero
        by_cases h1 : target < n
        · rw [if_pos h1, if_neg (by omega), if_neg h]
        · rw [if_neg h1, if_pos (by omega)]
  exact key n

end Verif.Effect
