import Verif.Props.VarUnits
import Verif.Props.Bootstrap

/-!
# Bootstrap results in other units (C200)

The adjacency matrices of all samples are converted from one set of units to another.  Without a limit `min_causal_effect` the
counts and probabilities stay the same and the effects are converted.
-/
set_option linter.unusedSectionVars false
set_option autoImplicit false
namespace Verif.Paths

variable {K : Type} [Field K] [LinearOrder K] [IsStrictOrderedRing K]

/-- The coefficients (target, source) in other units; NaN stays NaN. -/
def convert (u : Nat → K) (m : Nat → Nat → Option K) : Nat → Nat → Option K :=
  fun i j => (m i j).map (· * (u i / u j))

theorem nan0_map (x : Option K) (k : K) : nan0 (x.map (· * k)) = nan0 x * k := by
  cases x <;> simp [nan0]

theorem nan0_convert (u : Nat → K) (m : Nat → Nat → Option K) (i j : Nat) :
    nan0 (convert u m i j) = nan0 (m i j) * (u i / u j) := nan0_map _ _

theorem zero_lt_abs_mul {k : K} (hk : 0 < k) (x : K) : 0 < |x * k| ↔ 0 < |x| := by
  rw [abs_pos, abs_pos]
  constructor
  · rintro h rfl
    simp at h
  · intro h
    exact mul_ne_zero h hk.ne'

theorem toIndices_convert {u : Nat → K} (hu : ∀ j, 0 < u j) (n : Nat) (m : Nat → Nat → Option K) (i : Nat) :
    toIndices n (convert u m) 0 i = toIndices n m 0 i := by
  unfold toIndices
  refine List.filter_congr fun j _ => ?_
  rw [nan0_convert]
  exact decide_eq_decide.2 (zero_lt_abs_mul (div_pos (hu j) (hu i)) _)

/-- All paths found lead from the source to the target. -/
theorem dfs_ends {n src dst : Nat} : ∀ (f : Nat) (tbl : Nat → List Nat) (st : List (Nat × List Nat)) (acc r : List (List Nat)),
    (∀ x, (st.map Prod.fst).getLast? = some x → x = src) →
    (∀ p ∈ acc, p.head? = some src ∧ p.getLast? = some dst) → dfs n dst f tbl st acc = some (.ok r) →
    ∀ p ∈ r, p.head? = some src ∧ p.getLast? = some dst
  | 0, _, _, _, _, _, _, h => by cases h
  | f + 1, tbl, [], acc, r, _, ha, h => by
    simp only [dfs, Option.some.injEq, Except.ok.injEq] at h
    rw [← h]
    exact ha
  | f + 1, tbl, (cur, rem) :: rest, acc, r, hs, ha, h => by
    have hrest : ∀ x, (rest.map Prod.fst).getLast? = some x → x = src := by
      intro x hx
      refine hs x ?_
      cases rest with
      | nil => simp at hx
      | cons a l => rw [List.map_cons, List.map_cons, List.getLast?_cons_cons]; exact hx
    simp only [dfs] at h
    split at h
    · cases h
    · split at h
      · rename_i hc
        refine dfs_ends f tbl rest _ r hrest ?_ h
        intro p hp
        rw [List.mem_append, List.mem_singleton] at hp
        rcases hp with hp | rfl
        · exact ha p hp
        · constructor
          · rw [List.head?_reverse]
            obtain ⟨x, hx⟩ : ∃ x, (((cur, rem) :: rest).map Prod.fst).getLast? = some x := by
              cases h : (((cur, rem) :: rest).map Prod.fst).getLast? with
              | none => simp at h
              | some x => exact ⟨x, rfl⟩
            rw [hx, hs x hx]
          · rw [List.getLast?_reverse]
            simp [hc]
      · cases rem with
        | nil => exact dfs_ends f tbl rest acc r hrest ha h
        | cons nx rem' =>
          refine dfs_ends f _ _ acc r ?_ ha h
          intro x hx
          refine hs x ?_
          simpa using hx

theorem searchPaths_convert {u : Nat → K} (hu : ∀ j, 0 < u j) (n : Nat) (m : Nat → Nat → Option K) (src dst : Nat) :
    searchPaths n (convert u m) src dst 0 = searchPaths n m src dst 0 := by
  unfold searchPaths
  have : toIndices n (convert u m) 0 = toIndices n m 0 := funext fun i => toIndices_convert hu n m i
  rw [this]

theorem coefs_convert_nil (u : Nat → K) (m : Nat → Nat → Option K) : ∀ p : List Nat, coefs (convert u m) p = [] ↔ coefs m p = []
  | [] => by simp [coefs]
  | [_] => by simp [coefs]
  | _ :: _ :: _ => by simp [coefs]

theorem prodNan_convert {u : Nat → K} (hu : ∀ j, 0 < u j) (m : Nat → Nat → Option K) : ∀ (a : Nat) (p : List Nat) (b : Nat),
    (a :: p).getLast? = some b → prodNan (coefs (convert u m) (a :: p)) = (prodNan (coefs m (a :: p))).map (· * (u b / u a))
  | a, [], b, h => by
    simp only [List.getLast?_singleton, Option.some.injEq] at h
    subst h
    simp [coefs, prodNan, div_self (hu a).ne']
  | a, c :: p, b, h => by
    rw [List.getLast?_cons_cons] at h
    have ih := prodNan_convert hu m c p b h
    simp only [coefs, prodNan, ih]
    unfold convert
    cases m c a with
    | none => rfl
    | some x =>
      cases prodNan (coefs m (c :: p)) with
      | none => rfl
      | some y =>
        simp only [Option.map_some, Option.some.injEq]
        have h1 := (hu a).ne'
        have h2 := (hu b).ne'
        have h3 := (hu c).ne'
        field_simp

theorem pathEffect_convert {u : Nat → K} (hu : ∀ j, 0 < u j) (m : Nat → Nat → Option K) {p : List Nat} {a b : Nat}
    (ha : p.head? = some a) (hb : p.getLast? = some b) :
    pathEffect (convert u m) p = (pathEffect m p).map (fun x => x.map (· * (u b / u a))) := by
  unfold pathEffect
  by_cases h : coefs m p = []
  · rw [if_pos ((coefs_convert_nil u m p).2 h), if_pos h]
    rfl
  · rw [if_neg (fun h' => h ((coefs_convert_nil u m p).1 h')), if_neg h]
    cases p with
    | nil => cases ha
    | cons c p =>
      simp only [List.head?_cons, Option.some.injEq] at ha
      subst ha
      rw [prodNan_convert hu m c p b hb]
      rfl

/-- `find_all_paths` without a limit in other units: the same paths or the same exception, and converted effects. -/
theorem findAllPaths_convert {u : Nat → K} (hu : ∀ j, 0 < u j) (n : Nat) (m : Nat → Nat → Option K) (src dst : Nat) :
    findAllPaths n (convert u m) src dst 0 =
      (findAllPaths n m src dst 0).map (fun r => r.map (fun q => (q.1, q.2.map (fun x => x.map (· * (u dst / u src)))))) := by
  unfold findAllPaths
  rw [searchPaths_convert hu]
  cases hs : searchPaths n m src dst 0 with
  | none => rfl
  | some r =>
    cases r with
    | error e => rfl
    | ok ps =>
      have hends := dfs_ends _ _ _ _ ps (fun x hx => by simpa using hx.symm) (fun p hp => by cases hp) hs
      have key : ∀ l : List (List Nat), (∀ p ∈ l, p.head? = some src ∧ p.getLast? = some dst) →
          l.mapM (pathEffect (convert u m)) =
            (l.mapM (pathEffect m)).map (fun es => es.map (fun x => x.map (· * (u dst / u src)))) := by
        intro l hl
        induction l with
        | nil => rfl
        | cons p l ih =>
          rw [List.mapM_cons, List.mapM_cons, pathEffect_convert hu m (hl p (by simp)).1 (hl p (by simp)).2,
            ih fun q hq => hl q (List.mem_cons_of_mem _ hq)]
          cases pathEffect m p with
          | error e => rfl
          | ok x =>
            cases l.mapM (pathEffect m) with
            | error e => rfl
            | ok es => rfl
      simp only
      rw [key ps hends]
      cases ps.mapM (pathEffect m) with
      | error e => rfl
      | ok es => rfl

theorem sumNan_map (k : K) : ∀ l : List (Option K), sumNan (l.map (fun x => x.map (· * k))) = (sumNan l).map (· * k)
  | [] => by simp [sumNan]
  | none :: l => by simp [sumNan]
  | some a :: l => by
    have ih := sumNan_map k l
    simp only [List.map_cons, sumNan, ih, Option.map_some]
    cases sumNan l with
    | none => rfl
    | some b => simp [add_mul]

/-- C200: `calculate_total_effect` in other units. -/
theorem C200_total_effect {u : Nat → K} (hu : ∀ j, 0 < u j) (n : Nat) (m : Nat → Nat → Option K) (src dst : Nat)
    (isCont : Nat → Bool) : calcTotalEffect n (convert u m) src dst isCont =
      (calcTotalEffect n m src dst isCont).map (fun r => r.map (fun v => v.map (· * (u dst / u src)))) := by
  unfold calcTotalEffect
  rw [findAllPaths_convert hu]
  split
  · rfl
  · split
    · rfl
    · cases findAllPaths n m src dst 0 with
      | none => rfl
      | some r =>
        cases r with
        | error e => rfl
        | ok q =>
          simp only [Option.map_some, Except.map]
          split
          · rfl
          · rw [sumNan_map]
            rfl

end Verif.Paths

namespace Verif.Boot
open Verif.Paths (nan0 convert nan0_convert nan0_map zero_lt_abs_mul)

variable {u : Nat → ℚ}

/-- The samples of a bootstrap result with `r` rows in other units; for the time series models column `j` is variable `j % r`. -/
def convertCells (r : Nat) (u : Nat → ℚ) (m : Mat) : Mat := fun i j => (m i j).map (· * (u i / u (j % r)))

theorem sgn_mul {k : ℚ} (hk : 0 < k) (x : ℚ) : sgn (x * k) = sgn x := by
  unfold sgn
  have h1 : 0 < x * k ↔ 0 < x := mul_pos_iff_of_pos_right hk
  have h2 : x * k < 0 ↔ x < 0 := by
    constructor
    · intro h
      by_contra hx
      exact absurd h (not_lt.2 (mul_nonneg (not_lt.1 hx) hk.le))
    · exact fun h => mul_neg_of_neg_of_pos h hk
  simp only [h1, h2]

theorem directionsOf_convert (hu : ∀ j, 0 < u j) (r c : Nat) (split : Bool) (m : Mat) :
    directionsOf r c 0 split (convertCells r u m) = directionsOf r c 0 split m := by
  unfold directionsOf
  refine List.flatMap_congr fun i _ => ?_
  have hf : (List.range c).filter (fun j => decide (0 < |nan0 (convertCells r u m i j)|)) =
      (List.range c).filter (fun j => decide (0 < |nan0 (m i j)|)) := by
    refine List.filter_congr fun j _ => ?_
    unfold convertCells
    rw [nan0_map]
    exact decide_eq_decide.2 (zero_lt_abs_mul (div_pos (hu _) (hu _)) _)
  rw [hf]
  refine List.map_congr_left fun j _ => ?_
  unfold convertCells
  rw [nan0_map, sgn_mul (div_pos (hu _) (hu _))]

theorem dagOf_convert (hu : ∀ j, 0 < u j) (r c : Nat) (split : Bool) (m : Mat) :
    dagOf r c 0 split (convertCells r u m) = dagOf r c 0 split m := by
  unfold dagOf
  refine List.flatMap_congr fun i _ => List.map_congr_left fun j _ => ?_
  unfold convertCells
  rw [nan0_map, sgn_mul (div_pos (hu _) (hu _))]
  simp only [zero_lt_abs_mul (div_pos (hu i) (hu (j % r)))]

/-- C200: without a limit `get_causal_direction_counts` does not depend on the units, with or without signs. -/
theorem C200_direction_counts (hu : ∀ j, 0 < u j) (as : Argsort) (r c : Nat) (ms : List Mat) (k : Option Int) (split : Bool) :
    directionCounts as r c (ms.map (convertCells r u)) k none split = directionCounts as r c ms k none split := by
  unfold directionCounts
  cases hk : checkParams k none with
  | error e => rfl
  | ok q =>
    have hq : q.2 = 0 := by
      unfold checkParams at hk
      cases k with
      | none => simp only [Except.ok.injEq] at hk; rw [← hk]
      | some k =>
        simp only at hk
        split at hk
        · simp only [Except.ok.injEq] at hk; rw [← hk]
        · cases hk
    obtain ⟨k', t⟩ := q
    simp only at hq
    subst hq
    have h1 : ms.map (convertCells r u) = [] ↔ ms = [] := List.map_eq_nil_iff
    have h2 : (ms.map (convertCells r u)).flatMap (directionsOf r c 0 split) = ms.flatMap (directionsOf r c 0 split) := by
      rw [List.flatMap_map]
      exact List.flatMap_congr fun m _ => directionsOf_convert hu r c split m
    show (if ms.map (convertCells r u) = [] then _ else _) = (if ms = [] then _ else _)
    simp only [h1, h2]

/-- C200: without a limit `get_directed_acyclic_graph_counts` does not depend on the units. -/
theorem C200_dag_counts (hu : ∀ j, 0 < u j) (as : Argsort) (r c : Nat) (ms : List Mat) (k : Option Int) (split : Bool) :
    dagCounts as r c (ms.map (convertCells r u)) k none split = dagCounts as r c ms k none split := by
  unfold dagCounts
  cases hk : checkParams k none with
  | error e => rfl
  | ok q =>
    have hq : q.2 = 0 := by
      unfold checkParams at hk
      cases k with
      | none => simp only [Except.ok.injEq] at hk; rw [← hk]
      | some k =>
        simp only at hk
        split at hk
        · simp only [Except.ok.injEq] at hk; rw [← hk]
        · cases hk
    obtain ⟨k', t⟩ := q
    simp only at hq
    subst hq
    have h2 : (ms.map (convertCells r u)).map (dagOf r c 0 split) = ms.map (dagOf r c 0 split) := by
      rw [List.map_map]
      exact List.map_congr_left fun m _ => dagOf_convert hu r c split m
    show Except.ok _ = Except.ok _
    simp only [h2]

/-- C200: without a limit `get_probabilities` does not depend on the units. -/
theorem C200_probabilities (hu : ∀ j, 0 < u j) (r : Nat) (ms : List Mat) :
    probabilities (ms.map (convertCells r u)) none = probabilities ms none := by
  unfold probabilities
  have h1 : ms.map (convertCells r u) = [] ↔ ms = [] := List.map_eq_nil_iff
  have h2 : ∀ (bp : Nat → Nat → ℚ),
      (ms.map (convertCells r u)).foldl (fun (bp : Nat → Nat → ℚ) B => fun i j =>
        bp i j + (if 0 < |nan0 (B i j)| then 1 else 0)) bp =
      ms.foldl (fun (bp : Nat → Nat → ℚ) B => fun i j => bp i j + (if 0 < |nan0 (B i j)| then 1 else 0)) bp := by
    intro bp
    rw [List.foldl_map]
    congr 1
    funext bp B i j
    unfold convertCells
    rw [nan0_map]
    simp only [zero_lt_abs_mul (div_pos (hu i) (hu (j % r)))]
  show (if ms.map (convertCells r u) = [] then _ else _) = (if ms = [] then _ else _)
  simp only [h1, h2, List.length_map]

theorem median_mul {k : ℚ} (hk : 0 < k) (l : List ℚ) : median (l.map (· * k)) = median l * k := by
  unfold median
  have h : (l.map (· * k)).mergeSort (fun a b => decide (a ≤ b)) = (l.mergeSort (fun a b => decide (a ≤ b))).map (· * k) := by
    symm
    apply List.map_mergeSort
    intro a _ b _
    exact decide_eq_decide.2 (mul_le_mul_iff_left₀ hk).symm
  simp only [h, List.length_map]
  have g : ∀ i, ((l.mergeSort (fun a b => decide (a ≤ b))).map (· * k)).getD i 0 =
      (l.mergeSort (fun a b => decide (a ≤ b))).getD i 0 * k := by
    intro i
    simp only [List.getD_eq_getElem?_getD, List.getElem?_map]
    cases (l.mergeSort (fun a b => decide (a ≤ b)))[i]? <;> simp
  rw [g, g]
  ring

theorem exceeds_mul {k : ℚ} (hk : 0 < k) (x : Option ℚ) : exceeds 0 (x.map (· * k)) = exceeds 0 x := by
  cases x with
  | none => rfl
  | some v => exact decide_eq_decide.2 (zero_lt_abs_mul hk v)

/-- C200: without a limit `get_total_causal_effects` lists the same pairs with the same probabilities, in the same order, and
every effect is converted. -/
theorem C200_total_causal_effects (hu : ∀ j, 0 < u j) (as : Argsort) (n : Nat) (ts : List Mat) {e : Effects}
    (he : totalCausalEffects as n ts none = .ok e) : ∃ e', totalCausalEffects as n (ts.map (convert u)) none = .ok e' ∧
      e'.src = e.src ∧ e'.dst = e.dst ∧ e'.probability = e.probability ∧ e'.effect.length = e.effect.length ∧
      ∀ q, q < e.effect.length → e'.effect.getD q 0 = e.effect.getD q 0 * (u (e.dst.getD q 0) / u (e.src.getD q 0)) := by
  set probs : Nat → Nat → ℚ := fun i j => ((ts.map (fun T => if exceeds 0 (T i j) then (1 : ℚ) else 0)).sum) / ts.length with hp
  set dirs := (List.range n).flatMap (fun i => ((List.range n).filter (fun j => decide (0 < |probs i j|))).map
    (fun j => (i, j))) with hd
  set rows := dirs.map (fun d =>
    (d, median ((ts.map (fun T => T d.1 d.2)).filter (exceeds 0) |>.map nan0), probs d.1 d.2)) with hr
  have h0 : totalCausalEffects as n ts none = .ok ⟨(take' rows (as.run (rows.map (fun p => -p.2.2)))).map (fun p => p.1.2),
      (take' rows (as.run (rows.map (fun p => -p.2.2)))).map (fun p => p.1.1),
      (take' rows (as.run (rows.map (fun p => -p.2.2)))).map (fun p => p.2.1),
      (take' rows (as.run (rows.map (fun p => -p.2.2)))).map (fun p => p.2.2)⟩ := rfl
  rw [h0] at he
  injection he with he
  subst he
  have hprobs : (fun i j => (((ts.map (convert u)).map (fun T => if exceeds 0 (T i j) then (1 : ℚ) else 0)).sum) /
      (ts.map (convert u)).length) = probs := by
    funext i j
    rw [hp, List.map_map, List.length_map]
    congr 2
    refine List.map_congr_left fun T _ => ?_
    show (if exceeds 0 ((T i j).map (· * (u i / u j))) = true then (1 : ℚ) else 0) = _
    rw [exceeds_mul (div_pos (hu i) (hu j))]
  set rows' := dirs.map (fun d =>
    (d, median (((ts.map (convert u)).map (fun T => T d.1 d.2)).filter (exceeds 0) |>.map nan0), probs d.1 d.2)) with hr'
  have h0' : totalCausalEffects as n (ts.map (convert u)) none =
      .ok ⟨(take' rows' (as.run (rows'.map (fun p => -p.2.2)))).map (fun p => p.1.2),
      (take' rows' (as.run (rows'.map (fun p => -p.2.2)))).map (fun p => p.1.1),
      (take' rows' (as.run (rows'.map (fun p => -p.2.2)))).map (fun p => p.2.1),
      (take' rows' (as.run (rows'.map (fun p => -p.2.2)))).map (fun p => p.2.2)⟩ := by
    rw [hr', hd, ← hprobs]
    rfl
  have hrows : rows' = rows.map (fun p => (p.1, p.2.1 * (u p.1.1 / u p.1.2), p.2.2)) := by
    rw [hr', hr, List.map_map]
    refine List.map_congr_left fun d _ => ?_
    simp only [Function.comp_apply, Prod.mk.injEq, true_and, and_true]
    rw [← median_mul (div_pos (hu d.1) (hu d.2)), List.map_map]
    congr 1
    have hf : ∀ l : List Mat, (((l.map ((fun T : Mat => T d.1 d.2) ∘ convert u)).filter (exceeds 0)).map nan0) =
        (((l.map (fun T => T d.1 d.2)).filter (exceeds 0)).map nan0).map (· * (u d.1 / u d.2)) := by
      intro l
      induction l with
      | nil => rfl
      | cons T l ih =>
        have hx : exceeds 0 (((fun T : Mat => T d.1 d.2) ∘ convert u) T) = exceeds 0 (T d.1 d.2) :=
          exceeds_mul (div_pos (hu d.1) (hu d.2)) _
        rw [List.map_cons, List.map_cons, List.filter_cons, List.filter_cons, hx]
        split
        · rw [List.map_cons, List.map_cons, List.map_cons, ih]
          congr 1
          exact nan0_map _ _
        · exact ih
    exact hf ts
  have hkey : rows'.map (fun p => -p.2.2) = rows.map (fun p => -p.2.2) := by rw [hrows, List.map_map]; rfl
  have htake : take' rows' (as.run (rows'.map (fun p => -p.2.2))) =
      (take' rows (as.run (rows.map (fun p => -p.2.2)))).map (fun p => (p.1, p.2.1 * (u p.1.1 / u p.1.2), p.2.2)) := by
    rw [hkey, hrows]
    unfold take'
    rw [List.map_filterMap]
    congr 1
    funext i
    rw [List.getElem?_map]
  rw [htake] at h0'
  refine ⟨_, h0', by simp, by simp, by simp, by simp, ?_⟩
  intro q hq
  simp only [List.length_map] at hq
  simp only [List.getD_eq_getElem?_getD, List.getElem?_map]
  rw [List.getElem?_eq_getElem hq]
  simp

theorem medianNan_mul {k : ℚ} (hk : 0 < k) (l : List (Option ℚ)) :
    medianNan (l.map (fun x => x.map (· * k))) = (medianNan l).map (· * k) := by
  unfold medianNan
  have h1 : (l.map (fun x => x.map (· * k))).any (fun x => x.isNone) = l.any (fun x => x.isNone) := by
    rw [List.any_map]
    congr 1
    funext x
    cases x <;> rfl
  rw [h1]
  split
  · rfl
  · rw [Option.map_some, ← median_mul hk, List.map_map, List.map_map]
    congr 2
    refine List.map_congr_left fun x _ => ?_
    exact nan0_map x k

theorem collectPaths_convert (hu : ∀ j, 0 < u j) (n src dst : Nat) : ∀ ms : List Mat,
    collectPaths n src dst 0 (ms.map (convert u)) = (collectPaths n src dst 0 ms).map (fun r => r.map (fun l =>
      l.map (fun q => (q.1, q.2.map (· * (u dst / u src))))))
  | [] => rfl
  | m :: ms => by
    rw [List.map_cons]
    unfold collectPaths
    rw [Paths.findAllPaths_convert hu, collectPaths_convert hu n src dst ms]
    cases Paths.findAllPaths n m src dst 0 with
    | none => rfl
    | some r =>
      cases r with
      | error e => rfl
      | ok q =>
        obtain ⟨ps, es⟩ := q
        cases collectPaths n src dst 0 ms with
        | none => rfl
        | some r =>
          cases r with
          | error e => rfl
          | ok rest =>
            simp only [Option.map_some, Except.map, List.map_append]
            rw [List.zip_map_right]
            rfl

/-- C200: without a limit `get_paths` lists the same paths with the same probabilities, or raises the same exception, and
every effect is converted. -/
theorem C200_paths (hu : ∀ j, 0 < u j) (as : Argsort) (n : Nat) (ms : List Mat) (src dst : Nat) :
    getPaths as n (ms.map (convert u)) src dst none = (getPaths as n ms src dst none).map (fun r => r.map (fun t =>
      ⟨t.path, t.effect.map (fun x => x.map (· * (u dst / u src))), t.probability⟩)) := by
  unfold getPaths
  have hc : checkParams none none = .ok (none, 0) := rfl
  rw [hc]
  simp only [collectPaths_convert hu]
  cases collectPaths n src dst 0 ms with
  | none => rfl
  | some r =>
    cases r with
    | error e => rfl
    | ok all =>
      have h1 : (all.map (fun q => (q.1, q.2.map (· * (u dst / u src))))).map Prod.fst = all.map Prod.fst := by
        rw [List.map_map]; rfl
      simp only [Option.map_some, Except.map, h1, List.length_map, List.map_map]
      congr 3
      refine List.map_congr_left fun p _ => ?_
      simp only [Function.comp_apply]
      rw [← medianNan_mul (div_pos (hu dst) (hu src))]
      congr 1
      rw [List.filter_map, List.map_map, List.map_map]
      rfl

/-- C200: the bootstrap itself: if every fit gives the same order and converted coefficients, all stored matrices and total
effects are converted. -/
theorem C200_bootstrap (hu : ∀ j, 0 < u j) (n : Nat) {fit fit' : Nat → Except Err (List Nat × Mat)}
    (hfit : ∀ s, fit' s = (fit s).map (fun q => (q.1, convert u q.2))) (k : Int) :
    bootstrap n fit' k = (bootstrap n fit k).map (fun r => r.map (fun l => l.map (fun q => (convert u q.1, convert u q.2)))) := by
  have hfill : ∀ (B : Mat) (ps : List (Nat × Nat)) (T : Mat), fillEffects n (convert u B) ps (convert u T) =
      (fillEffects n B ps T).map (fun r => r.map (convert u)) := by
    intro B ps
    induction ps with
    | nil => intro T; rfl
    | cons p ps ih =>
      intro T
      obtain ⟨s, d⟩ := p
      unfold fillEffects
      rw [Paths.C200_total_effect hu]
      cases Paths.calcTotalEffect n B s d with
      | none => rfl
      | some r =>
        cases r with
        | error e => rfl
        | ok v =>
          simp only [Option.map_some]
          refine Eq.trans ?_ (ih _)
          simp only [Except.map]
          congr 1
          funext i j
          unfold convert
          beta_reduce
          by_cases h : i = d ∧ j = s
          · rw [if_pos h, if_pos h, h.1, h.2]
          · rw [if_neg h, if_neg h]
  have hz : (fun _ _ => some 0 : Mat) = convert u (fun _ _ => some 0) := by
    funext i j
    simp [convert]
  have hloop : ∀ (k s : Nat), bootstrapLoop n fit' s k =
      (bootstrapLoop n fit s k).map (fun r => r.map (fun l => l.map (fun q => (convert u q.1, convert u q.2)))) := by
    intro k
    induction k with
    | zero => intro s; rfl
    | succ k ih =>
      intro s
      unfold bootstrapLoop
      rw [hfit s]
      cases fit s with
      | error e => rfl
      | ok q =>
        obtain ⟨order, B⟩ := q
        simp only [Except.map]
        have := hfill B (laterPairs order) (fun _ _ => some 0)
        rw [← hz] at this
        rw [this, ih (s + 1)]
        cases fillEffects n B (laterPairs order) (fun _ _ => some 0) with
        | none => rfl
        | some r =>
          cases r with
          | error e => rfl
          | ok T =>
            simp only [Option.map_some, Except.map]
            cases bootstrapLoop n fit (s + 1) k with
            | none => rfl
            | some r =>
              cases r with
              | error e => rfl
              | ok rest => rfl
  unfold bootstrap
  split
  · exact hloop _ _
  · rfl

/-- C200, why the limit has to be left out: whatever the limit, a single sample with an effect of `j` on `i` counts it in
some units and not in others. -/
theorem C200_limit_has_units {thr : ℚ} (ht : 0 < thr) {m : Mat} {i j : Nat} (hij : i ≠ j) {x : ℚ} (hm : m i j = some x)
    (hx : x ≠ 0) : ∃ u u' : Nat → ℚ, (∀ v, 0 < u v) ∧ (∀ v, 0 < u' v) ∧
      (∃ p, probabilities [convert u m] (some thr) = .ok p ∧ p i j = 1) ∧
      ∃ p, probabilities [convert u' m] (some thr) = .ok p ∧ p i j = 0 := by
  have hx' := abs_pos.2 hx
  have hpr : ∀ w : Nat → ℚ, probabilities [convert w m] (some thr) =
      .ok (fun i j => (0 + (if thr < |nan0 (convert w m i j)| then 1 else 0)) / ((1 : Nat) : ℚ)) := by
    intro w
    unfold probabilities checkParams
    simp only [if_pos ht]
    rfl
  have hval : ∀ w : Nat → ℚ, nan0 (convert w m i j) = x * (w i / w j) := by
    intro w
    rw [nan0_convert, hm]
    rfl
  refine ⟨fun v => if v = i then 2 * thr / |x| else 1, fun v => if v = i then thr / |x| else 1, ?_, ?_, ?_, ?_⟩
  · intro v
    beta_reduce
    split
    · positivity
    · norm_num
  · intro v
    beta_reduce
    split
    · positivity
    · norm_num
  · refine ⟨_, hpr _, ?_⟩
    rw [hval, if_pos rfl, if_neg (Ne.symm hij), div_one, abs_mul, abs_of_pos (show 0 < 2 * thr / |x| by positivity),
      mul_div_cancel₀ _ hx'.ne', if_pos (by linarith)]
    norm_num
  · refine ⟨_, hpr _, ?_⟩
    rw [hval, if_pos rfl, if_neg (Ne.symm hij), div_one, abs_mul, abs_of_pos (show 0 < thr / |x| by positivity),
      mul_div_cancel₀ _ hx'.ne', if_neg (lt_irrefl _)]
    norm_num

/-! ### Concrete results -/

/-- Two samples for three variables: `0 → 1 → 2`, once with the additional `0 → 2`, once with a NaN. -/
def unitSamples : List Mat :=
  [fun i j => if i = 1 ∧ j = 0 then some 2 else if i = 2 ∧ j = 1 then some (-3) else if i = 2 ∧ j = 0 then some 1 else some 0,
   fun i j => if i = 1 ∧ j = 0 then some 1 else if i = 2 ∧ j = 1 then some 4 else if i = 0 ∧ j = 2 then none else some 0]

/-- Variable `v` in a unit that is `v + 2` times smaller. -/
def unitFactor (v : Nat) : ℚ := v + 2

example : (∀ j, 0 < unitFactor j) ∧ unitSamples.map (convert unitFactor) ≠ unitSamples ∧
    (∃ e, Paths.calcTotalEffect 3 (unitSamples.getD 0 (fun _ _ => none)) 0 2 = some (.ok (some e)) ∧ e = -5) ∧
    Paths.calcTotalEffect 3 (convert unitFactor (unitSamples.getD 0 (fun _ _ => none))) 0 2 = some (.ok (some (-10))) := by
  refine ⟨fun j => by unfold unitFactor; positivity, ?_, ⟨-5, by decide +kernel, rfl⟩, by decide +kernel⟩
  intro h
  have := congrFun (congrFun (congrArg (fun l : List Mat => l.getD 0 (fun _ _ => none)) h) 1) 0
  revert this
  decide +kernel

end Verif.Boot

namespace Verif.Var

/-- C200: `estimate_total_effect2` of the time series model in other units. -/
theorem C200_var_total_effect {K : Type} [Field K] [LinearOrder K] [IsStrictOrderedRing K] {n : Nat} (hn : 0 < n) {u : Nat → K}
    (hu : ∀ j, 0 < u j) {Bs Bs' : List (Nat → Nat → K)} (hl : Bs'.length = Bs.length)
    (hB : ∀ k, ConvertedMatrix n u (lagFn Bs k) (lagFn Bs' k)) {src dst : Nat} (hs : src < n) (hd : dst < n) (lag : Nat) :
    totalEffect2 n Bs' src dst lag =
      (totalEffect2 n Bs src dst lag).map (fun r => r.map (fun v => v.map (· * (u dst / u src)))) := by
  have hp : padded n Bs' = Paths.convert (fun i => u (i % n)) (padded n Bs) := by
    funext i j
    unfold padded Paths.convert
    simp only [Option.map_some, Option.some.injEq]
    split
    · rename_i hi
      rw [Nat.mod_eq_of_lt hi]
      exact hB (j / n) i hi (j % n) (Nat.mod_lt _ hn)
    · rw [zero_mul]
  unfold totalEffect2
  rw [hl, hp, Paths.C200_total_effect (fun j => hu _)]
  have h1 : (if lag = 0 then src else src + n * lag) % n = src := by
    split
    · exact Nat.mod_eq_of_lt hs
    · rw [Nat.add_mul_mod_self_left, Nat.mod_eq_of_lt hs]
  simp only [h1, Nat.mod_eq_of_lt hd]

example : ∃ Bs Bs' : List (Nat → Nat → ℚ), Bs ≠ Bs' ∧ Bs'.length = Bs.length ∧
    (∀ k, ConvertedMatrix 2 (fun i => (i : ℚ) + 1) (lagFn Bs k) (lagFn Bs' k)) ∧
    totalEffect2 2 Bs 0 1 1 = some (.ok (some 7)) ∧ totalEffect2 2 Bs' 0 1 1 = some (.ok (some 14)) := by
  refine ⟨[fun i j => if i = 1 ∧ j = 0 then 2 else 0, fun i j => if i = 0 ∧ j = 0 then 3 else if i = 1 ∧ j = 0 then 1 else 0],
    [fun i j => if i = 1 ∧ j = 0 then 4 else 0, fun i j => if i = 0 ∧ j = 0 then 3 else if i = 1 ∧ j = 0 then 2 else 0],
    ?_, rfl, ?_, by decide +kernel, by decide +kernel⟩
  · intro h
    have := congrFun (congrFun (congrArg (fun l : List (Nat → Nat → ℚ) => lagFn l 0) h) 1) 0
    norm_num [lagFn] at this
  · intro k i hi j hj
    match k with
    | 0 => interval_cases i <;> interval_cases j <;> norm_num [lagFn]
    | 1 => interval_cases i <;> interval_cases j <;> norm_num [lagFn]
    | k + 2 => simp [lagFn]

end Verif.Var
