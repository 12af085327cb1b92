import Verif.Model.Refit
import Verif.Spec.Refit
import Verif.Props.GroupUnits
import Verif.Props.Parce
import Verif.Props.Ica

/-!
# Fitting an object again, and after an exception (C216)

A successful `fit` leaves the same results as on a new object, whatever happened before.  After an exception the order and the
matrix may belong to different data.
-/
set_option linter.unusedSectionVars false
set_option autoImplicit false
namespace Verif.Refit
open Verif.Pairwise (Lin Lars FitErr)
open Verif.GroupData (DataSet)

variable {O M D E : Type}

/-- Both results of a successful call. -/
def stored (r : Option (O × M)) : Obj O M := ⟨r.map Prod.fst, r.map Prod.snd⟩

/-- If each call either replaces both results or raises and changes nothing, the object always reports the last success. -/
theorem history_stored {step : Obj O M → D → Obj O M × Option E} {fresh : D → Option (O × M)} :
    ∀ xs : List D, (∀ x ∈ xs, ∀ s, (step s x).1 = match fresh x with | none => s | some r => stored (some r)) →
      history step { } xs = stored (lastSuccess fresh xs) := by
  intro xs
  refine List.reverseRecOn xs (fun _ => rfl) fun xs x ih h => ?_
  unfold history at ih ⊢
  rw [List.foldl_append]
  simp only [List.foldl_cons, List.foldl_nil]
  rw [h x (by simp), ih fun y hy => h y (by simp [hy])]
  unfold lastSuccess
  rw [List.filterMap_append]
  cases hx : fresh x with
  | none => simp [hx]
  | some r => simp [hx]

/-! ### DirectLiNGAM -/

/-- What `DirectLiNGAM` returns for the data on a new object. -/
noncomputable def freshDirect (cfg : Direct.Config) (size : Nat) (lin : ∀ N, Lin N) (lars : ∀ N, Lars N) (x : Nat × DataSet) :
    Option (List Nat × Sized ℝ) :=
  if cfg.pk.isSome ∧ x.1 ≠ size then none
  else match Pairwise.fitLasso cfg (lin x.2.rows) (lars x.2.rows) x.1 x.2.col with
    | .error _ => none
    | .ok (o, B) => some (o, ⟨x.1, B⟩)

theorem matrix_found {cfg : Direct.Config} (lin : ∀ N, Lin N) (lars : ∀ N, Lars N) {n : Nat} {o : List Nat} (ho : o.length = n) {d : DataSet}
    (h : n < d.rows) : ∃ B, GroupData.matrix cfg lin lars o d = .ok B := by
  obtain ⟨Bs, hB, hl⟩ := GroupData.matrices_found cfg lin lars ho [d] (by simpa using h)
  unfold GroupData.matrices at hB
  cases hm : GroupData.matrix cfg lin lars o d with
  | ok B => exact ⟨B, rfl⟩
  | error e => rw [hm] at hB; cases hB

theorem fitLasso_matrix (cfg : Direct.Config) (lin : ∀ N, Lin N) (lars : ∀ N, Lars N) (n : Nat) (d : DataSet) :
    Pairwise.fitLasso cfg (lin d.rows) (lars d.rows) n d.col = match Pairwise.fitOrder cfg n d.col with
      | .error e => .error (.order e)
      | .ok o => match GroupData.matrix cfg lin lars o d with
        | .error e => .error e
        | .ok B => .ok (o, B) := by
  unfold Pairwise.fitLasso GroupData.matrix
  cases Pairwise.fitOrder cfg n d.col with
  | error e => rfl
  | ok o =>
    simp only
    generalize (List.range' 1 (o.length - 1)).any _ = c
    cases c <;> rfl

/-- **C216, DirectLiNGAM.** Whether `fit` raises does not depend on earlier calls, and after a successful call the object reports
what a new object reports. -/
theorem C216_direct (cfg : Direct.Config) (size : Nat) (lin : ∀ N, Lin N) (lars : ∀ N, Lars N) (s : Obj (List Nat) (Sized ℝ)) (x : Nat × DataSet) :
    ((direct cfg size lin lars s x).2 = none ↔ ∃ r, freshDirect cfg size lin lars x = some r) ∧
    ∀ r, freshDirect cfg size lin lars x = some r → (direct cfg size lin lars s x).1 = stored (some r) := by
  unfold direct freshDirect
  rw [fitLasso_matrix]
  split
  · simp
  · cases Pairwise.fitOrder cfg x.1 x.2.col with
    | error e => simp
    | ok o =>
      simp only
      cases GroupData.matrix cfg lin lars o x.2 with
      | error e => simp
      | ok B => simp [stored]

/-- **C216, DirectLiNGAM, after exceptions.** If all data have more rows than columns, an exception changes nothing: after any series
of calls the object reports order and matrix of the last successful one. -/
theorem C216_direct_partial (cfg : Direct.Config) (size : Nat) (lin : ∀ N, Lin N) (lars : ∀ N, Lars N) {xs : List (Nat × DataSet)}
    (h : ∀ x ∈ xs, x.1 < x.2.rows) :
    history (direct cfg size lin lars) { } xs = stored (lastSuccess (freshDirect cfg size lin lars) xs) := by
  refine history_stored xs fun x hx s => ?_
  cases hf : freshDirect cfg size lin lars x with
  | some r => exact (C216_direct cfg size lin lars s x).2 r hf
  | none =>
    unfold freshDirect at hf
    rw [fitLasso_matrix] at hf
    unfold direct
    split
    · rfl
    · rename_i hs
      rw [if_neg hs] at hf
      cases ho : Pairwise.fitOrder cfg x.1 x.2.col with
      | error e => rfl
      | ok o =>
        obtain ⟨B, hB⟩ := matrix_found (cfg := cfg) lin lars ((Pairwise.fitOrder_perm ho).length_eq.trans List.length_range) (h x hx)
        rw [ho] at hf
        simp only [hB] at hf
        cases hf

/-- **C216 is violated by DirectLiNGAM.** After a fit to three variables, a call with two variables and two rows raises and leaves an
order of two variables with the matrix of three. -/
theorem C216_direct_violated {cfg : Direct.Config} (hpk : cfg.pk = none) (size : Nat) (lin : ∀ N, Lin N) (lars : ∀ N, Lars N)
    (X : Nat → Fin 4 → ℝ) (Y : Nat → Fin 2 → ℝ) :
    (direct cfg size lin lars (history (direct cfg size lin lars) { } [(3, ⟨4, X⟩)]) (2, ⟨2, Y⟩)).2 ≠ none ∧
    ∃ o B, history (direct cfg size lin lars) { } [(3, ⟨4, X⟩), (2, ⟨2, Y⟩)] = ⟨some o, some B⟩ ∧ o.Perm (List.range 2) ∧ B.size = 3 := by
  have found : ∀ (n N : Nat) (hN : N ≠ 0) (X : Nat → Fin N → ℝ), ∃ o, Pairwise.fitOrder cfg n X = .ok o := fun n N hN X => by
    obtain ⟨o, ho⟩ := GroupData.fitOrder_found hpk n (List.replicate 1 ⟨N, X⟩)
    rw [GroupData.C204_copies cfg n one_ne_zero hN] at ho
    exact ⟨o, ho⟩
  obtain ⟨o1, h1⟩ := found 3 4 (by norm_num) X
  obtain ⟨B1, hB1⟩ := matrix_found (cfg := cfg) lin lars (n := 3) (o := o1) ((Pairwise.fitOrder_perm h1).length_eq.trans List.length_range) (d := ⟨4, X⟩)
    (by norm_num)
  obtain ⟨o2, h2⟩ := found 2 2 (by norm_num) Y
  have hp2 := Pairwise.fitOrder_perm h2
  have hm : GroupData.matrix cfg lin lars o2 ⟨2, Y⟩ = .error .tooFewRows := by
    unfold GroupData.matrix
    rw [if_pos]
    have hl : o2.length = 2 := by simpa using hp2.length_eq
    rw [hl, hpk]
    match o2, hl with
    | [a, b], _ => simp [Direct.predictors, List.range']
  have s1 : (direct cfg size lin lars { } (3, ⟨4, X⟩)).1 = ⟨some o1, some ⟨3, B1⟩⟩ := by
    unfold direct
    rw [if_neg (by simp [hpk])]
    simp only [h1, hB1]
  unfold history
  simp only [List.foldl_cons, List.foldl_nil, s1]
  unfold direct
  rw [if_neg (by simp [hpk])]
  simp only [h2, hm]
  exact ⟨by simp, o2, ⟨3, B1⟩, rfl, hp2, rfl⟩

/-! ### MultiGroupDirectLiNGAM -/

theorem groupLoop_eq (cfg : Direct.Config) (lin : ∀ N, Lin N) (lars : ∀ N, Lars N) (n : Nat) (o : List Nat) : ∀ (ds : List DataSet) (acc : List (Sized ℝ)),
    match GroupData.matrices cfg lin lars o ds with
    | .ok Bs => groupLoop cfg lin lars n o acc ds = (acc ++ Bs.map (fun B => ⟨n, B⟩), none)
    | .error _ => (groupLoop cfg lin lars n o acc ds).2 ≠ none
  | [], acc => by simp [GroupData.matrices, groupLoop]
  | d :: ds, acc => by
    unfold GroupData.matrices groupLoop
    cases GroupData.matrix cfg lin lars o d with
    | error e => simp
    | ok B =>
      have ih := groupLoop_eq cfg lin lars n o ds (acc ++ [⟨n, B⟩])
      simp only
      cases hm : GroupData.matrices cfg lin lars o ds with
      | error e => rw [hm] at ih; exact ih
      | ok Bs => rw [hm] at ih; simpa using ih

/-- What `MultiGroupDirectLiNGAM` returns for the data sets on a new object. -/
noncomputable def freshGroup (cfg : Direct.Config) (size : Nat) (lin : ∀ N, Lin N) (lars : ∀ N, Lars N) (x : Nat × List DataSet) :
    Option (List Nat × List (Sized ℝ)) :=
  if cfg.pk.isSome ∧ x.1 ≠ size then none
  else match GroupData.fit cfg lin lars x.1 x.2 with
    | .error _ => none
    | .ok (o, Bs) => some (o, Bs.map (fun B => ⟨x.1, B⟩))

/-- **C216, MultiGroupDirectLiNGAM.** As for `DirectLiNGAM`. -/
theorem C216_group (cfg : Direct.Config) (size : Nat) (lin : ∀ N, Lin N) (lars : ∀ N, Lars N) (s : Obj (List Nat) (List (Sized ℝ)))
    (x : Nat × List DataSet) :
    ((group cfg size lin lars s x).2 = none ↔ ∃ r, freshGroup cfg size lin lars x = some r) ∧
    ∀ r, freshGroup cfg size lin lars x = some r → (group cfg size lin lars s x).1 = stored (some r) := by
  unfold group freshGroup GroupData.fit
  split
  · simp
  · cases GroupData.fitOrder cfg x.1 x.2 with
    | error e => simp
    | ok o =>
      simp only
      have h := groupLoop_eq cfg lin lars x.1 o x.2 []
      cases hm : GroupData.matrices cfg lin lars o x.2 with
      | error e => rw [hm] at h; simpa using h
      | ok Bs =>
        rw [hm] at h
        simp only [List.nil_append] at h
        simp [h, stored]

/-- **C216, MultiGroupDirectLiNGAM, after exceptions.** As for `DirectLiNGAM`. -/
theorem C216_group_partial (cfg : Direct.Config) (size : Nat) (lin : ∀ N, Lin N) (lars : ∀ N, Lars N) {xs : List (Nat × List DataSet)}
    (h : ∀ x ∈ xs, ∀ d ∈ x.2, x.1 < d.rows) :
    history (group cfg size lin lars) { } xs = stored (lastSuccess (freshGroup cfg size lin lars) xs) := by
  refine history_stored xs fun x hx s => ?_
  cases hf : freshGroup cfg size lin lars x with
  | some r => exact (C216_group cfg size lin lars s x).2 r hf
  | none =>
    unfold freshGroup GroupData.fit at hf
    unfold group
    split
    · rfl
    · rename_i hs
      rw [if_neg hs] at hf
      cases ho : GroupData.fitOrder cfg x.1 x.2 with
      | error e => rfl
      | ok o =>
        obtain ⟨Bs, hB, -⟩ := GroupData.matrices_found cfg lin lars ((GroupData.fitOrder_perm ho).length_eq.trans List.length_range) x.2 (h x hx)
        rw [ho] at hf
        simp only [hB] at hf
        cases hf

/-- **C216 is violated by MultiGroupDirectLiNGAM.** A first call with two data sets, the second with as many rows as columns, raises;
the object then reports an order and one matrix. -/
theorem C216_group_violated {cfg : Direct.Config} (hpk : cfg.pk = none) (size : Nat) (lin : ∀ N, Lin N) (lars : ∀ N, Lars N)
    (X : Nat → Fin 4 → ℝ) (Y : Nat → Fin 2 → ℝ) :
    (group cfg size lin lars { } (2, [⟨4, X⟩, ⟨2, Y⟩])).2 ≠ none ∧
    ∃ o B, history (group cfg size lin lars) { } [(2, [⟨4, X⟩, ⟨2, Y⟩])] = ⟨some o, some [B]⟩ := by
  obtain ⟨o, ho⟩ := GroupData.fitOrder_found hpk 2 [⟨4, X⟩, ⟨2, Y⟩]
  have hp := GroupData.fitOrder_perm ho
  obtain ⟨B, hB⟩ := matrix_found (cfg := cfg) lin lars (n := 2) (hp.length_eq.trans List.length_range) (d := ⟨4, X⟩) (by norm_num)
  have hm : GroupData.matrix cfg lin lars o ⟨2, Y⟩ = .error .tooFewRows := by
    unfold GroupData.matrix
    rw [if_pos]
    have hl : o.length = 2 := by simpa using hp.length_eq
    rw [hl, hpk]
    match o, hl with
    | [a, b], _ => simp [Direct.predictors, List.range']
  unfold history
  simp only [List.foldl_cons, List.foldl_nil]
  unfold group
  rw [if_neg (by simp [hpk])]
  simp only [ho]
  unfold groupLoop
  rw [hB]
  simp only
  unfold groupLoop
  rw [hm]
  exact ⟨by simp, o, _, rfl⟩

/-! ### ICALiNGAM -/

/-- What `ICALiNGAM` returns for the data on a new object. -/
def freshIca (as : Boot.Argsort) (asg : Ica.Assign) (W : Nat → DataSet → Ica.Mat) (lasso : DataSet → Direct.Lasso ℚ) (x : Nat × DataSet) :
    Option (List Nat × Sized ℚ) :=
  match Ica.fit as asg (lasso x.2) x.1 (W x.1 x.2) with
  | .error _ => none
  | .ok (o, B) => some (o, ⟨x.1, B⟩)

/-- **C216, ICALiNGAM.** For data with at least two columns and more rows than columns the object reports, after any series of calls,
order and matrix of the last successful one. -/
theorem C216_ica_partial (as : Boot.Argsort) (asg : Ica.Assign) (W : Nat → DataSet → Ica.Mat) (lasso : DataSet → Direct.Lasso ℚ)
    {xs : List (Nat × DataSet)} (h : ∀ x ∈ xs, 2 ≤ x.1 ∧ x.1 < x.2.rows) :
    history (ica as asg W lasso) { } xs = stored (lastSuccess (freshIca as asg W lasso) xs) := by
  refine history_stored xs fun x hx s => ?_
  have hfit := Ica.C24_fit as asg (lasso x.2) (h x hx).1 (W x.1 x.2)
  unfold ica freshIca
  unfold Ica.fit at hfit ⊢
  cases ha : asg.run x.1 (W x.1 x.2) with
  | none => rfl
  | some c =>
    rw [ha] at hfit
    simp only at hfit ⊢
    cases ho : Ica.estimateOrder as x.1 (Ica.bEstimate (Ica.permuteRows x.1 c (W x.1 x.2))) with
    | none => rw [ho] at hfit; simp at hfit
    | some o =>
      rw [ho] at hfit
      simp only at hfit ⊢
      rcases hfit with hfit | ⟨o', B, e, hord, -⟩
      · cases hfit
      · cases e
        have hl : o.length = x.1 := by
          have hp : o.Perm (List.range x.1) := (List.perm_ext_iff_of_nodup hord.1 List.nodup_range).2 fun i => by
            rw [hord.2 i, List.mem_range]
          simpa using hp.length_eq
        rw [if_neg]
        · rfl
        · simp only [List.any_eq_true, List.mem_range'_1, decide_eq_true_eq, not_exists, not_and]
          intro i hi
          have := (h x hx).2
          omega

/-- **C216, ICALiNGAM, when it raises.** For at least two columns `fit` succeeds exactly if there are more rows than columns and an order is found; whether it
does so does not depend on earlier calls, and after a success the object reports what a new object reports. -/
theorem C216_ica (as : Boot.Argsort) (asg : Ica.Assign) (W : Nat → DataSet → Ica.Mat) (lasso : DataSet → Direct.Lasso ℚ) (s : Obj (List Nat) (Sized ℚ))
    {x : Nat × DataSet} (hx : 2 ≤ x.1) :
    ((ica as asg W lasso s x).2 = none ↔ x.1 < x.2.rows ∧ ∃ r, freshIca as asg W lasso x = some r) ∧
    ∀ r, x.1 < x.2.rows → freshIca as asg W lasso x = some r → (ica as asg W lasso s x).1 = stored (some r) := by
  have hfit := Ica.C24_fit as asg (lasso x.2) hx (W x.1 x.2)
  unfold ica freshIca
  unfold Ica.fit at hfit ⊢
  cases ha : asg.run x.1 (W x.1 x.2) with
  | none => simp
  | some c =>
    rw [ha] at hfit
    simp only at hfit ⊢
    cases ho : Ica.estimateOrder as x.1 (Ica.bEstimate (Ica.permuteRows x.1 c (W x.1 x.2))) with
    | none => simp
    | some o =>
      rw [ho] at hfit
      simp only at hfit ⊢
      have hlen : o.length = x.1 := by
        obtain ⟨hnd, hm⟩ : IsOrder x.1 o := by
          rcases hfit with hfit | ⟨o', B, e, hord, -⟩
          · cases hfit
          · cases e
            exact hord
        have hp : o.Perm (List.range x.1) := (List.perm_ext_iff_of_nodup hnd List.nodup_range).2 fun i => by
          rw [hm i, List.mem_range]
        simpa using hp.length_eq
      have hany : (List.range' 1 (o.length - 1)).any (fun i => decide (x.2.rows ≤ i + 1)) = true ↔ ¬ x.1 < x.2.rows := by
        rw [List.any_eq_true]
        constructor
        · rintro ⟨i, hi, h⟩
          rw [List.mem_range'_1] at hi
          have := of_decide_eq_true h
          omega
        · intro h
          exact ⟨x.1 - 1, List.mem_range'_1.2 (by omega), decide_eq_true (by omega)⟩
      by_cases hr : x.1 < x.2.rows
      · rw [if_neg (fun h => hany.1 h hr)]
        simp [stored, hr]
      · rw [if_pos (hany.2 hr)]
        simp [hr]

/-- **C216 is violated by ICALiNGAM.** After a successful fit, a call with a single column raises and leaves no order, but the matrix
of the earlier fit. -/
theorem C216_ica_violated (as : Boot.Argsort) (asg : Ica.Assign) (W : Nat → DataSet → Ica.Mat) (lasso : DataSet → Direct.Lasso ℚ)
    {n : Nat} (hn : 2 ≤ n) {d d' : DataSet} (hd : n < d.rows) (hW : ∀ i, i < n → W n d i i ≠ 0) (hW' : W 1 d' 0 0 ≠ 0) :
    ∃ o B, history (ica as asg W lasso) { } [(n, d)] = ⟨some o, some B⟩ ∧ B.size = n ∧
      (ica as asg W lasso ⟨some o, some B⟩ (1, d')).2 ≠ none ∧ history (ica as asg W lasso) { } [(n, d), (1, d')] = ⟨none, some B⟩ := by
  obtain ⟨c, hc⟩ := asg.feasible 1 (W 1 d') [0] ⟨by simp, by simp⟩ (fun i hi => by
    have : i = 0 := by omega
    subst this
    simpa using hW')
  have h := C216_ica_partial as asg W lasso (xs := [(n, d)]) (by simpa using ⟨hn, hd⟩)
  have hfit : ∃ o B, Ica.fit as asg (lasso d) n (W n d) = .ok (o, B) := by
    rcases Ica.C24_fit as asg (lasso d) hn (W n d) with h | ⟨o, B, h, -⟩
    · obtain ⟨i, hi, h0⟩ := (Ica.C24_infeasible_iff as asg (lasso d) n (W n d)).1 h (List.range n)
        ⟨List.nodup_range, fun i => List.mem_range⟩
      rw [Pairwise.getD_of_lt (by simpa using hi), List.getElem_range] at h0
      exact absurd h0 (hW i hi)
    · exact ⟨o, B, h⟩
  obtain ⟨o, B, hf⟩ := hfit
  have hl : lastSuccess (freshIca as asg W lasso) [(n, d)] = some (o, ⟨n, B⟩) := by
    unfold lastSuccess freshIca
    simp [hf]
  rw [hl] at h
  have h2 : ica as asg W lasso (stored (some (o, ⟨n, B⟩))) (1, d') = (⟨none, some ⟨n, B⟩⟩, some (some .noOrder)) := by
    unfold ica
    simp only [hc, Ica.C24_one_variable]
    rfl
  refine ⟨o, ⟨n, B⟩, h, rfl, ?_, ?_⟩
  · rw [show (⟨some o, some ⟨n, B⟩⟩ : Obj (List Nat) (Sized ℚ)) = stored (some (o, ⟨n, B⟩)) from rfl, h2]
    simp
  · unfold history at h ⊢
    simp only [List.foldl_cons, List.foldl_nil] at h ⊢
    rw [h, h2]

/-! ### BottomUpParceLiNGAM -/

/-- The search and the estimation of `BottomUpParceLiNGAM`; the fuel suffices (`C32_terminates`). -/
def runParce {F K : Type} [Field F] [Field K] [LinearOrder K] (c : Nat → DataSet → Parce.Cfg K) (lasso : DataSet → Direct.Lasso F) (n : Nat)
    (d : DataSet) : Except Parce.Err (Parce.Order × (Nat → Nat → Option F)) :=
  (Parce.fit (c n d) (lasso d) n n).getD (.error .zeroDivision)

/-- **C216, BottomUpParceLiNGAM.** Whether `fit` raises does not depend on earlier calls, and after a successful call the object reports
what a new object reports.  After any exception the matrix is that of the earlier object. -/
theorem C216_parce_partial {F : Type} (pk : Option Direct.PK) (size : Nat)
    (run : Nat → DataSet → Except Parce.Err (Parce.Order × (Nat → Nat → Option F))) (s : Obj Parce.Order (Sized (Option F))) (x : Nat × DataSet) :
    (parce pk size run s x).2 = (parce pk size run { } x).2 ∧
    ((parce pk size run s x).2 = none → (parce pk size run s x).1 = (parce pk size run { } x).1) ∧
    ((parce pk size run s x).2 ≠ none → (parce pk size run s x).1.matrix = s.matrix) := by
  unfold parce
  split
  · simp
  · simp only
    cases run x.1 x.2 with
    | error e => simp
    | ok r =>
      obtain ⟨o, B⟩ := r
      simp only
      cases parceTooFew pk x.2.rows o <;> simp

/-- **C216, BottomUpParceLiNGAM, when it raises.** `fit` succeeds exactly if the prior knowledge has as many columns as the data, the search ends without an
exception, and for every variable that has a place of its own in the order, but not the first place, the number of regressors is zero or
at least two smaller than the number of rows.  The object then reports the order and the matrix found. -/
theorem C216_parce {F : Type} (pk : Option Direct.PK) (size : Nat)
    (run : Nat → DataSet → Except Parce.Err (Parce.Order × (Nat → Nat → Option F))) (s : Obj Parce.Order (Sized (Option F))) (x : Nat × DataSet)
    (o : Parce.Order) (B : Nat → Nat → Option F) :
    parce pk size run s x = (⟨some o, some ⟨x.1, B⟩⟩, none) ↔ (pk.isSome → x.1 = size) ∧ run x.1 x.2 = .ok (o, B) ∧
      ∀ l t r, o.items = l ++ [t] :: r → l ≠ [] → Direct.predictors pk l.flatten t = [] ∨
        (Direct.predictors pk l.flatten t).length + 2 ≤ x.2.rows := by
  have hfew : ∀ o : Parce.Order, parceTooFew pk x.2.rows o = false ↔
      ∀ l t r, o.items = l ++ [t] :: r → l ≠ [] → Direct.predictors pk l.flatten t = [] ∨
        (Direct.predictors pk l.flatten t).length + 2 ≤ x.2.rows := by
    intro o
    unfold parceTooFew
    rw [List.any_eq_false]
    constructor
    · intro h l t r hl hne
      have h1 := List.length_pos_iff.2 hne
      have := h l.length (List.mem_range'_1.2 (by rw [hl]; simp; omega))
      rw [hl] at this
      simp only [List.getElem?_append_right le_rfl, Nat.sub_self, List.getElem?_cons_zero, List.take_left, decide_eq_true_eq, not_and, not_le] at this
      rcases hp : Direct.predictors pk l.flatten t with _ | ⟨a, as⟩
      · exact Or.inl rfl
      · right
        rw [hp] at this
        have := this (by simp)
        omega
    · intro h i hi
      rw [List.mem_range'_1] at hi
      split
      · rename_i t ht
        have hlt : i < o.items.length := by omega
        rw [List.getElem?_eq_getElem hlt, Option.some.injEq] at ht
        have e : o.items = o.items.take i ++ [t] :: o.items.drop (i + 1) := by
          rw [← ht, ← List.drop_eq_getElem_cons hlt, List.take_append_drop]
        have := h _ _ _ e (by
          intro h0
          have := congrArg List.length h0
          rw [List.length_take, List.length_nil] at this
          omega)
        simp only [decide_eq_true_eq, not_and, not_le]
        intro hne
        rcases this with h0 | h0
        · rw [h0] at hne
          simp at hne
        · omega
      · simp
  unfold parce
  simp only
  by_cases hs : pk.isSome ∧ x.1 ≠ size
  · rw [if_pos hs]
    simp only [Prod.mk.injEq, reduceCtorEq, and_false, false_iff, not_and]
    intro h
    exact absurd (h hs.1) hs.2
  · rw [if_neg hs]
    have hs' : pk.isSome → x.1 = size := fun h => by
      by_contra h'
      exact hs ⟨h, h'⟩
    rcases hr : run x.1 x.2 with e | ⟨o', B'⟩
    · simp
    · simp only [Except.ok.injEq, Prod.mk.injEq]
      rw [← hfew o]
      cases hf : parceTooFew pk x.2.rows o'
      · constructor
        · intro h
          simp only [Bool.false_eq_true, if_false, Prod.mk.injEq, Obj.mk.injEq, Option.some.injEq, Sized.mk.injEq, true_and, and_true] at h
          obtain ⟨rfl, rfl⟩ := h
          exact ⟨hs', ⟨rfl, rfl⟩, hf⟩
        · rintro ⟨-, ⟨rfl, rfl⟩, -⟩
          rfl
      · constructor
        · intro h
          simp at h
        · rintro ⟨-, ⟨rfl, rfl⟩, h⟩
          rw [hf] at h
          cases h

/-- **C216 is violated by BottomUpParceLiNGAM.** After a successful fit, a call with a single column raises and leaves no order, but the
matrix of the earlier fit. -/
theorem C216_parce_violated {F : Type} [Field F] (c : Nat → DataSet → Parce.Cfg) (hpk : ∀ n d, (c n d).pk = none) (lasso : DataSet → Direct.Lasso F)
    (size : Nat) {n : Nat} (hn : 2 ≤ n) {d d' : DataSet} (hd : n < d.rows) :
    (∃ o B, parce none size (runParce c lasso) { } (n, d) = (⟨some o, some B⟩, none)) ∧
    (∀ s, (parce none size (runParce c lasso) s (1, d')).2 ≠ none) ∧
    ∃ B, history (parce none size (runParce c lasso)) { } [(n, d), (1, d')] = ⟨none, some B⟩ ∧ B.size = n := by
  obtain ⟨o, B, h⟩ := Parce.C32_no_error (c n d) (hpk n d) (lasso d) n hn
  have h1 : runParce c lasso 1 d' = .error .zeroDivision := by
    unfold runParce
    rw [Parce.C32_one_variable _ (hpk 1 d')]
    rfl
  have h0 : runParce c lasso n d = .ok (o, B) := by
    unfold runParce
    rw [h]
    rfl
  have hord := (Parce.C32_order (by omega) h).1
  have hlen : o.items.flatten.length = n := by
    have hp : o.items.flatten.Perm (List.range n) := (List.perm_ext_iff_of_nodup hord.1 List.nodup_range).2 fun i => by
      rw [hord.2 i, List.mem_range]
    simpa using hp.length_eq
  have hfew : parceTooFew none d.rows o = false := by
    unfold parceTooFew
    rw [List.any_eq_false]
    intro i hi
    rw [List.mem_range'_1] at hi
    split
    · rename_i t ht
      have hle : (Direct.predictors none (o.items.take i).flatten t).length + 1 ≤ n := by
        have e : o.items.flatten = (o.items.take i).flatten ++ (o.items.drop i).flatten := by
          rw [← List.flatten_append, List.take_append_drop]
        have h2 : 1 ≤ (o.items.drop i).flatten.length := by
          refine List.length_pos_of_mem (a := t) (List.mem_flatten.2 ⟨[t], ?_, by simp⟩)
          refine List.mem_of_getElem? (i := 0) ?_
          rw [List.getElem?_drop]
          simpa using ht
        rw [e, List.length_append] at hlen
        have : (Direct.predictors none (o.items.take i).flatten t).length = (o.items.take i).flatten.length := rfl
        omega
      simp only [decide_eq_true_eq, not_and]
      omega
    · simp
  have s1 : parce none size (runParce c lasso) { } (n, d) = (⟨some o, some ⟨n, B⟩⟩, none) := by
    unfold parce
    simp only [h0, hfew]
    simp
  have s2 : ∀ s, parce none size (runParce c lasso) s (1, d') = (⟨none, s.matrix⟩, some (.search .zeroDivision)) := by
    intro s
    unfold parce
    simp only [h1]
    simp
  refine ⟨⟨o, _, s1⟩, fun s => by rw [s2 s]; simp, ⟨n, B⟩, ?_, rfl⟩
  unfold history
  simp only [List.foldl_cons, List.foldl_nil, s1, s2]

/-! ### VARLiNGAM -/

/-- **C216, VARLiNGAM.** After an exception neither order nor matrices are reported and the settings are unchanged; `residuals_` still
are those of the earlier fit. -/
theorem C216_var_partial {K : Type} [Field K] [LinearOrder K] (E : Var.Env K) (o : Var.Obj K) (X : Var.Data K) (h : (var E o X).2 ≠ none) :
    (var E o X).1.causalOrder = none ∧ (var E o X).1.adjacency = none ∧ (var E o X).1.arCoefs = o.arCoefs ∧ (var E o X).1.lags = o.lags ∧
      (var E o X).1.residuals = o.residuals := by
  unfold var at h ⊢
  simp only at h ⊢
  split at h
  · exact ⟨rfl, rfl, rfl, rfl, rfl⟩
  · exact absurd rfl h

/-- After a successful call order, matrices and residuals do not depend on the results stored before. -/
theorem C216_var {K : Type} [Field K] [LinearOrder K] (E : Var.Env K) (o o' : Var.Obj K) (X : Var.Data K) (h1 : o.arCoefs = o'.arCoefs) (h2 : o.lags = o'.lags)
    (h3 : o.useCriterion = o'.useCriterion) (h4 : o.prune = o'.prune) (h : (var E o X).2 = none) : var E o X = var E o' X := by
  obtain ⟨a, l, u, p, r, co, ad⟩ := o
  obtain ⟨a', l', u', p', r', co', ad'⟩ := o'
  simp only at h1 h2 h3 h4
  subst h1 h2 h3 h4
  unfold var Var.fit Var.arPart Var.estimateVar Var.lagMatrices at h ⊢
  simp only at h ⊢
  split at h
  · cases h
  · rfl

/-! ### Examples -/

/-- A data set with one column less than the prior knowledge: `fit` raises, and the object still reports the fit to the first data. -/
example (lin : ∀ N, Lin N) (lars : ∀ N, Lars N) (d : DataSet) (hd : 2 < d.rows) :
    history (direct { pk := some (fun _ _ => -1) } 3 lin lars) { } [(3, ⟨4, Pairwise.lassoData⟩), (2, d)] =
      stored (freshDirect { pk := some (fun _ _ => -1) } 3 lin lars (3, ⟨4, Pairwise.lassoData⟩)) := by
  rw [C216_direct_partial _ _ _ _ (by simpa using hd)]
  have : freshDirect { pk := some (fun _ _ => -1) } 3 lin lars (2, d) = none := by simp [freshDirect]
  unfold lastSuccess
  simp only [List.filterMap_cons, List.filterMap_nil, this]
  cases freshDirect { pk := some (fun _ _ => -1) } 3 lin lars (3, ⟨4, Pairwise.lassoData⟩) <;> rfl

/-- The hypotheses of `C216_ica_violated` hold for two columns whose unmixing matrix is the identity. -/
example (as : Boot.Argsort) (lasso : DataSet → Direct.Lasso ℚ) (d : DataSet) :
    ∃ o B, history (ica as Ica.exAssign (fun _ _ i j => if i = j then 1 else 0) lasso) { } [(2, ⟨3, fun _ _ => 0⟩), (1, d)] = ⟨none, some B⟩ ∧
      history (ica as Ica.exAssign (fun _ _ i j => if i = j then 1 else 0) lasso) { } [(2, ⟨3, fun _ _ => 0⟩)] = ⟨some o, some B⟩ := by
  obtain ⟨o, B, h1, -, -, h2⟩ := C216_ica_violated as Ica.exAssign (fun _ _ i j => if i = j then 1 else 0) lasso (n := 2) (le_refl 2)
    (d := ⟨3, fun _ _ => 0⟩) (d' := d) (by norm_num) (by simp) (by simp)
  exact ⟨o, B, h2, h1⟩

/-- `C216_parce_violated` for the tests of `Parce.exampleCfg`. -/
example (d' : DataSet) : ∃ B, history (parce none 0 (runParce (fun _ _ => Parce.exampleCfg none) (fun _ _ t c => ((t + c : Nat) : ℚ)))) { }
    [(3, ⟨4, fun _ _ => 0⟩), (1, d')] = ⟨none, some B⟩ ∧ B.size = 3 :=
  (C216_parce_violated (fun _ _ => Parce.exampleCfg none) (fun _ _ => rfl) (fun _ _ t c => ((t + c : Nat) : ℚ)) 0 (n := 3) (by norm_num)
    (d := ⟨4, fun _ _ => 0⟩) (d' := d') (by norm_num)).2.2

/-- The hypothesis of `C216_var_partial`: an information criterion that is never a number. -/
example : (var (K := ℚ) ⟨1, fun X _ => ⟨[], 0, X, none⟩, fun _ => ([0], fun _ _ => 0), fun _ _ _ _ => 0⟩
    { arCoefs := none, lags := 1, useCriterion := true, prune := false } ⟨3, fun _ _ => 0⟩).2 ≠ none := by
  simp [var, Var.fit, Var.arPart, Var.estimateVar, Var.better]

/-- The hypotheses of `C216_var`: an object that was fitted before and a new one with the same settings. -/
example (r : Var.Data ℚ) : (var (K := ℚ) ⟨1, fun X _ => ⟨[fun _ _ => 2], 1, X, none⟩, fun _ => ([0], fun _ _ => 0), fun _ _ _ _ => 0⟩
    { arCoefs := none, lags := 1, useCriterion := false, prune := false, residuals := some r, causalOrder := some [0] } ⟨3, fun _ _ => 0⟩) =
    var (K := ℚ) ⟨1, fun X _ => ⟨[fun _ _ => 2], 1, X, none⟩, fun _ => ([0], fun _ _ => 0), fun _ _ _ _ => 0⟩
    { arCoefs := none, lags := 1, useCriterion := false, prune := false } ⟨3, fun _ _ => 0⟩ :=
  C216_var _ _ _ _ rfl rfl rfl rfl (by simp [var, Var.fit, Var.arPart, Var.estimateVar, Var.lagMatrices])

/-- C216, BottomUpParceLiNGAM: an order of two variables is reported for three rows and not for two. -/
example (s : Obj Parce.Order (Sized (Option ℚ))) (X : Nat → Fin 3 → ℝ) (Y : Nat → Fin 2 → ℝ) :
    parce none 0 (fun _ _ => .ok (⟨[], [0, 1]⟩, fun _ _ => some 1)) s (2, ⟨3, X⟩) = (⟨some ⟨[], [0, 1]⟩, some ⟨2, fun _ _ => some 1⟩⟩, none) ∧
    parce none 0 (fun _ _ => .ok (⟨[], [0, 1]⟩, fun _ _ => some 1)) s (2, ⟨2, Y⟩) ≠ (⟨some ⟨[], [0, 1]⟩, some ⟨2, fun _ _ => some 1⟩⟩, none) := by
  constructor
  · refine (C216_parce _ _ _ _ _ _ _).2 ⟨by simp, rfl, fun l t r h hl => Or.inr ?_⟩
    rcases l with _ | ⟨a, _ | ⟨b, l⟩⟩
    · exact absurd rfl hl
    · simp [Parce.Order.items] at h
      obtain ⟨rfl, rfl, rfl⟩ := h
      simp [Direct.predictors]
    · simp [Parce.Order.items] at h
  · intro h
    have := ((C216_parce _ _ _ _ _ _ _).1 h).2.2 [[0]] 1 [] rfl (by simp)
    simp [Direct.predictors] at this

/-- C216, ICALiNGAM: two columns with an unmixing matrix that is the identity; with three rows `fit` succeeds, with two it raises. -/
example (as : Boot.Argsort) (lasso : DataSet → Direct.Lasso ℚ) (s : Obj (List Nat) (Sized ℚ)) (X : Nat → Fin 3 → ℝ) (Y : Nat → Fin 2 → ℝ) :
    (ica as Ica.exAssign (fun _ _ i j => if i = j then 1 else 0) lasso s (2, ⟨2, Y⟩)).2 ≠ none ∧
    ((ica as Ica.exAssign (fun _ _ i j => if i = j then 1 else 0) lasso s (2, ⟨3, X⟩)).2 = none ↔
      ∃ r, freshIca as Ica.exAssign (fun _ _ i j => if i = j then 1 else 0) lasso (2, ⟨3, X⟩) = some r) := by
  constructor
  · intro h
    have := ((C216_ica as _ _ lasso s (le_refl 2)).1.1 h).1
    exact absurd this (by simp)
  · rw [(C216_ica as _ _ lasso s (le_refl 2)).1]
    exact and_iff_right (by simp)

end Verif.Refit
