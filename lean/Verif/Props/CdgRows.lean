import Verif.Model.CdgRows
import Verif.Props.Cdg
import Mathlib.Data.List.Nodup
import Mathlib.Data.List.Perm.Subperm
import Mathlib.Algebra.BigOperators.Group.List.Basic
import Mathlib.Algebra.Order.BigOperators.Group.List

/-! # Row labels in the data generator (C210) -/
set_option linter.unusedSectionVars false
set_option autoImplicit false
namespace Verif.Cdg

variable {K : Type} [Field K]

/-- The row labels of the data are pairwise different. -/
def UniqueLabels (N : Nat) (lab : Nat → Nat) : Prop := ∀ r s, r < N → s < N → lab r = lab s → r = s

theorem positions_unique {N : Nat} {lab : Nat → Nat} (h : UniqueLabels N lab) {r : Nat} (hr : r < N) :
    positions N lab (lab r) = [r] := by
  unfold positions
  have : (List.range N).filter (fun s => decide (lab s = lab r)) = (List.range N).filter (fun s => s == r) := by
    refine List.filter_congr ?_
    intro s hs
    have hs' := List.mem_range.1 hs
    by_cases e : s = r
    · simp [e]
    · have : lab s ≠ lab r := fun e' => e (h s r hs' hr e')
      simp [e, this]
  rw [this, List.filter_beq]
  have : (List.range N).count r = 1 := List.count_eq_one_of_mem List.nodup_range (List.mem_range.2 hr)
  rw [this]; rfl

theorem selected_unique {N : Nat} {lab : Nat → Nat} (h : UniqueLabels N lab) : selected N lab = List.range N := by
  unfold selected
  rw [List.flatMap_congr (g := fun r => [r]) (fun r hr => positions_unique h (List.mem_range.1 hr))]
  simp

/-- The number of rows of the data with the label of row `r`. -/
def multiplicity (N : Nat) (lab : Nat → Nat) (r : Nat) : Nat := ((List.range N).filter (fun s => decide (lab s = lab r))).length

theorem selected_count (N : Nat) (lab : Nat → Nat) {s : Nat} (hs : s < N) :
    (selected N lab).count s = multiplicity N lab s := by
  unfold selected multiplicity
  rw [List.count_flatMap]
  have : (List.count s ∘ fun r => positions N lab (lab r)) = fun r => if decide (lab r = lab s) then 1 else 0 := by
    funext r
    simp only [Function.comp_apply, positions]
    by_cases e : lab s = lab r
    · rw [List.count_filter (by simpa using e), List.count_eq_one_of_mem List.nodup_range (List.mem_range.2 hs)]
      simp [e]
    · rw [List.count_eq_zero_of_not_mem (by simp [e])]
      simp [Ne.symm e]
  rw [this, ← List.countP_eq_length_filter]
  induction (List.range N) with
  | nil => rfl
  | cons a l ih =>
    rw [List.map_cons, List.sum_cons, List.countP_cons, ih]
    by_cases e : lab a = lab s <;> simp [e, Nat.add_comm]

theorem selected_length (N : Nat) (lab : Nat → Nat) :
    (selected N lab).length = ((List.range N).map (multiplicity N lab)).sum := by
  unfold selected
  rw [List.length_flatMap]
  rfl

theorem multiplicity_pos {N : Nat} {lab : Nat → Nat} {r : Nat} (hr : r < N) : 1 ≤ multiplicity N lab r := by
  unfold multiplicity
  exact List.length_pos_of_mem (List.mem_filter.2 ⟨List.mem_range.2 hr, by simp⟩)

theorem multiplicity_two {N : Nat} {lab : Nat → Nat} {r s : Nat} (hr : r < N) (hs : s < N) (hne : r ≠ s)
    (e : lab r = lab s) : 2 ≤ multiplicity N lab r := by
  unfold multiplicity
  have hnd : ((List.range N).filter (fun t => decide (lab t = lab r))).Nodup := List.nodup_range.filter _
  have : [r, s].Subperm ((List.range N).filter (fun t => decide (lab t = lab r))) := by
    refine List.subperm_of_subset (by simp [hne]) ?_
    intro t ht
    rcases List.mem_cons.1 ht with rfl | ht
    · exact List.mem_filter.2 ⟨List.mem_range.2 hr, by simp⟩
    · rw [List.mem_singleton] at ht
      subst ht
      exact List.mem_filter.2 ⟨List.mem_range.2 hs, by simp [e]⟩
  exact this.length_le

theorem sum_ge_length {l : List Nat} {f : Nat → Nat} (h : ∀ r ∈ l, 1 ≤ f r) : l.length ≤ (l.map f).sum := by
  induction l with
  | nil => simp
  | cons a l ih =>
    have := ih (fun r hr => h r (List.mem_cons_of_mem _ hr))
    have := h a List.mem_cons_self
    simp only [List.map_cons, List.sum_cons, List.length_cons]
    omega

theorem sum_gt_length {l : List Nat} {f : Nat → Nat} (h : ∀ r ∈ l, 1 ≤ f r) {a : Nat} (ha : a ∈ l) (h2 : 2 ≤ f a) :
    l.length < (l.map f).sum := by
  induction l with
  | nil => cases ha
  | cons b l ih =>
    have hl := sum_ge_length (fun r hr => h r (List.mem_cons_of_mem b hr))
    have hb := h b List.mem_cons_self
    simp only [List.map_cons, List.sum_cons, List.length_cons]
    rcases List.mem_cons.1 ha with rfl | ha
    · omega
    · have := ih (fun r hr => h r (List.mem_cons_of_mem _ hr)) ha
      omega

/-- The column that an intervention is meant to give, by position. -/
def Values.byPosition : Values K → Col K
  | .array c => c
  | .series _ c => c

/-- An intervention that pandas takes by position: an array, or a `Series` with the labels of the data. -/
def Values.SameLabels (N : Nat) (lab : Nat → Nat) : Values K → Prop
  | .array _ => True
  | .series lab' _ => ∀ r, r < N → lab' r = lab r

theorem align_same {N : Nat} {lab : Nat → Nat} {v : Values K} (h : v.SameLabels N lab) : align N lab v = .ok v.byPosition := by
  cases v with
  | array c => rfl
  | series lab' c =>
    have : ∀ r ∈ List.range N, lab' r = lab r := fun r hr => h r (List.mem_range.1 hr)
    simp only [align]
    rw [if_pos this]
    rfl

theorem alignAll_same {N : Nat} {lab : Nat → Nat} : ∀ {d : List (Nat × Values K)}, (∀ e ∈ d, e.2.SameLabels N lab) →
    alignAll N lab d = .ok (d.map (fun e => (e.1, e.2.byPosition)))
  | [], _ => rfl
  | e :: d, h => by
    have ih := alignAll_same (d := d) (fun e' he' => h e' (List.mem_cons_of_mem _ he'))
    unfold alignAll at ih ⊢
    rw [List.mapM_cons, ih, align_same (h e List.mem_cons_self)]
    rfl

theorem look_filter {A : Type} (d : List (Nat × A)) (p : Nat → Bool) (v : Nat) (hv : p v = true) :
    look (d.filter (fun e => p e.1)) v = look d v := by
  unfold look
  rw [List.find?_filter]
  congr 1
  refine congrFun (congrArg _ ?_) _
  funext e
  by_cases h : e.1 = v
  · simp [h, hv]
  · simp [h]

theorem generate_filter (f : Fitted K) (endog exog : List (Nat × Col K)) (umC umE : Option (UserModel K))
    (h : ∀ e ∈ endog ++ exog, e.1 ∈ f.names) :
    generate f (endog.filter (fun e => e.1 == f.cause || e.1 == f.effect)) exog umC umE = generate f endog exog umC umE := by
  have hC : look (endog.filter (fun e => e.1 == f.cause || e.1 == f.effect)) f.cause = look endog f.cause :=
    look_filter endog (fun v => v == f.cause || v == f.effect) f.cause (by simp)
  have hE : look (endog.filter (fun e => e.1 == f.cause || e.1 == f.effect)) f.effect = look endog f.effect :=
    look_filter endog (fun v => v == f.cause || v == f.effect) f.effect (by simp)
  have h1 : ¬ ∃ e ∈ endog ++ exog, e.1 ∉ f.names := by
    rintro ⟨e, he, hn⟩
    exact hn (h e he)
  have h2 : ¬ ∃ e ∈ endog.filter (fun e => e.1 == f.cause || e.1 == f.effect) ++ exog, e.1 ∉ f.names := by
    rintro ⟨e, he, hn⟩
    refine hn (h e ?_)
    rcases List.mem_append.1 he with he | he
    · exact List.mem_append_left _ (List.mem_filter.1 he).1
    · exact List.mem_append_right _ he
  unfold generate
  rw [if_neg h1, if_neg h2]
  simp only [genCause, genEffect, hC, hE]

/-- C210, partial: if the rows have different labels and the interventions are arrays (or carry the labels of the data), `generate`
returns one row per row of the training data, in the same order and with the same labels, holding the values that the models give
when every intervention is used by position; otherwise the same exception.  Missing: repeated labels (`C210_repeated_violated`) and
`Series` with other labels (`C210_series_violated`). -/
theorem C210_rows_partial {N : Nat} {lab : Nat → Nat} (hu : UniqueLabels N lab) (f : Fitted K) (endog exog : List (Nat × Values K))
    (umC umE : Option (UserModel K)) (hn : ∀ e ∈ endog ++ exog, e.1 ∈ f.names) (hs : ∀ e ∈ endog ++ exog, e.2.SameLabels N lab) :
    generateRows N lab f endog exog umC umE =
      (generate f (endog.map (fun e => (e.1, e.2.byPosition))) (exog.map (fun e => (e.1, e.2.byPosition))) umC umE).map
        (fun g => (List.range N).map (fun r => (lab r, fun v => g v r))) := by
  have h1 : ¬ ∃ v ∈ (endog ++ exog).map Prod.fst, v ∉ f.names := by
    rintro ⟨v, hv, hnv⟩
    obtain ⟨e, he, rfl⟩ := List.mem_map.1 hv
    exact hnv (hn e he)
  unfold generateRows
  rw [if_neg h1, alignAll_same (fun e he => hs e (List.mem_append_right _ he)),
    alignAll_same (fun e he => hs e (List.mem_append_left _ (List.mem_filter.1 he).1))]
  simp only
  have hf : (endog.filter (fun e => e.1 == f.cause || e.1 == f.effect)).map (fun e => (e.1, e.2.byPosition)) =
      (endog.map (fun e => (e.1, e.2.byPosition))).filter (fun e => e.1 == f.cause || e.1 == f.effect) := by
    rw [List.filter_map]; rfl
  rw [hf, generate_filter, selected_unique hu]
  · cases generate f (endog.map (fun e => (e.1, e.2.byPosition))) (exog.map (fun e => (e.1, e.2.byPosition))) umC umE <;> rfl
  · intro e he
    rw [← List.map_append] at he
    obtain ⟨e', he', rfl⟩ := List.mem_map.1 he
    exact hn e' he'

/-- C210, what happens with repeated labels: every row is returned as many times as its label occurs in the data. -/
theorem C210_repeated_rows {N : Nat} {lab : Nat → Nat} {f : Fitted K} {endog exog : List (Nat × Values K)}
    {umC umE : Option (UserModel K)} {rows : List (Nat × (Nat → Option K))}
    (h : generateRows N lab f endog exog umC umE = .ok rows) :
    ∃ pos : List Nat, (∃ g : Nat → Col K, rows = pos.map (fun s => (lab s, fun v => g v s))) ∧
      ∀ s, s < N → pos.count s = multiplicity N lab s := by
  unfold generateRows at h
  split at h
  · cases h
  · split at h
    · split at h
      · cases h
      · rename_i g _
        cases h
        exact ⟨selected N lab, ⟨g, rfl⟩, fun s hs => selected_count N lab hs⟩
    · cases h

/-- C210 is violated by every data set in which a label occurs twice: the result has more rows than the data. -/
theorem C210_repeated_violated {N : Nat} {lab : Nat → Nat} {r s : Nat} (hr : r < N) (hs : s < N) (hne : r ≠ s)
    (e : lab r = lab s) {f : Fitted K} {endog exog : List (Nat × Values K)} {umC umE : Option (UserModel K)}
    {rows : List (Nat × (Nat → Option K))} (h : generateRows N lab f endog exog umC umE = .ok rows) : N < rows.length := by
  have hl : rows.length = (selected N lab).length := by
    unfold generateRows at h
    split at h
    · cases h
    · split at h
      · split at h
        · cases h
        · cases h
          simp
      · cases h
  rw [hl, selected_length]
  have := sum_gt_length (f := multiplicity N lab) (l := List.range N) (fun t ht => multiplicity_pos (List.mem_range.1 ht))
    (List.mem_range.2 hr) (multiplicity_two hr hs hne e)
  simpa using this

/-- C210, what happens with a `Series` whose labels differ from those of the data: a value is used in the row with its label, not in
the row at its position. -/
theorem C210_series_by_label {N : Nat} {lab lab' : Nat → Nat} (hu : UniqueLabels N lab') (c : Col K) {r s : Nat} (hs : s < N)
    (e : lab' s = lab r) (hd : ∃ t, t < N ∧ lab' t ≠ lab t) :
    ∃ d, align N lab (.series lab' c) = .ok d ∧ d r = c s := by
  have h1 : ¬ ∀ r ∈ List.range N, lab' r = lab r := by
    obtain ⟨t, ht, hne⟩ := hd
    exact fun h => hne (h t (List.mem_range.2 ht))
  have h2 : ((List.range N).map lab').Nodup := by
    refine List.Nodup.map_on ?_ List.nodup_range
    intro a ha b hb hab
    exact hu a b (List.mem_range.1 ha) (List.mem_range.1 hb) hab
  refine ⟨_, by simp only [align]; rw [if_neg h1, if_pos h2], ?_⟩
  rw [← e, positions_unique hu hs]
  rfl

/-- C210 is violated by a `Series` none of whose labels occurs in the data: the intervention gives NaN in every row. -/
theorem C210_series_violated {N : Nat} {lab lab' : Nat → Nat} (hu : UniqueLabels N lab') (c : Col K) (hN : 0 < N)
    (hd : ∀ r s, r < N → s < N → lab' s ≠ lab r) :
    ∃ d, align N lab (.series lab' c) = .ok d ∧ ∀ r, r < N → d r = none := by
  have h1 : ¬ ∀ r ∈ List.range N, lab' r = lab r := fun h => hd 0 0 hN hN (h 0 (List.mem_range.2 hN))
  have h2 : ((List.range N).map lab').Nodup := by
    refine List.Nodup.map_on ?_ List.nodup_range
    intro a ha b hb hab
    exact hu a b (List.mem_range.1 ha) (List.mem_range.1 hb) hab
  refine ⟨_, by simp only [align]; rw [if_neg h1, if_pos h2], ?_⟩
  intro r hr
  have : positions N lab' (lab r) = [] := by
    unfold positions
    rw [List.filter_eq_nil_iff]
    intro s hs
    simpa using hd r s hr (List.mem_range.1 hs)
  rw [this]
  rfl

/-- C210: a `Series` with repeated labels that are not those of the data is refused. -/
theorem C210_series_repeated {N : Nat} {lab lab' : Nat → Nat} (c : Col K) {a b : Nat} (ha : a < N) (hb : b < N) (hne : a ≠ b)
    (e : lab' a = lab' b) (hd : ∃ t, t < N ∧ lab' t ≠ lab t) :
    align N lab (.series lab' c) = .error .valueError := by
  have h1 : ¬ ∀ r ∈ List.range N, lab' r = lab r := by
    obtain ⟨t, ht, hne⟩ := hd
    exact fun h => hne (h t (List.mem_range.2 ht))
  have h2 : ¬ ((List.range N).map lab').Nodup := by
    intro hnd
    refine hne (List.inj_on_of_nodup_map hnd (List.mem_range.2 ha) (List.mem_range.2 hb) e)
  simp only [align]
  rw [if_neg h1, if_neg h2]

/-- The rows returned for the cause, with labels, for a frame with the given labels and an intervention on the cause. -/
def causeRows (N : Nat) (lab : Nat → Nat) (v : Values ℚ) : Option (List (Nat × Option ℚ)) :=
  (fit sumModel sumModel frame3 0 1 [2]).toOption.bind (fun f =>
    ((generateRows N lab f [(0, v)] [] none none).toOption).map (fun rows => rows.map (fun r => (r.1, r.2 0))))

/-- Different labels and an array: one row each. -/
example : causeRows 3 (fun r => r + 5) (.array (fun r => some (100 + r))) =
    some [(5, some 100), (6, some 101), (7, some 102)] := by decide +kernel

/-- The label 5 occurs twice: five rows for three. -/
example : causeRows 3 (fun r => if r = 2 then 7 else 5) (.array (fun r => some (100 + r))) =
    some [(5, some 100), (5, some 101), (5, some 100), (5, some 101), (7, some 102)] := by decide +kernel

/-- Data with the labels 1, 2, 3 (the first row was dropped) and a `Series` with the default labels 0, 1, 2: shifted by one row, and
NaN at the end. -/
example : causeRows 3 (fun r => r + 1) (.series (fun r => r) (fun r => some (100 + r))) =
    some [(1, some 101), (2, some 102), (3, none)] := by decide +kernel

end Verif.Cdg
