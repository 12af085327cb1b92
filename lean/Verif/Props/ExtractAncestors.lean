import Verif.Model.ExtractAncestors
import Verif.Props.RcdUnits
import Verif.Props.Rcd

/-!
# `extract_ancestors` (C206)

The function of `lingam/utils` and the search inside `RCD` are two programs; for the same arguments they give the same sets.
-/
set_option autoImplicit false
set_option linter.unusedSectionVars false
namespace Verif.ExtractAnc
open Verif.RcdData (Lib Cfg resid listOf pearsonP residMlhsicr tests)

variable {N : Nat}

/-- The same arguments for `RCD`, with `independence='hsic'`. -/
def Args.rcd (c : Args) (ic : ℝ) : Cfg := ⟨c.corAlpha, c.indAlpha, c.shapiroAlpha, c.mlhsicr, true, ic⟩

theorem commonAncestors_eq (M : Nat → Finset Nat) : ∀ U, commonAncestors M U = Rcd.commonAncestors M U
  | [] => rfl
  | [a] => rfl
  | a :: b :: l => by
    have ih := commonAncestors_eq M (b :: l)
    have key : ∀ (l : List Nat) (s t : Finset Nat), l.foldl (fun s x => s ∩ M x) (s ∩ t) = s ∩ l.foldl (fun s x => s ∩ M x) t := by
      intro l
      induction l with
      | nil => intro s t; rfl
      | cons x l ih =>
        intro s t
        rw [List.foldl_cons, List.foldl_cons, Finset.inter_assoc, ih]
    show M a ∩ commonAncestors M (b :: l) = l.foldl (fun s x => s ∩ M x) (M a ∩ M b)
    rw [ih, key]
    rfl

theorem residualMatrix_eq (L : Lib N) (n : Nat) (X : Nat → Fin N → ℝ) (U : List Nat) (H : Finset Nat) {j : Nat} (hj : j ∈ U) :
    residualMatrix L n X U H j = RcdData.without L n X H j := by
  unfold residualMatrix RcdData.without
  by_cases h : H = ∅
  · rw [if_pos (Finset.card_eq_zero.2 h), if_pos h]
  · rw [if_neg (mt Finset.card_eq_zero.1 h), if_neg h, if_pos hj]

theorem nonGauss_eq (L : Lib N) (alpha : ℝ) {Y W : Nat → Fin N → ℝ} : ∀ U : List Nat, (∀ j ∈ U, Y j = W j) →
    isNonGaussianity L alpha Y U = !U.any (fun x => !!decide (alpha < L.shapiro (W x)))
  | [], _ => rfl
  | x :: U, h => by
    have ih := nonGauss_eq L alpha U fun j hj => h j (by simp [hj])
    rw [isNonGaussianity, ih, h x (by simp)]
    by_cases hx : alpha < L.shapiro (W x) <;> simp [hx]

theorem isCorrelated_eq (L : Lib N) (c : Args) (ic : ℝ) (a b : Fin N → ℝ) :
    isCorrelated L c.corAlpha a b = RcdData.isCorrelated L (c.rcd ic) a b := rfl

theorem allCorrelated_eq (L : Lib N) (c : Args) (ic : ℝ) {Y W : Nat → Fin N → ℝ} : ∀ cs : List (List Nat),
    (∀ p ∈ cs, Y (p.getD 0 0) = W (p.getD 0 0) ∧ Y (p.getD 1 0) = W (p.getD 1 0)) →
    allCorrelated L c.corAlpha Y cs = cs.all (fun p => RcdData.isCorrelated L (c.rcd ic) (W (p.getD 0 0)) (W (p.getD 1 0)))
  | [], _ => rfl
  | p :: cs, h => by
    have ih := allCorrelated_eq L c ic cs fun q hq => h q (by simp [hq])
    rw [allCorrelated, ih, (h p (by simp)).1, (h p (by simp)).2, isCorrelated_eq L c ic, List.all_cons]
    cases RcdData.isCorrelated L (c.rcd ic) (W (p.getD 0 0)) (W (p.getD 1 0)) <;> simp

theorem someHas_eq (M : Nat → Finset Nat) (xi : Nat) : ∀ l, someHas M xi l = l.any (fun xj => decide (xi ∈ M xj))
  | [] => rfl
  | xj :: l => by
    rw [someHas, someHas_eq M xi l, List.any_cons]
    by_cases h : xi ∈ M xj <;> simp [h]

theorem existsAncestor_eq (M : Nat → Finset Nat) (xi : Nat) (l : List Nat) : existsAncestor M xi l = Rcd.existsAncestor M xi l := by
  unfold existsAncestor Rcd.existsAncestor
  rw [someHas_eq]
  cases l.any (fun xj => decide (xi ∈ M xj)) with
  | true => simp
  | false =>
    by_cases h : l.toFinset = l.toFinset ∩ M xi
    · simp only [Bool.false_eq_true, if_false, Bool.false_or]; rw [if_pos h]; exact (decide_eq_true h).symm
    · simp only [Bool.false_eq_true, if_false, Bool.false_or]; rw [if_neg h]; exact (decide_eq_false h).symm

theorem isIndependent_eq (L : Lib N) (c : Args) (ic : ℝ) (a b : Fin N → ℝ) :
    isIndependent L c.indAlpha a b = RcdData.isIndependent L (c.rcd ic) a b := by
  unfold isIndependent RcdData.isIndependent
  rw [if_pos (show (c.rcd ic).hsic = true from rfl)]
  rfl

theorem allIndependent_eq (L : Lib N) (c : Args) (ic : ℝ) (r : Fin N → ℝ) {Y W : Nat → Fin N → ℝ} : ∀ l : List Nat,
    (∀ j ∈ l, Y j = W j) → allIndependent L c.indAlpha r Y l = l.all (fun y => RcdData.isIndependent L (c.rcd ic) r (W y))
  | [], _ => rfl
  | x :: l, h => by
    rw [allIndependent, allIndependent_eq L c ic r l fun j hj => h j (by simp [hj]), h x (by simp), isIndependent_eq L c ic, List.all_cons]
    cases RcdData.isIndependent L (c.rcd ic) r (W x) <;> simp

theorem cols_congr {Y W : Nat → Fin N → ℝ} {l : List Nat} (h : ∀ j ∈ l, Y j = W j) : RcdData.cols Y l = RcdData.cols W l := by
  funext k
  exact h _ (List.get_mem l k)

theorem isIndependentOfResid_eq (L : Lib N) (c : Args) (ic : ℝ) {Y W : Nat → Fin N → ℝ} {x : Nat} {l : List Nat} (hx : Y x = W x)
    (h : ∀ j ∈ l, Y j = W j) : isIndependentOfResid L c Y x l = RcdData.isIndependentOfResid L (c.rcd ic) W x l := by
  unfold isIndependentOfResid RcdData.isIndependentOfResid
  have h1 : resid L Y x l = resid L W x l := by unfold resid; rw [cols_congr h, hx]
  have h2 : residMlhsicr L Y x l = residMlhsicr L W x l := by unfold residMlhsicr; rw [cols_congr h, hx]
  rw [h1, h2, allIndependent_eq L c ic _ l h, allIndependent_eq L c ic _ l h]
  rfl

theorem without_eq (U : List Nat) (xi : Nat) : without U xi = Rcd.others U xi := by
  unfold without Rcd.others
  refine List.filter_congr fun x _ => ?_
  by_cases h : x = xi <;> simp [h]

theorem sinks_eq (L : Lib N) (c : Args) (ic : ℝ) (M : Nat → Finset Nat) {Y W : Nat → Fin N → ℝ} {U : List Nat} (h : ∀ j ∈ U, Y j = W j) :
    ∀ l acc, (∀ x ∈ l, x ∈ U) → sinks L c M Y U l acc = acc ++ l.filter (fun xi => !Rcd.existsAncestor M xi (Rcd.others U xi) &&
      RcdData.isIndependentOfResid L (c.rcd ic) W xi (Rcd.others U xi))
  | [], acc, _ => by simp [sinks]
  | x :: l, acc, hl => by
    have ih := fun acc => sinks_eq L c ic M h l acc fun y hy => hl y (by simp [hy])
    have hx := hl x (by simp)
    have hsub : ∀ j ∈ Rcd.others U x, Y j = W j := fun j hj => h j (List.mem_filter.1 hj).1
    rw [sinks, without_eq, existsAncestor_eq, isIndependentOfResid_eq L c ic (h x hx) hsub, ih, ih, List.filter_cons]
    cases Rcd.existsAncestor M x (Rcd.others U x) <;>
      cases RcdData.isIndependentOfResid L (c.rcd ic) W x (Rcd.others U x) <;> simp

/-- The states of the two programs correspond. -/
structure Same (s : St) (t : Rcd.St) : Prop where
  M : s.M = t.M
  hist : ∀ U, s.hist U = t.lookup U
  changed : s.changed = t.changed

theorem update_same {s : St} {t : Rcd.St} (h : Same s t) (U sk : List Nat) : Same (update s U sk) (Rcd.applySink t U sk) := by
  obtain ⟨h1, h2, h3⟩ := h
  rcases sk with _ | ⟨xi, _ | ⟨y, l⟩⟩
  · exact ⟨h1, h2, h3⟩
  · have hf : U.filter (fun x => !([xi].contains x)) = Rcd.others U xi := by
      unfold Rcd.others
      refine List.filter_congr fun x _ => ?_
      by_cases h : x = xi <;> simp [h]
    have hu : update s U [xi] = if ¬ s.M xi = s.M xi ∪ (Rcd.others U xi).toFinset then
        { s with M := fun i => if i = xi then s.M xi ∪ (Rcd.others U xi).toFinset else s.M i, changed := true } else s := by
      rw [← hf]; rfl
    have ha : Rcd.applySink t U [xi] = if t.M xi = t.M xi ∪ (Rcd.others U xi).toFinset then t
        else { t with M := Rcd.addAncestors t.M xi (Rcd.others U xi), changed := true } := rfl
    rw [hu, ha, h1]
    by_cases hc : t.M xi = t.M xi ∪ (Rcd.others U xi).toFinset
    · rw [if_neg (not_not.2 hc), if_pos hc]
      exact ⟨h1, h2, h3⟩
    · rw [if_pos hc, if_neg hc]
      refine ⟨?_, h2, rfl⟩
      funext i
      unfold Rcd.addAncestors
      by_cases hi : i = xi
      · subst hi; simp
      · simp [hi]
  · have hu : update s U (xi :: y :: l) = s := by
      unfold update
      rw [if_neg (by simp)]
    rw [hu]
    exact ⟨h1, h2, h3⟩

theorem combos_mem : ∀ (k : Nat) (U p : List Nat), p ∈ Rcd.combos k U → p.length = k ∧ ∀ x ∈ p, x ∈ U
  | 0, U, p, h => by
    rw [Rcd.combos, List.mem_singleton] at h
    subst h; simp
  | k + 1, [], p, h => by cases h
  | k + 1, a :: U, p, h => by
    rw [Rcd.combos, List.mem_append, List.mem_map] at h
    rcases h with ⟨q, hq, rfl⟩ | h
    · obtain ⟨h1, h2⟩ := combos_mem k U q hq
      refine ⟨by simp [h1], fun x hx => ?_⟩
      rcases List.mem_cons.1 hx with rfl | hx
      · simp
      · exact List.mem_cons_of_mem _ (h2 x hx)
    · obtain ⟨h1, h2⟩ := combos_mem (k + 1) U p h
      exact ⟨h1, fun x hx => List.mem_cons_of_mem _ (h2 x hx)⟩

theorem step_same (L : Lib N) (c : Args) (ic : ℝ) (n : Nat) (X : Nat → Fin N → ℝ) {s : St} {t : Rcd.St} (h : Same s t) (U : List Nat) :
    Same (step L c n X s U) (Rcd.body (tests L (c.rcd ic) n X) t U) := by
  have hH : commonAncestors s.M U = Rcd.commonAncestors t.M U := by rw [h.M, commonAncestors_eq]
  unfold step Rcd.body
  simp only [hH, h.hist U]
  by_cases h1 : t.lookup U = some (Rcd.commonAncestors t.M U)
  · rw [if_pos h1, if_pos h1]; exact h
  rw [if_neg h1, if_neg h1]
  set H := Rcd.commonAncestors t.M U
  have hY : ∀ j ∈ U, residualMatrix L n X U H j = RcdData.without L n X H j := fun j hj => residualMatrix_eq L n X U H hj
  have e1 : (!isNonGaussianity L c.shapiroAlpha (residualMatrix L n X U H) U) =
      U.any (fun x => !(tests L (c.rcd ic) n X).nonGauss H x) := by
    rw [nonGauss_eq L c.shapiroAlpha U hY, Bool.not_not]
    rfl
  rw [e1]
  by_cases h2 : U.any (fun x => !(tests L (c.rcd ic) n X).nonGauss H x) = true
  · rw [if_pos h2, if_pos h2]; exact h
  rw [if_neg h2, if_neg h2]
  have e2 : allCorrelated L c.corAlpha (residualMatrix L n X U H) (Rcd.combos 2 U) = Rcd.allCorrelated (tests L (c.rcd ic) n X) H U := by
    refine allCorrelated_eq L c ic (W := RcdData.without L n X H) _ fun p hp => ?_
    obtain ⟨hl, hm⟩ := combos_mem 2 U p hp
    obtain ⟨a, b, rfl⟩ := List.length_eq_two.1 hl
    exact ⟨hY a (hm a (by simp)), hY b (hm b (by simp))⟩
  rw [e2]
  by_cases h3 : (!Rcd.allCorrelated (tests L (c.rcd ic) n X) H U) = true
  · rw [if_pos h3, if_pos h3]; exact h
  rw [if_neg h3, if_neg h3]
  have e3 : sinks L c s.M (residualMatrix L n X U H) U U [] = Rcd.sinkSet (tests L (c.rcd ic) n X) t.M H U := by
    rw [sinks_eq L c ic s.M hY U [] fun _ h => h, h.M]
    rfl
  rw [e3]
  obtain ⟨k1, k2, k3⟩ := update_same h U (Rcd.sinkSet (tests L (c.rcd ic) n X) t.M H U)
  refine ⟨k1, fun V => ?_, k3⟩
  simp only
  by_cases hV : V = U
  · subst hV
    rw [if_pos rfl]
    simp [Rcd.St.lookup]
  · rw [if_neg hV, k2]
    unfold Rcd.St.lookup
    rw [List.find?_cons, decide_eq_false (fun h' : U = V => hV h'.symm)]

theorem fold_same (L : Lib N) (c : Args) (ic : ℝ) (n : Nat) (X : Nat → Fin N → ℝ) : ∀ (l : List (List Nat)) {s : St} {t : Rcd.St}, Same s t →
    Same (l.foldl (step L c n X) s) (l.foldl (Rcd.body (tests L (c.rcd ic) n X)) t)
  | [], _, _, h => h
  | U :: l, _, _, h => fold_same L c ic n X l (step_same L c ic n X h U)

theorem loop_same (L : Lib N) (c : Args) (ic : ℝ) (n : Nat) (X : Nat → Fin N → ℝ) : ∀ (fuel l : Nat) {s : St} {t : Rcd.St}, Same s t → 0 < l →
    loop L c n X fuel l s = Rcd.loop (tests L (c.rcd ic) n X) n (max 1 c.maxNum.toNat) fuel l t
  | 0, _, _, _, _, _ => rfl
  | fuel + 1, l, s, t, h, hl => by
    have hp : Same ((Rcd.combos (l + 1) (List.range n)).foldl (step L c n X) { s with changed := false })
        (Rcd.pass (tests L (c.rcd ic) n X) n l t) := fold_same L c ic n X _ ⟨h.M, h.hist, rfl⟩
    rw [loop, Rcd.loop, hp.changed]
    by_cases h1 : (Rcd.pass (tests L (c.rcd ic) n X) n l t).changed = true
    · rw [if_pos h1, if_pos h1]
      exact loop_same L c ic n X fuel 1 hp one_pos
    · rw [if_neg h1, if_neg h1]
      by_cases h2 : (l : Int) < c.maxNum
      · rw [if_pos h2, if_pos (by omega)]
        exact loop_same L c ic n X fuel (l + 1) hp (by omega)
      · rw [if_neg h2, if_neg (by omega), hp.M]

/-- **C206.** `extract_ancestors` gives the ancestors that `RCD` with `independence='hsic'` and the same arguments finds in the same data;
`max_explanatory_num` below one counts as one. -/
theorem C206_same_partial (L : Lib N) (c : Args) (ic : ℝ) (n fuel : Nat) (X : Nat → Fin N → ℝ) :
    call L c fuel (.array n X) = .ok (Rcd.extractAncestors (tests L (c.rcd ic) n X) n (max 1 c.maxNum.toNat) fuel) := by
  show Except.ok (loop L c n X fuel 1 ⟨fun _ => ∅, fun _ => none, false⟩) = _
  rw [loop_same L c ic n X fuel 1 (t := ⟨fun _ => ∅, [], false⟩) ⟨rfl, fun _ => rfl, rfl⟩ one_pos]
  rfl

/-- **C206.** In terms of a fitted model: the sets are `ancestors_list_`. -/
theorem C206_fit (L : Lib N) (c : Args) (ic : ℝ) {m : Nat} (hm : 0 < m) (hc : c.maxNum = m) (n fuel : Nat) (X : Nat → Fin N → ℝ)
    (M : Nat → Finset Nat) : call L c fuel (.array n X) = .ok (some M) ↔ ∃ B, RcdData.fit L (c.rcd ic) n m fuel X = some (M, B) := by
  rw [C206_same_partial L c ic n fuel X, hc]
  have : max 1 ((m : Int).toNat) = m := by omega
  rw [this]
  unfold RcdData.fit Rcd.fit
  simp only [Except.ok.injEq]
  cases Rcd.extractAncestors (tests L (c.rcd ic) n X) n m fuel with
  | none => simp
  | some M' => simp

/-- **C206.** The function returns, whatever the data; its sets contain only variables, no variable is its own ancestor and no two are
ancestors of each other. -/
theorem C206_terminates (L : Lib N) (c : Args) (n : Nat) (X : Nat → Fin N → ℝ) :
    ∃ M, (∀ fuel, n * n * max 1 c.maxNum.toNat + max 1 c.maxNum.toNat ≤ fuel → call L c fuel (.array n X) = .ok (some M)) ∧
      (∀ i j, j ∈ M i → i < n ∧ j < n) ∧ (∀ i, i ∉ M i) ∧ ∀ i j, j ∈ M i → i ∉ M j := by
  obtain ⟨M, h1, h2⟩ := Rcd.C25_ancestors_terminate (tests L (c.rcd 0) n X) n (maxNum := max 1 c.maxNum.toNat) (by omega)
  exact ⟨M, fun fuel hf => by rw [C206_same_partial L c 0, h1 fuel hf], h2⟩

/-- **C206.** Without MLHSICR, units, signs and origins of measurement do not matter. -/
theorem C206_units {L : Lib N} (hN : N ≠ 0) (hL : RcdData.OlsRight L) (hS : RcdData.ShapiroUnits L) {c : Args} (hc : c.mlhsicr = false)
    {a o : Nat → ℝ} (ha : ∀ j, a j ≠ 0) {X X' : Nat → Fin N → ℝ} (h : OtherUnits a o X X') (n fuel : Nat) :
    call L c fuel (.array n X') = call L c fuel (.array n X) := by
  rw [C206_same_partial L c 0, C206_same_partial L c 0, RcdData.tests_units hN hL hS (g := c.rcd 0) hc ha h n]

/-- **C206 (violated).** A list of rows, an array-like as documented, is refused although `RCD.fit` accepts it. -/
theorem C206_rows_refused (L : Lib N) (c : Args) (fuel n : Nat) (X : Nat → Fin N → ℝ) :
    call L c fuel (.rows n X) = .error () ∧ ∃ fuel' M, call L c fuel' (.array n X) = .ok (some M) := by
  refine ⟨rfl, ?_⟩
  obtain ⟨M, h, -⟩ := C206_terminates L c n X
  exact ⟨_, M, h _ le_rfl⟩

/-- Concrete case of `C206_terminates` and `C206_fit`: three rows of two variables, default arguments. -/
example (L : Lib 3) : ∃ M, call L Args.default 100 (.array 2 (fun j r => if j = 0 then r else r * r)) = .ok (some M) ∧
    ∃ B, RcdData.fit L (Args.default.rcd 0) 2 2 100 (fun j r => if j = 0 then r else r * r) = some (M, B) := by
  obtain ⟨M, h, -⟩ := C206_terminates L Args.default 2 (fun j r => if j = 0 then (r : ℝ) else r * r)
  have h' := h 100 (by simp [Args.default])
  exact ⟨M, h', (C206_fit L Args.default 0 (m := 2) (by norm_num) rfl 2 100 _ M).1 h'⟩

end Verif.ExtractAnc
