import Verif.Props.CamPair
import Verif.Props.ResitUnits

/-! C243: CAM-UV with HSIC in other units and with the rows in another order. -/
set_option autoImplicit false
set_option linter.unusedSectionVars false
namespace Verif.Camuv
open Rcd (Anc)

variable {K : Type} [LinearOrder K] [Zero K] [One K] {c c' : Cfg K}

/-- The same settings, and the same values for tests against a single column. -/
structure SamePairs (c c' : Cfg K) : Prop where
  hsic : c'.hsic = c.hsic
  alpha : c'.alpha = c.alpha
  indCorr : c'.indCorr = c.indCorr
  prior : c'.prior = c.prior
  iter : c'.iter = c.iter
  val : ∀ a A b B, c'.val a A [(b, B)] = c.val a A [(b, B)]

theorem SamePairs.isIndBy (h : SamePairs c c') (v : Option K) (t : K) : isIndBy c' v t = isIndBy c v t := by
  unfold Camuv.isIndBy
  rw [h.hsic]

theorem SamePairs.isInd (h : SamePairs c c') (v : Option K) : isInd c' v = isInd c v := by
  unfold Camuv.isInd
  rw [h.isIndBy, h.hsic, h.alpha, h.indCorr]

theorem SamePairs.neighborhoods (h : SamePairs c c') (d : Nat) : neighborhoods c' d = neighborhoods c d := by
  unfold Camuv.neighborhoods
  congr 1
  funext N p
  unfold neighStep
  simp only [h.isInd, h.val]

theorem SamePairs.checkPrior (h : SamePairs c c') (l : List Nat) (i : Nat) : checkPrior c' l i = checkPrior c l i := by
  unfold Camuv.checkPrior
  rw [h.prior]

theorem rest_single {V : List Nat} (hV : V.length = 2) (hn : V.Nodup) {x : Nat} (hx : x ∈ V) : ∃ b, rest V x = [b] := by
  obtain ⟨a, b, rfl⟩ := List.length_eq_two.1 hV
  have hab : a ≠ b := by simpa using hn
  rcases List.mem_cons.1 hx with rfl | hx
  · exact ⟨b, by simp [rest, hab.symm]⟩
  · obtain rfl : x = b := by simpa using hx
    exact ⟨a, by simp [rest, hab]⟩

theorem SamePairs.getChild (h : SamePairs c c') (hit : ∀ l, (c.iter l).Perm l) (P N : Anc) {V : List Nat} (hV : V.length = 2) (hn : V.Nodup) :
    getChild c' P N V = getChild c P N V := by
  have key : ∀ (l : List Nat), (∀ x ∈ l, x ∈ V) → ∀ st, l.foldl (childStep c' P N V) st = l.foldl (childStep c P N V) st := by
    intro l
    induction l with
    | nil => intro _ _; rfl
    | cons x l ih =>
      intro hl st
      rw [List.foldl_cons, List.foldl_cons, ih (fun y hy => hl y (List.mem_cons_of_mem _ hy))]
      congr 1
      obtain ⟨b, hb⟩ := rest_single hV hn (hl x List.mem_cons_self)
      unfold childStep childVal
      rw [hb]
      simp only [h.checkPrior, h.isIndBy, List.map_cons, List.map_nil, h.val]
  unfold Camuv.getChild
  rw [h.iter, h.hsic, h.alpha, h.indCorr, key _ (fun x hx => (hit V).mem_iff.1 hx)]

theorem SamePairs.body (h : SamePairs c c') (hit : ∀ l, (c.iter l).Perm l) (N : Anc) (s : Anc × Bool) {V : List Nat} (hV : V.length = 2)
    (hn : V.Nodup) : body c' N s V = body c N s V := by
  unfold Camuv.body
  rw [h.getChild hit s.1 N hV hn]
  unfold dependentWithout
  simp only [h.isInd, h.val]

theorem SamePairs.pass (h : SamePairs c c') (hit : ∀ l, (c.iter l).Perm l) (N : Anc) (d : Nat) (P : Anc) : pass c' N d 2 P = pass c N d 2 P := by
  have key : ∀ (l : List (List Nat)), (∀ V ∈ l, V ∈ Rcd.combos 2 (List.range d)) → ∀ s, l.foldl (Camuv.body c' N) s = l.foldl (Camuv.body c N) s := by
    intro l
    induction l with
    | nil => intro _ _; rfl
    | cons V l ih =>
      intro hl s
      obtain ⟨h1, h2⟩ := Rcd.mem_combos.1 (hl V List.mem_cons_self)
      rw [List.foldl_cons, List.foldl_cons, ih (fun y hy => hl y (List.mem_cons_of_mem _ hy)), h.body hit N s h2 (h1.nodup List.nodup_range)]
  exact key _ (fun _ => id) _

theorem SamePairs.loop (h : SamePairs c c') (hit : ∀ l, (c.iter l).Perm l) (N : Anc) (d : Nat) {m : Nat} (hm : m ≤ 2) :
    ∀ fuel P, loop c' N d m fuel 2 P = loop c N d m fuel 2 P
  | 0, _ => rfl
  | fuel + 1, P => by
    unfold Camuv.loop
    rw [h.pass hit]
    simp only [show m < 2 + 1 by omega, if_true]
    rw [h.loop hit N d hm fuel]

theorem SamePairs.prune (h : SamePairs c c') (d : Nat) (P : Anc) : prune c' d P = prune c d P := by
  unfold Camuv.prune
  congr 1
  funext P i
  unfold pruneStep
  simp only [h.isInd, h.val]

/-- With at most two variables at a time only tests against a single column are made. -/
theorem SamePairs.fit (h : SamePairs c c') (hit : ∀ l, (c.iter l).Perm l) (d : Nat) {m : Nat} (hm : m ≤ 2) (fuel : Nat) :
    fit c' d m fuel = fit c d m fuel := by
  unfold Camuv.fit findParents
  rw [h.neighborhoods, h.loop hit _ d hm]
  cases Camuv.loop c (Camuv.neighborhoods c d) d m fuel 2 (fun _ => ∅) with
  | none => rfl
  | some P =>
    simp only [h.prune]
    unfold confoundedPairs confounded
    simp only [h.isInd, h.val]

end Verif.Camuv

namespace Verif.CamuvData
open Rcd (Anc)

variable {N : Nat} {L : Lib N}

/-- The prediction of the additive model follows units and origins. -/
def GamUnits (L : Lib N) : Prop := ∀ (q : Nat) (Z : Fin q → Fin N → ℝ) (y : Fin N → ℝ) (a b : Fin q → ℝ) (s t : ℝ), (∀ k, a k ≠ 0) → s ≠ 0 → ∀ r,
  L.gam q (fun k r => a k * Z k r + b k) (fun r => s * y r + t) r = s * L.gam q Z y r + t

/-- The prediction of the additive model follows the rows. -/
def GamRows (L : Lib N) : Prop := ∀ (q : Nat) (Z : Fin q → Fin N → ℝ) (y : Fin N → ℝ) (σ : Equiv.Perm (Fin N)) r,
  L.gam q (fun k r => Z k (σ r)) (fun r => y (σ r)) r = L.gam q Z y (σ r)

theorem residual_units (hL : GamUnits L) {c o : Nat → ℝ} (hc : ∀ j, c j ≠ 0) {X X' : Nat → Fin N → ℝ} (h : OtherUnits c o X X') (n a : Nat) (A : Finset Nat) :
    ∃ t, residual L n X' a A = fun r => c a * residual L n X a A r + t := by
  unfold residual
  split_ifs
  · exact ⟨o a, funext fun r => h a r⟩
  · refine ⟨0, funext fun r => ?_⟩
    have e1 : X' a = fun r => c a * X a r + o a := funext fun r => h a r
    have e2 : RcdData.cols X' (RcdData.listOf n A) = fun k r => c ((RcdData.listOf n A).get k) * RcdData.cols X (RcdData.listOf n A) k r +
        o ((RcdData.listOf n A).get k) := funext fun k => funext fun r => h _ r
    rw [e1, e2, hL _ _ _ _ _ _ _ (fun k => hc _) (hc a)]
    ring

theorem value_units (hL : GamUnits L) {c o : Nat → ℝ} (hc : ∀ j, c j ≠ 0) {X X' : Nat → Fin N → ℝ} (h : OtherUnits c o X X') (n a : Nat) (A : Finset Nat)
    (l : List (Nat × Finset Nat)) (hl : ∃ s, s ≠ 0 ∧ ∀ x ∈ l, c x.1 = s) : value L n X' a A l = value L n X a A l := by
  obtain ⟨s, hs, hls⟩ := hl
  obtain ⟨t, ht⟩ := residual_units hL hc h n a A
  choose u hu using fun (k : Fin l.length) => residual_units hL hc h n (l.get k).1 (l.get k).2
  unfold value
  have e1 : Mlhsicr.col (residual L n X' a A) = fun r k => c a * Mlhsicr.col (residual L n X a A) r k + t := by rw [ht]; rfl
  have e2 : (fun r (k : Fin l.length) => residual L n X' (l.get k).1 (l.get k).2 r) =
      fun r k => s * residual L n X (l.get k).1 (l.get k).2 r + u k := by
    funext r k
    rw [hu k, hls _ (List.get_mem l k)]
  rw [e1, e2]
  have := Hsic.C114_hsic_units L.gammaSf (Mlhsicr.col (residual L n X a A)) (fun r (k : Fin l.length) => residual L n X (l.get k).1 (l.get k).2 r)
    (c a) s (fun _ => t) u (hc a) hs
  rw [this]

/-- **C243.** With at most two variables at a time (the default) CAM-UV with HSIC does not depend on units and origins of the columns, each of which may
change separately, whatever the prior knowledge, provided the predictions of the additive model follow units and origins. -/
theorem C243_units (hL : GamUnits L) {c o : Nat → ℝ} (hc : ∀ j, c j ≠ 0) {X X' : Nat → Fin N → ℝ} (h : OtherUnits c o X X') (alpha : ℝ)
    (prior : Option (List (Nat × Nat))) (n : Nat) {m : Nat} (hm : m ≤ 2) (fuel : Nat) :
    Camuv.fit { cfg L alpha n X' with prior := prior } n m fuel = Camuv.fit { cfg L alpha n X with prior := prior } n m fuel :=
  Camuv.SamePairs.fit (c := { cfg L alpha n X with prior := prior }) (c' := { cfg L alpha n X' with prior := prior })
    ⟨rfl, rfl, rfl, rfl, rfl, fun a A b B => value_units hL hc h n a A [(b, B)] ⟨c b, hc b, by simp⟩⟩ (fun _ => List.Perm.refl _) n hm fuel

/-- **C243.** With any number of variables at a time the same holds if all columns change by the same factor. -/
theorem C243_common (hL : GamUnits L) {s : ℝ} (hs : s ≠ 0) {o : Nat → ℝ} {X X' : Nat → Fin N → ℝ} (h : OtherUnits (fun _ => s) o X X') (alpha : ℝ)
    (prior : Option (List (Nat × Nat))) (n m fuel : Nat) :
    Camuv.fit { cfg L alpha n X' with prior := prior } n m fuel = Camuv.fit { cfg L alpha n X with prior := prior } n m fuel := by
  have e : (cfg L alpha n X').val = (cfg L alpha n X).val := by
    funext a A l
    exact value_units hL (fun _ => hs) h n a A l ⟨s, hs, fun _ _ => rfl⟩
  have : cfg L alpha n X' = cfg L alpha n X := by
    unfold cfg at e ⊢
    rw [Camuv.Cfg.mk.injEq]
    exact ⟨rfl, rfl, rfl, rfl, e, rfl⟩
  rw [this]

/-- **C243.** Rows may be permuted as long as the first 100 rows stay among themselves, with any number of variables at a time, if the predictions of the
additive model follow the rows. -/
theorem C243_rows (hL : GamRows L) (X : Nat → Fin N → ℝ) {σ : Equiv.Perm (Fin N)} (hσ : ∀ i : Fin N, i.val < 100 ↔ (σ i).val < 100) (alpha : ℝ)
    (prior : Option (List (Nat × Nat))) (n m fuel : Nat) :
    Camuv.fit { cfg L alpha n (fun j r => X j (σ r)) with prior := prior } n m fuel = Camuv.fit { cfg L alpha n X with prior := prior } n m fuel := by
  have hr : ∀ a A, residual L n (fun j r => X j (σ r)) a A = fun r => residual L n X a A (σ r) := by
    intro a A
    unfold residual
    split_ifs
    · rfl
    · funext r
      exact congrArg (fun v => X a (σ r) - v) (hL _ (RcdData.cols X (RcdData.listOf n A)) (X a) σ r)
  have e : (cfg L alpha n (fun j r => X j (σ r))).val = (cfg L alpha n X).val := by
    funext a A l
    show value L n _ a A l = value L n X a A l
    unfold value
    simp only [hr]
    have := Hsic.C115_hsic_row_order_partial L.gammaSf (Mlhsicr.col (residual L n X a A))
      (fun r (k : Fin l.length) => residual L n X (l.get k).1 (l.get k).2 r) σ hσ
    rw [← this]
    rfl
  have : cfg L alpha n (fun j r => X j (σ r)) = cfg L alpha n X := by
    unfold cfg at e ⊢
    rw [Camuv.Cfg.mk.injEq]
    exact ⟨rfl, rfl, rfl, rfl, e, rfl⟩
  rw [this]

/-- Regression by group means follows units and rows. -/
theorem groupMean_follows (sf : ℝ → ℝ → ℝ → ℝ) : GamUnits (N := N) ⟨fun q Z y => ResitData.groupMean q (fun r k => Z k r) y, sf⟩ ∧
    GamRows (N := N) ⟨fun q Z y => ResitData.groupMean q (fun r k => Z k r) y, sf⟩ :=
  ⟨fun q Z y a b s t ha hs r => ResitData.groupMean_follows.1 q (fun r k => Z k r) y a b s t ha hs r,
    fun q Z y σ r => ResitData.groupMean_follows.2 q (fun r k => Z k r) y σ r⟩

/-- The two coins, with the second column in other units. -/
example (sf : ℝ → ℝ → ℝ → ℝ) (alpha : ℝ) (fuel : Nat) :
    fit (⟨fun q Z y => ResitData.groupMean q (fun r k => Z k r) y, sf⟩ : Lib 8) alpha 2 2 fuel
      (fun j r => (if j = 0 then 1 else -3) * ResitData.coinX j r + 7) =
    fit ⟨fun q Z y => ResitData.groupMean q (fun r k => Z k r) y, sf⟩ alpha 2 2 fuel ResitData.coinX :=
  C243_units (groupMean_follows sf).1 (c := fun j => if j = 0 then 1 else -3) (o := fun _ => 7) (fun j => by split <;> norm_num)
    (fun _ _ => rfl) alpha none 2 le_rfl fuel

end Verif.CamuvData
