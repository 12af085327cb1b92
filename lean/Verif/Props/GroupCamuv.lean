import Verif.Model.GroupCamuvData
import Verif.Props.CamUnits
import Verif.Props.GroupRcdData

/-! C249: MultiGroupCAMUV with HSIC in other units, with rows and data sets in another order.  -/
set_option autoImplicit false
set_option linter.unusedSectionVars false
namespace Verif.GroupCamuv
open CamuvData (Lib GamUnits GamRows)
open GroupRcd (fisherP)

variable {k : Nat} {N : Fin k → Nat} {L : ∀ i, Lib (N i)} {sf : Nat → WithTop ℝ → ℝ} {X X' : ∀ i, Nat → Fin (N i) → ℝ} {alpha : ℝ}

/-- **C249.** With at most two variables at a time (the default) MultiGroupCAMUV with HSIC does not depend on units and origins of the columns, which may
be different in every data set, provided the predictions of the additive model follow units and origins. -/
theorem C249_units (hL : ∀ i, GamUnits (L i)) {c o : Fin k → Nat → ℝ} (hc : ∀ i j, c i j ≠ 0) (h : ∀ i, OtherUnits (c i) (o i) (X i) (X' i))
    (alpha : ℝ) (prior : Option (List (Nat × Nat))) (n : Nat) {m : Nat} (hm : m ≤ 2) (fuel : Nat) :
    fit L sf alpha prior n m fuel X' = fit L sf alpha prior n m fuel X :=
  Camuv.SamePairs.fit (c := cfg L sf alpha prior n X) (c' := cfg L sf alpha prior n X')
    ⟨rfl, rfl, rfl, rfl, rfl, fun a A b B => congrArg (fisherP sf) (funext fun i =>
      CamuvData.value_units (hL i) (hc i) (h i) n a A [(b, B)] ⟨c i b, hc i b, by simp⟩)⟩ (fun _ => List.Perm.refl _) n hm fuel

theorem fit_congr {k' : Nat} {N' : Fin k' → Nat} {L' : ∀ i, Lib (N' i)} {X' : ∀ i, Nat → Fin (N' i) → ℝ} {n : Nat}
    (h : ∀ a A l, value L' sf n X' a A l = value L sf n X a A l) (alpha : ℝ) (prior : Option (List (Nat × Nat))) (m fuel : Nat) :
    fit L' sf alpha prior n m fuel X' = fit L sf alpha prior n m fuel X := by
  have : cfg L' sf alpha prior n X' = cfg L sf alpha prior n X := by
    unfold cfg
    rw [Camuv.Cfg.mk.injEq]
    exact ⟨rfl, rfl, rfl, rfl, funext fun a => funext fun A => funext fun l => h a A l, rfl⟩
  unfold fit
  rw [this]

/-- **C249.** With any number of variables at a time the same holds if all columns of a data set change by the same factor, which may be different in
every data set. -/
theorem C249_common (hL : ∀ i, GamUnits (L i)) {s : Fin k → ℝ} (hs : ∀ i, s i ≠ 0) {o : Fin k → Nat → ℝ}
    (h : ∀ i, OtherUnits (fun _ => s i) (o i) (X i) (X' i)) (alpha : ℝ) (prior : Option (List (Nat × Nat))) (n m fuel : Nat) :
    fit L sf alpha prior n m fuel X' = fit L sf alpha prior n m fuel X :=
  fit_congr (fun a A l => congrArg (fisherP sf) (funext fun i =>
    CamuvData.value_units (hL i) (fun _ => hs i) (h i) n a A l ⟨s i, hs i, fun _ _ => rfl⟩)) alpha prior m fuel

/-- **C249.** The data sets may be given in any order. -/
theorem C249_order_of_data_sets (σ : Equiv.Perm (Fin k)) (alpha : ℝ) (prior : Option (List (Nat × Nat))) (n m fuel : Nat) :
    fit (fun i => L (σ i)) sf alpha prior n m fuel (fun i => X (σ i)) = fit L sf alpha prior n m fuel X :=
  fit_congr (fun a A l => GroupRcd.fisherP_perm σ fun i => CamuvData.value (L i) n (X i) a A l) alpha prior m fuel

theorem value_rows {R : Nat} {l : Lib R} (hl : GamRows l) (Y : Nat → Fin R → ℝ) {σ : Equiv.Perm (Fin R)} (hσ : ∀ i : Fin R, i.val < 100 ↔ (σ i).val < 100)
    (n a : Nat) (A : Finset Nat) (q : List (Nat × Finset Nat)) :
    CamuvData.value l n (fun j r => Y j (σ r)) a A q = CamuvData.value l n Y a A q := by
  have hr : ∀ a A, CamuvData.residual l n (fun j r => Y j (σ r)) a A = fun r => CamuvData.residual l n Y a A (σ r) := by
    intro a A
    unfold CamuvData.residual
    split_ifs
    · rfl
    · funext r
      exact congrArg (fun v => Y a (σ r) - v) (hl _ (RcdData.cols Y (RcdData.listOf n A)) (Y a) σ r)
  unfold CamuvData.value
  simp only [hr]
  have := Hsic.C115_hsic_row_order_partial l.gammaSf (Mlhsicr.col (CamuvData.residual l n Y a A))
    (fun r (k : Fin q.length) => CamuvData.residual l n Y (q.get k).1 (q.get k).2 r) σ hσ
  rw [← this]
  rfl

/-- **C249.** The rows of every data set may be permuted as long as its first 100 rows stay among themselves. -/
theorem C249_rows (hL : ∀ i, GamRows (L i)) (X : ∀ i, Nat → Fin (N i) → ℝ) {σ : ∀ i, Equiv.Perm (Fin (N i))}
    (hσ : ∀ i (r : Fin (N i)), r.val < 100 ↔ (σ i r).val < 100) (alpha : ℝ) (prior : Option (List (Nat × Nat))) (n m fuel : Nat) :
    fit L sf alpha prior n m fuel (fun i j r => X i j (σ i r)) = fit L sf alpha prior n m fuel X :=
  fit_congr (fun a A l => congrArg (fisherP sf) (funext fun i => value_rows (hL i) (X i) (hσ i) n a A l)) alpha prior m fuel

/-- **C249.** Prior knowledge is respected: no arrow from `j` to `i` is reported if the pair `(j, i)` is listed. -/
theorem C249_prior {prior : Option (List (Nat × Nat))} {n m fuel : Nat} {P : Rcd.Anc} {B : Nat → Nat → Option ℚ}
    (h : fit L sf alpha prior n m fuel X = some (P, B)) {ps : List (Nat × Nat)} (hp : prior = some ps) {i j : Nat} (hi : i < n) (hj : j < n)
    (hij : (j, i) ∈ ps) : j ∉ P i ∧ B i j ≠ some 1 := by
  have h1 : j ∉ P i := fun hm => (Camuv.fit_good (c := cfg L sf alpha prior n X) (fun _ => List.Perm.refl _) h).2.2 i j hm ⟨ps, hp, hij⟩
  exact ⟨h1, fun hB => h1 ((Camuv.C29_matrix (c := cfg L sf alpha prior n X) h hi hj).2.1.1 hB)⟩

/-- The hypotheses of C249_prior hold: the search ends, whatever the data are. -/
example (gsf : ℝ → ℝ → ℝ → ℝ) (alpha : ℝ) : ∃ P B,
    fit (N := fun _ : Fin 2 => 8) (fun _ => ⟨fun q Z y => ResitData.groupMean q (fun r k => Z k r) y, gsf⟩) sf alpha (some [(0, 1)]) 2 2 10
      (fun _ => ResitData.coinX) = some (P, B) ∧ 0 ∉ P 1 := by
  obtain ⟨P, hP, -⟩ := Camuv.C28_parents_terminate (c := cfg (N := fun _ : Fin 2 => 8)
    (fun _ => ⟨fun q Z y => ResitData.groupMean q (fun r k => Z k r) y, gsf⟩) sf alpha (some [(0, 1)]) 2 (fun _ => ResitData.coinX))
    (fun _ => List.Perm.refl _) 2 2
  have hf := hP 10 (by norm_num)
  have : ∃ B, fit (N := fun _ : Fin 2 => 8) (fun _ => ⟨fun q Z y => ResitData.groupMean q (fun r k => Z k r) y, gsf⟩) sf alpha (some [(0, 1)]) 2 2 10
      (fun _ => ResitData.coinX) = some (P, B) := by
    unfold fit Camuv.fit
    rw [hf]
    exact ⟨_, rfl⟩
  obtain ⟨B, hB⟩ := this
  exact ⟨P, B, hB, (C249_prior hB rfl (i := 1) (j := 0) (by norm_num) (by norm_num) (by simp)).1⟩

/-- The two coins twice; in the second data set the second column is in other units. -/
example (gsf : ℝ → ℝ → ℝ → ℝ) (alpha : ℝ) (fuel : Nat) :
    fit (N := fun _ : Fin 2 => 8) (fun _ => ⟨fun q Z y => ResitData.groupMean q (fun r k => Z k r) y, gsf⟩) sf alpha none 2 2 fuel
      (fun i j r => (if i = 1 ∧ j = 1 then -3 else 1) * ResitData.coinX j r + 7) =
    fit (N := fun _ : Fin 2 => 8) (fun _ => ⟨fun q Z y => ResitData.groupMean q (fun r k => Z k r) y, gsf⟩) sf alpha none 2 2 fuel
      (fun _ => ResitData.coinX) :=
  C249_units (fun _ => (CamuvData.groupMean_follows gsf).1) (c := fun i j => if i = 1 ∧ j = 1 then -3 else 1) (o := fun _ _ => 7)
    (fun i j => by split <;> norm_num) (fun _ _ _ => rfl) alpha none 2 le_rfl fuel

/-- Two different data sets, exchanged. -/
example (gsf : ℝ → ℝ → ℝ → ℝ) (alpha : ℝ) (m fuel : Nat) :
    fit (N := fun _ : Fin 2 => 8) (fun _ => ⟨fun q Z y => ResitData.groupMean q (fun r k => Z k r) y, gsf⟩) sf alpha (some [(0, 1)]) 2 m fuel
      (fun i j r => if Equiv.swap 0 1 i = 0 then ResitData.coinX j r else ResitData.coinX j r ^ 2 + j) =
    fit (N := fun _ : Fin 2 => 8) (fun _ => ⟨fun q Z y => ResitData.groupMean q (fun r k => Z k r) y, gsf⟩) sf alpha (some [(0, 1)]) 2 m fuel
      (fun i j r => if i = 0 then ResitData.coinX j r else ResitData.coinX j r ^ 2 + j) :=
  C249_order_of_data_sets (N := fun _ => 8) (L := fun _ => ⟨fun q Z y => ResitData.groupMean q (fun r k => Z k r) y, gsf⟩)
    (X := fun i j r => if i = 0 then ResitData.coinX j r else ResitData.coinX j r ^ 2 + j) (Equiv.swap 0 1) alpha (some [(0, 1)]) 2 m fuel

end Verif.GroupCamuv
