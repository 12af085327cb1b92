import Verif.Props.TotalAgree
import Verif.Props.GroupRecovery
import Verif.Model.GroupBoot

/-!
# The two total effects of MultiGroupDirectLiNGAM (C246)

`estimate_total_effect(X_list, ...)` makes a regression in every data set, `estimate_total_effect2(...)` uses the matrices.
-/
set_option linter.unusedSectionVars false
set_option autoImplicit false
namespace Verif.MultiGroup
open Finset Verif.Direct

/-- The regressions on the sample are least squares. -/
def OlsRight (n : Nat) (g : Sample) : Prop :=
  ∀ S t, S.Nodup → (∀ p ∈ S, p < n) → t < n → IsLeastSquares S g.X (g.X t) (g.ols S t)

/-- No edge of the order is missing in this matrix, and no column is an exact linear function of the columns before it. -/
def KeptAll (n : Nat) (order : List Nat) (g : Sample) (B : Nat → Nat → ℚ) : Prop :=
  (∀ i j, Before order j i → B i j ≠ 0) ∧ ∀ i, i < n → NonConstant (leftOver n B g.X i)

/-- What the matrix leaves over of the columns of the sample is uncorrelated and not constant. -/
def LeavesNoise (n : Nat) (g : Sample) (B : Nat → Nat → ℚ) : Prop := GoodErrors n (leftOver n B g.X)

theorem totals_eq {n src dst : Nat} {gs : List Sample} {Bs : List (Nat → Nat → ℚ)} (hl : gs.length = Bs.length)
    (h : ∀ q ∈ gs.zip Bs, Paths.calcTotalEffect n (fun i j => some (q.2 i j)) src dst =
      some (.ok (some (estimateTotalEffect q.1.ols n q.2 src dst)))) :
    totals n src dst (Bs.map fun B i j => some (B i j)) = some (.ok ((totalEffects gs n Bs src dst).map some)) := by
  induction gs generalizing Bs with
  | nil =>
    cases Bs with
    | nil => rfl
    | cons B Bs => simp at hl
  | cons g gs ih =>
    cases Bs with
    | nil => simp at hl
    | cons B Bs =>
      have h1 := h (g, B) (by simp)
      have h2 := ih (Bs := Bs) (by simpa using hl) (fun q hq => h q (by simp [hq]))
      simp only [List.map_cons, totals, h1, h2, totalEffects, List.zip_cons_cons]

/-- C246: after `fit` on the data sets `gs`, `estimate_total_effect` on the same data sets and `estimate_total_effect2`
give the same list, if every data set either kept all edges of the common order or leaves uncorrelated errors. -/
theorem C246_agree {pk : Option PK} {soft : Bool} {gs : List Sample} {n : Nat} {order : List Nat}
    {Bs : List (Nat → Nat → ℚ)} (h : fitSamples pk soft gs n = .ok (order, Bs)) (hols : ∀ g ∈ gs, OlsRight n g)
    (hk : ∀ (k : Nat) (g : Sample) (B : Nat → Nat → ℚ), gs[k]? = some g → Bs[k]? = some B → KeptAll n order g B ∨ LeavesNoise n g B)
    {src dst : Nat} (hsrc : src < n) (hdst : dst < n) (hne : src ≠ dst) :
    totals n src dst (Bs.map fun B i j => some (B i j)) = some (.ok ((totalEffects gs n Bs src dst).map some)) := by
  unfold fitSamples MultiGroup.fit at h
  split at h
  · cases h
  · rename_i o ho
    cases h
    refine totals_eq (by simp) ?_
    intro q hq
    obtain ⟨k, hk1⟩ := List.mem_iff_getElem?.1 hq
    obtain ⟨g, B⟩ := q
    obtain ⟨hg, hB⟩ := List.getElem?_zip_eq_some.1 hk1
    have hgs : g ∈ gs := List.mem_of_getElem? hg
    have hBe : B = estimateAdj pk (adaptiveLasso g.select g.ols) order := by
      simp only [List.getElem?_map, hg, Option.map_some, Option.some.injEq] at hB
      exact hB.symm
    have hfit : Direct.fit ⟨pk, soft, .pwling⟩ (groupScore (gs.map (Sample.data n))) (adaptiveLasso g.select g.ols) n =
        .ok (order, B) := by
      rw [hBe]
      exact fit_of_order _ ho
    rcases hk k g B hg hB with h1 | h1
    · exact agree_of_complete hfit (hols g hgs) h1.1 h1.2 hsrc hdst hne
    · exact agree_of_uncorrelated hfit (hols g hgs) h1 hsrc hdst hne

/-- C246: `estimate_total_effect` accepts a list of another length than that of the fit and then silently answers for the
common beginning only. -/
theorem C246_length (gs : List Sample) (n : Nat) (Bs : List (Nat → Nat → ℚ)) (src dst : Nat) :
    (totalEffects gs n Bs src dst).length = min gs.length Bs.length ∧
      ∀ (k : Nat) (g : Sample) (B : Nat → Nat → ℚ), gs[k]? = some g → Bs[k]? = some B →
        (totalEffects gs n Bs src dst)[k]? = some (estimateTotalEffect g.ols n B src dst) := by
  refine ⟨by simp [totalEffects], ?_⟩
  intro k g B hg hB
  unfold totalEffects
  rw [List.getElem?_map, List.getElem?_zip_eq_some (z := (g, B)).2 ⟨hg, hB⟩]
  rfl

/-! ### Example -/

/-- Both kinds of data set: one with all edges, one without an edge and uncorrelated columns. -/
example : ∃ order Bs, fitSamples none false ([groupA, groupB].map Group.toSample) 2 = .ok (order, Bs) ∧
    (∀ g ∈ [groupA, groupB].map Group.toSample, OlsRight 2 g) ∧
    ∀ (k : Nat) (g : Sample) (B : Nat → Nat → ℚ), ([groupA, groupB].map Group.toSample)[k]? = some g → Bs[k]? = some B →
      KeptAll 2 order g B ∨ LeavesNoise 2 g B := by
  obtain ⟨order, Bs, h, _, _, _, hB⟩ := C156_recovered (gs := [groupA, groupB]) (by simp [groupA_right, groupB_right])
    groups_compatible (fun _ _ pk h => by cases h)
  have key : ∀ (g : Group) (B : Nat → Nat → ℚ), GroupRight 2 g → (∀ i j, i < 2 → j < 2 → B i j = g.B i j) →
      LeavesNoise 2 g.toSample B := by
    intro g B hg hBe
    have hx : ∀ i, i < 2 → leftOver 2 B g.X i = g.e i := by
      intro i hi
      funext r
      unfold leftOver
      have e1 : ∑ j ∈ range 2, B i j * g.X j r = ∑ j ∈ range 2, g.B i j * g.X j r :=
        Finset.sum_congr rfl fun j hj => by rw [hBe i j hi (mem_range.1 hj)]
      rw [e1, hg.follows i (mem_range.2 hi) r]
      ring
    refine ⟨fun i j hi hj hij => ?_, fun i hi => ?_⟩
    · rw [hx i hi, hx j hj]; exact hg.errors.1 i j hi hj hij
    · rw [hx i hi]; exact hg.errors.2 i hi
  refine ⟨order, Bs, h, ?_, ?_⟩
  · intro g hg
    simp only [List.map_cons, List.map_nil, List.mem_cons, List.not_mem_nil, or_false] at hg
    rcases hg with rfl | rfl
    · exact groupA_right.regressions.1
    · exact groupB_right.regressions.1
  · intro k g B hg hBk
    rw [List.getElem?_map] at hg
    obtain ⟨g', hg', rfl⟩ := Option.map_eq_some_iff.1 hg
    obtain ⟨Bh, h1, h2⟩ := hB k g' hg'
    rw [hBk] at h1
    cases h1
    refine Or.inr (key g' B ?_ h2)
    have := List.mem_of_getElem? hg'
    simp only [List.mem_cons, List.not_mem_nil, or_false] at this
    rcases this with rfl | rfl
    · exact groupA_right
    · exact groupB_right

end Verif.MultiGroup
