import Verif.Spec.PooledHidden
import Verif.Proofs.CamGroups
import Verif.Props.RcdGroups
import Verif.Props.RcdHidden

/-!
# MultiGroupRCD with hidden causes (C196)
-/
set_option linter.unusedSectionVars false
set_option autoImplicit false
namespace Verif.MultiGroup
open Finset
open Rcd (Anc St body pass loop combos commonAncestors sinkSet others)
open Camuv (GroupAncestor)

section
variable {n : Nat} {gs : List Camuv.Pop} {t : Rcd.Tests}

/-- A pair is only ordered when the first variable is a cause of the second. -/
theorem hidden_sound (ho : Camuv.CommonOrder n gs) (ht : HiddenPooledTests n gs t) (H : Finset Nat) (i j : Nat)
    (hi : i < n) (hj : j < n) (hij : i ≠ j) (hHi : ∀ h ∈ H, GroupAncestor n gs h i) (hHj : ∀ h ∈ H, GroupAncestor n gs h j)
    (hcor : t.corr H i H j = true) (hind : t.indep H i [j] = true) : GroupAncestor n gs j i := by
  by_contra hna
  have hHn : H ⊆ range n := fun h hh => mem_range.2 (hHi h hh).lt_left
  obtain ⟨g, hg, r', s', hr', hs', hne⟩ := (ht.corr H i H j hHn hHn hi hj).1 hcor
  obtain ⟨y, r, hy, hr, hdis⟩ := (ht.indep H i [j] hHn hi (by simpa using hj)).1 hind g hg
  have hσ := (ho.valid g hg).2
  have hX := (ho.valid g hg).1
  have hjm : j < g.m := hj.trans_le hX.1
  have hyi := hy i (Or.inl rfl)
  have hyj := hy j (Or.inr (by simp))
  have hjj : y j j = 1 := ho.own hg hj hHj hyj
  have hij' : y i j = 0 := by
    obtain ⟨e, he, _⟩ := hyi
    rw [he j hjm, ho.zero hg hi hj hij hna, sum_eq_zero, sub_zero]
    intro h hh
    have hh' := hHj h hh
    rw [ho.zero hg hh'.lt_left hj (fun e => ho.acyclic j (e ▸ hh')) (fun e => ho.acyclic j (e.trans hh')), mul_zero]
  have hrj : r j = 0 := by
    rcases hdis j (by simp) j hjm with h | h
    · exact h
    · rw [hjj] at h; exact absurd h one_ne_zero
  obtain ⟨c, hc, _⟩ := hr
  have hrc : ∀ k, k < g.m → r k = y i k - c j * y j k := by
    intro k hk
    rw [hc k hk]; simp
  have hcj : c j = 0 := by
    have := hrc j hjm
    rw [hrj, hjj, hij'] at this
    linarith
  apply hne
  rw [popCov_congr (hr'.unique hσ hyi) (hs'.unique hσ hyj)]
  refine popCov_disjoint fun k hk => ?_
  rcases hdis j (by simp) k hk with h | h
  · rw [hrc k hk, hcj, zero_mul, sub_zero] at h
    exact Or.inl h
  · exact Or.inr h

theorem hidden_symm (ht : HiddenPooledTests n gs t) {H : Finset Nat} (hH : H ⊆ range n) {a b : Nat} (ha : a < n) (hb : b < n)
    (h : t.corr H a H b = true) : t.corr H b H a = true := by
  obtain ⟨g, hg, r, s, hr, hs, hne⟩ := (ht.corr H a H b hH hH ha hb).1 h
  exact (ht.corr H b H a hH hH hb ha).2 ⟨g, hg, s, r, hs, hr, by rwa [popCov_comm]⟩

theorem hidden_body (ho : Camuv.CommonOrder n gs) (ht : HiddenPooledTests n gs t) {s : St} (hs : Camuv.SoundG n gs s.M)
    {U : List Nat} (hU : U ∈ combos 2 (List.range n)) : Camuv.SoundG n gs (body t s U).M := by
  obtain ⟨a, b, rfl, hab, hbn⟩ := Rcd.pair_of_sublist hU
  have han : a < n := hab.trans hbn
  rcases Rcd.body_cases t s [a, b] with ⟨h, _⟩ | ⟨_, hcor, hM, _⟩
  · rw [h]; exact hs
  · rw [hM]
    intro i j hj
    rcases Rcd.mem_applySink.1 hj with h | ⟨hsk, hjU, hji⟩
    · exact hs i j h
    · have hi : i ∈ sinkSet t s.M (commonAncestors s.M [a, b]) [a, b] := by rw [hsk]; simp
      obtain ⟨hiU, _, hind⟩ := Rcd.mem_sinkSet.1 hi
      have hmem : ∀ h ∈ commonAncestors s.M [a, b], ∀ x ∈ [a, b], GroupAncestor n gs h x := by
        intro h hh x hx
        exact hs x h ((Rcd.mem_commonAncestors (by simp)).1 hh x hx)
      have hHn : commonAncestors s.M [a, b] ⊆ range n := fun h hh => mem_range.2 (hmem h hh a (by simp)).lt_left
      have hc : t.corr (commonAncestors s.M [a, b]) a (commonAncestors s.M [a, b]) b = true := by
        simpa [Rcd.allCorrelated, combos] using hcor
      have hoth := Rcd.others_pair hab.ne
      simp only [List.mem_cons, List.not_mem_nil, or_false] at hiU hjU
      rcases hiU with rfl | rfl <;> rcases hjU with rfl | rfl
      · exact absurd rfl hji
      · rw [hoth.1] at hind
        exact hidden_sound ho ht _ _ _ han hbn hab.ne (fun h hh => hmem h hh _ (by simp)) (fun h hh => hmem h hh _ (by simp))
          hc hind
      · rw [hoth.2] at hind
        exact hidden_sound ho ht _ _ _ hbn han hab.ne' (fun h hh => hmem h hh _ (by simp))
          (fun h hh => hmem h hh _ (by simp)) (hidden_symm ht hHn han hbn hc) hind
      · exact absurd rfl hji

theorem hidden_loop (ho : Camuv.CommonOrder n gs) (ht : HiddenPooledTests n gs t) :
    ∀ {fuel : Nat} {s : St} {M : Anc}, Camuv.SoundG n gs s.M → loop t n 1 fuel 1 s = some M → Camuv.SoundG n gs M
  | 0, _, _, _, h => by simp [loop] at h
  | fuel + 1, s, M, hs, h => by
    have hp : Camuv.SoundG n gs (pass t n 1 s).M :=
      Rcd.foldl_inv (P := fun s => Camuv.SoundG n gs s.M) (fun U hU s hs => hidden_body ho ht hs hU) _ hs
    unfold loop at h
    simp only at h
    split at h
    · exact hidden_loop ho ht hp h
    · rw [if_neg (lt_irrefl 1)] at h
      simp only [Option.some.injEq] at h
      rw [← h]; exact hp

/-- C196 (partial): hidden causes anywhere, different in every data set. With `max_explanatory_num = 1` every recorded
ancestor is a cause along edges that exist in some of the data sets, so a coefficient that is not 0 in any of the reported
matrices belongs to a cause, and the coefficients of all matrices together contain no directed cycle. Missing: larger
`max_explanatory_num`, where it fails (below). -/
theorem C196_pair_search_sound_partial (ho : Camuv.CommonOrder n gs) {c : RcdCfg} {ds : List RcdData}
    (ht : HiddenPooledTests n gs (rcdTests c ds)) {fuel : Nat} {M : Anc} {Bs : List (Nat → Nat → Option ℚ)}
    (h : rcdFit c ds n 1 fuel = some (M, Bs)) :
    (∀ i j, j ∈ M i → GroupAncestor n gs j i) ∧
      (∀ B ∈ Bs, ∀ a b, Rcd.Directed n B a b → GroupAncestor n gs a b) ∧
      Acyclic (fun a b => ∃ B ∈ Bs, Rcd.Directed n B a b) := by
  unfold rcdFit at h
  cases hM : Rcd.extractAncestors (rcdTests c ds) n 1 fuel with
  | none => simp [hM] at h
  | some M0 =>
    simp only [hM, Option.some.injEq, Prod.mk.injEq] at h
    obtain ⟨rfl, rfl⟩ := h
    have hs : Camuv.SoundG n gs M0 := hidden_loop ho ht (fun i j h => absurd h (by simp)) hM
    have hd : ∀ B ∈ ds.map (fun g => Rcd.adjacency g.coef n (Rcd.extractParents (rcdTests c ds) n M0)
        (Rcd.extractConfounded (rcdTests c ds) n (Rcd.extractParents (rcdTests c ds) n M0))),
        ∀ a b, Rcd.Directed n B a b → GroupAncestor n gs a b := by
      intro B hB a b ⟨ha, hb, v, hv, hv0⟩
      obtain ⟨d, _, rfl⟩ := List.mem_map.1 hB
      have hf : Rcd.fit (rcdTests c ds) d.coef n 1 fuel = some (M0, Rcd.adjacency d.coef n
          (Rcd.extractParents (rcdTests c ds) n M0)
          (Rcd.extractConfounded (rcdTests c ds) n (Rcd.extractParents (rcdTests c ds) n M0))) := by
        unfold Rcd.fit; rw [hM]
      exact hs b a ((Rcd.C26_matrix_structure (by omega) hf hb ha).2.2 v hv hv0).1
    refine ⟨hs, hd, fun i hi => ho.acyc_anc i ?_⟩
    exact Relation.TransGen.mono (fun a b ⟨B, hB, hab⟩ => hd B hB a b hab) i i hi

end

/-! ### Tests that are right exist -/

/-- p-values of one population with hidden causes: 0 where the null hypothesis is false, 1 where it is true. -/
def hidData (n : Nat) (g : Camuv.Pop) : RcdData where
  shapiro := fun _ _ => 0
  pearson := fun A a B b => if (Rcd.popTests n g.m g.σ g.X).corr A a B b then 0 else 1
  ols := fun H x l _ => if (Rcd.popTests n g.m g.σ g.X).indep H x l then 1 else 0
  mlhsicr := fun _ _ _ _ => 0
  coef := fun _ _ _ => 1

/-- C196: for any populations there are data for which the pooled tests are right. -/
theorem hiddenPooledTests_exist {n : Nat} {ps : List Camuv.Pop} (hv : ∀ g ∈ ps, g.Valid n) :
    HiddenPooledTests n ps (rcdTests popCfg (ps.map (hidData n))) := by
  refine ⟨?_, ?_⟩
  · intro P a Q b hP hQ ha hb
    simp only [rcdTests, List.map_map, fisher_pop, decide_eq_true_eq]
    have hlev : ∀ p : Prop, [Decidable p] → ((if p then (0 : ℚ) else 1) < popCfg.corAlpha ↔ p) := by
      intro p _
      unfold popCfg
      split
      · rename_i h; exact ⟨fun _ => h, fun _ => by norm_num⟩
      · rename_i h; exact ⟨fun hc => absurd hc (by norm_num), fun hc => absurd hc h⟩
    rw [hlev]
    simp only [List.mem_map, Function.comp_apply, hidData, ite_eq_left_iff, one_ne_zero, imp_false, Bool.not_eq_true,
      Bool.not_eq_false]
    refine exists_congr fun g => and_congr_right fun hg => ?_
    exact (Rcd.popTests_perfect (hv g hg).2 n g.X).corr P a Q b hP hQ ha hb
  · intro H x l hH hx hl
    have hlev : ∀ p : Prop, [Decidable p] → (popCfg.indAlpha < (if p then (0 : ℚ) else 1) ↔ ¬ p) := by
      intro p _
      unfold popCfg
      split
      · rename_i h; exact ⟨fun hc => absurd hc (by norm_num), fun hc => absurd h hc⟩
      · rename_i h; exact ⟨fun _ => h, fun _ => by norm_num⟩
    have hrw : ∀ g ∈ ps, ((Rcd.popTests n g.m g.σ g.X).indep H x l = true ↔
        ∃ y r, (∀ u, u = x ∨ u ∈ l → IsResidual g.m g.σ g.X H (g.X u) (y u)) ∧ IsResidual g.m g.σ y l.toFinset (y x) r ∧
        ∀ u ∈ l, ShareNoSource g.m r (y u)) := fun g hg =>
      (Rcd.popTests_perfect (hv g hg).2 n g.X).indep H x l hH hx hl
    have hone : ∀ y, rcdIndependent popCfg
        ((ps.map (hidData n)).map (fun g => g.ols H x l y)) = true ↔
        ∀ g ∈ ps, (Rcd.popTests n g.m g.σ g.X).indep H x l = true := by
      intro y
      unfold rcdIndependent
      rw [if_pos (show popCfg.hsic = true from rfl), decide_eq_true_eq, fisher_pop, hlev]
      simp only [List.map_map, List.mem_map, Function.comp_apply, hidData, not_exists, not_and]
      refine forall_congr' fun g => imp_congr_right fun _ => ?_
      cases (Rcd.popTests n g.m g.σ g.X).indep H x l <;> simp
    have hmain : (rcdTests popCfg (ps.map (hidData n))).indep H x l = true ↔
        ∀ g ∈ ps, (Rcd.popTests n g.m g.σ g.X).indep H x l = true := by
      simp only [rcdTests]
      rw [show popCfg.useMlhsicr = false from rfl, Bool.and_false, Bool.false_and, Bool.or_false, List.all_eq_true]
      cases l with
      | nil =>
        refine ⟨fun _ g hg => ?_, fun _ y hy => absurd hy (by simp)⟩
        rw [hrw g hg]
        choose y hy using fun u => exists_residual (hv g hg).2 g.X H (g.X u)
        obtain ⟨r, hr⟩ := exists_residual (hv g hg).2 y [].toFinset (y x)
        exact ⟨y, r, fun u _ => hy u, hr, fun u hu => absurd hu (by simp)⟩
      | cons u l =>
        constructor
        · intro h; exact (hone u).1 (h u (by simp))
        · intro h y _; exact (hone y).2 h
    rw [hmain]
    exact forall₂_congr hrw

/-! ### Concrete cases -/

/-- `1 → 2`, and a hidden cause (source 3) of 0 and 1. -/
def hidG : Camuv.Pop := ⟨4, Rcd.hidB, Rcd.hidL, Rcd.hidX, fun _ => 1⟩

/-- `1 → 2` with another coefficient, a hidden cause of 0 and 1 and one of 0 alone. -/
def hidG' : Camuv.Pop := ⟨5, Rcd.weights [(2, 1, 2)], Rcd.weights [(0, 3, 1), (1, 3, 1), (0, 4, 1)],
  Rcd.rows [[1, 0, 0, 1, 1], [0, 1, 0, 1], [0, 2, 1, 2]], fun _ => 1⟩

theorem hidG_order : Camuv.CommonOrder 3 [hidG, hidG'] := by
  refine ⟨?_, ?_⟩
  · intro g hg
    simp only [List.mem_cons, List.not_mem_nil, or_false] at hg
    rcases hg with rfl | rfl
    · exact ⟨Rcd.hid_model, fun _ _ => one_pos⟩
    · exact ⟨⟨by decide, by decide +kernel⟩, fun _ _ => one_pos⟩
  · intro i hi
    have hlt : ∀ a b, Camuv.GroupEdge 3 [hidG, hidG'] a b → a < b := by
      rintro a b ⟨g, hg, ha, hb, hw⟩
      have hw := abs_pos.1 hw
      have h1 : ∀ a, a < 3 → ∀ b, b < 3 → hidG.B b a ≠ 0 → a < b := by decide +kernel
      have h2 : ∀ a, a < 3 → ∀ b, b < 3 → hidG'.B b a ≠ 0 → a < b := by decide +kernel
      simp only [List.mem_cons, List.not_mem_nil, or_false] at hg
      rcases hg with rfl | rfl
      · exact h1 a ha b hb hw
      · exact h2 a ha b hb hw
    have : ∀ a b, Relation.TransGen (Camuv.GroupEdge 3 [hidG, hidG']) a b → a < b := by
      intro a b h
      induction h with
      | single h => exact hlt _ _ h
      | tail _ h ih => exact ih.trans (hlt _ _ h)
    exact lt_irrefl _ (this i i hi)

theorem hidG_not : ¬ GroupAncestor 3 [hidG, hidG'] 0 2 := by
  intro h
  have hkey : ∀ a b, Camuv.GroupEdge 3 [hidG, hidG'] a b → a = 1 := by
    rintro a b ⟨g, hg, ha, hb, hw⟩
    have hw := abs_pos.1 hw
    have h1 : ∀ a, a < 3 → ∀ b, b < 3 → hidG.B b a ≠ 0 → a = 1 := by decide +kernel
    have h2 : ∀ a, a < 3 → ∀ b, b < 3 → hidG'.B b a ≠ 0 → a = 1 := by decide +kernel
    simp only [List.mem_cons, List.not_mem_nil, or_false] at hg
    rcases hg with rfl | rfl
    · exact h1 a ha b hb hw
    · exact h2 a ha b hb hw
  rcases Relation.TransGen.head'_iff.1 h with ⟨b, hb, _⟩
  exact absurd (hkey 0 b hb) (by omega)

/-- C196: two data sets with hidden causes meet the hypotheses; the search finishes and records 1 as the cause of 2. -/
example : Camuv.CommonOrder 3 [hidG, hidG'] ∧
    HiddenPooledTests 3 [hidG, hidG'] (rcdTests popCfg [hidData 3 hidG, hidData 3 hidG']) ∧
    (rcdFit popCfg [hidData 3 hidG, hidData 3 hidG'] 3 1 20).map (fun r => (r.1 0, r.1 1, r.1 2)) =
      some (∅, ∅, {1}) :=
  ⟨hidG_order, hiddenPooledTests_exist hidG_order.valid, by decide +kernel⟩

/-- C196 (violated for the default `max_explanatory_num = 2`): two data sets with a hidden common cause of 0 and 1, right
tests, and 0 is recorded as an ancestor of 2 although it has no effect on 2 in either of them. -/
theorem C196_false_ancestor : ∃ M Bs, rcdFit popCfg [hidData 3 hidG, hidData 3 hidG'] 3 2 20 = some (M, Bs) ∧
    HiddenPooledTests 3 [hidG, hidG'] (rcdTests popCfg [hidData 3 hidG, hidData 3 hidG']) ∧
    Camuv.CommonOrder 3 [hidG, hidG'] ∧ 0 ∈ M 2 ∧ ¬ GroupAncestor 3 [hidG, hidG'] 0 2 := by
  have key : (rcdFit popCfg [hidData 3 hidG, hidData 3 hidG'] 3 2 20).map (fun r => r.1 2) = some {0, 1} := by
    decide +kernel
  cases hM : rcdFit popCfg [hidData 3 hidG, hidData 3 hidG'] 3 2 20 with
  | none => rw [hM] at key; cases key
  | some r =>
    rw [hM] at key
    simp only [Option.map_some, Option.some.injEq] at key
    exact ⟨r.1, r.2, rfl, hiddenPooledTests_exist hidG_order.valid, hidG_order, by rw [key]; simp, hidG_not⟩

end Verif.MultiGroup
