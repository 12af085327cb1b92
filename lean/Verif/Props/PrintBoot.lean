import Verif.Model.PrintBoot
import Verif.Props.Bootstrap
import Mathlib.Tactic.FieldSimp
import Mathlib.Tactic.LinearCombination
import Mathlib.Tactic.Linarith
import Mathlib.Data.Rat.Floor

/-!
# `print_causal_directions` and `print_dagc` (C207)
-/
set_option autoImplicit false
set_option linter.unusedSectionVars false
namespace Verif.PrintBoot
open Verif.Boot (Argsort Counts directionCounts dagCounts ValidParams SameDag Describes)

/-! ### What should be printed -/

/-- The line for one direction; `t` tenths of a percent. -/
def directionText (target source sgn : String) (t : Nat) : Text := s!"{target} <--- {source} {sgn} ({t / 10}.{t % 10}%)".toList

/-- The heading of a graph. -/
def dagText (i t : Nat) : Text := s!"DAG[{i}]: {t / 10}.{t % 10}%".toList

/-- The line for one edge of a graph. -/
def edgeText (target source sgn : String) : Text := s!"\t{target} <--- {source} {sgn}".toList

/-- The name of variable `k` without labels. -/
def xName (k : Nat) : String := s!"x{k}"

/-- The label of variable `k`. -/
def labelName (l : List String) (k : Nat) : String := l.getD k ""

/-- The names under which the variables below `m` are printed: `labels` is not given or empty, or a list with a label for each of them. -/
def Names (L : Labels) (m : Nat) (name : Nat → String) : Prop :=
  ((L = .none ∨ L = .list []) ∧ name = xName) ∨ ∃ l : List String, l ≠ [] ∧ m ≤ l.length ∧ L = .list (l.map String.toList) ∧ name = labelName l

/-- `t` is `a / n` in tenths of a percent, rounded. -/
def Share (a n t : Nat) : Prop := |(t : ℚ) - 1000 * a / n| ≤ 1 / 2

/-- `round x` is `x` rounded to tenths, in any way that errs by at most half a tenth. -/
def Rounds (round : ℚ → Nat) : Prop := ∀ x : ℚ, 0 ≤ x → |(round x : ℚ) - 10 * x| ≤ 1 / 2

/-- The text for a sign. -/
def sgnText (v : Int) : String := if 0 < v then "(b>0)" else "(b<0)"

/-! ### Lemmas -/

theorem toString_string (s : String) : toString s = s := rfl

theorem repr_toList (k : Nat) : (toString k).toList = digits k := by
  show (Nat.repr k).toList = _
  simp [Nat.repr, digits]

theorem directionText_eq (a b s : String) (t : Nat) : directionText a b s t =
    (a.toList ++ [' ', '<', '-', '-', '-', ' '] ++ b.toList ++ ' ' :: s.toList) ++ [' ', '('] ++
      (digits (t / 10) ++ '.' :: digits (t % 10) ++ ['%']) ++ [')'] := by
  simp [directionText, ← repr_toList, toString_string]

theorem dagText_eq (i t : Nat) : dagText i t =
    (['D', 'A', 'G', '['] ++ digits i ++ [']', ':', ' '] ++ (digits (t / 10) ++ '.' :: digits (t % 10) ++ ['%'])) := by
  simp [dagText, ← repr_toList, toString_string]

theorem edgeText_eq (a b s : String) : edgeText a b s =
    '\t' :: (a.toList ++ [' ', '<', '-', '-', '-', ' '] ++ b.toList ++ ' ' :: s.toList) := by
  simp [edgeText, toString_string]

theorem xName_eq (k : Nat) : (xName k).toList = 'x' :: digits k := by
  simp [xName, ← repr_toList, toString_string]

theorem truth_none {L : Labels} (h : L = .none ∨ L = .list []) : truth L = .ok false := by
  rcases h with rfl | rfl <;> rfl

theorem arrow_ok {L : Labels} {m : Nat} {name : Nat → String} (hL : Names L m name) {sign : Option (List Int)} {i fr tgt : Nat} {sg : String}
    (hs : signText sign i = .ok sg.toList) (hf : fr < m) (ht : tgt < m) :
    arrow L sign i fr tgt = .ok ((name tgt).toList ++ [' ', '<', '-', '-', '-', ' '] ++ (name fr).toList ++ ' ' :: sg.toList) := by
  rcases hL with ⟨h, rfl⟩ | ⟨l, hl, hm, rfl, rfl⟩
  · simp [arrow, hs, truth_none h, nameOf, xName_eq]
  · have h1 : truth (.list (l.map String.toList)) = .ok true := by
      cases l with
      | nil => exact absurd rfl hl
      | cons a l => rfl
    have h2 : ∀ k, k < m → labelAt (.list (l.map String.toList)) k = .ok (labelName l k).toList := by
      intro k hk
      have hk' : k < l.length := by omega
      simp [labelAt, labelName, hk']
    simp [arrow, hs, h1, nameOf, h2 _ hf, h2 _ ht]

theorem percent_ok {round : ℚ → Nat} {n : Nat} (hn : n ≠ 0) (co : Nat) : percent round co n =
    .ok (digits (round (100 * co / n) / 10) ++ '.' :: digits (round (100 * co / n) % 10) ++ ['%']) := by
  rw [percent, if_neg hn]

theorem share_round {round : ℚ → Nat} (hr : Rounds round) (a n : Nat) : Share a n (round (100 * a / n)) := by
  have := hr (100 * a / n) (by positivity)
  unfold Share
  rwa [show (10 : ℚ) * (100 * a / n) = 1000 * a / n by ring] at this

/-- With fewer than 2000 samples, 100.0% means all and 0.0% means none. -/
theorem share_all {a n t : Nat} (h : Share a n t) (ha : a ≤ n) (hn : 0 < n) (h2 : n < 2000) : (t = 1000 ↔ a = n) ∧ (t = 0 ↔ a = 0) := by
  have hq : (0 : ℚ) < n := by exact_mod_cast hn
  have h2' : (n : ℚ) < 2000 := by exact_mod_cast h2
  obtain ⟨l, u⟩ := abs_le.1 h
  have e : (1000 * (a : ℚ) / n) * n = 1000 * a := by field_simp
  set y := 1000 * (a : ℚ) / n
  constructor
  · constructor
    · rintro rfl
      by_contra hne
      have : (a : ℚ) + 1 ≤ n := by exact_mod_cast (by omega : a + 1 ≤ n)
      push_cast at u l
      nlinarith
    · rintro rfl
      have hy : y = 1000 := by
        have : (y - 1000) * a = 0 := by linear_combination e
        rcases mul_eq_zero.1 this with h | h
        · linarith
        · exact absurd h hq.ne'
      rw [hy] at l u
      have l' : (999 : ℚ) < t := by linarith
      have u' : (t : ℚ) < 1001 := by linarith
      have : 999 < t := by exact_mod_cast l'
      have : t < 1001 := by exact_mod_cast u'
      omega
  · constructor
    · rintro rfl
      by_contra hne
      have : (1 : ℚ) ≤ a := by exact_mod_cast (by omega : 1 ≤ a)
      push_cast at u l
      nlinarith
    · rintro rfl
      have hy : y = 0 := by simp [y]
      rw [hy] at l u
      have u' : (t : ℚ) < 1 := by linarith
      have : t < 1 := by exact_mod_cast u'
      omega

theorem directionLines_ok {round : ℚ → Nat} (hr : Rounds round) {n : Nat} (hn : n ≠ 0) {L : Labels} {m : Nat} {name : Nat → String}
    (hL : Names L m name) {sign : Option (List Int)} (sg : Nat → String) : ∀ (rows : List (Nat × Nat × Nat)) (i : Nat),
    (∀ x ∈ rows, x.1 < m ∧ x.2.1 < m) → (∀ j, j < rows.length → signText sign (i + j) = .ok (sg (i + j)).toList) →
    ∃ lines, directionLines round n L sign i rows = .ok lines ∧ lines.length = rows.length ∧
      ∀ (j : Nat) x line, rows[j]? = some x → lines[j]? = some line → ∃ t, Share x.2.2 n t ∧ line = directionText (name x.2.1) (name x.1) (sg (i + j)) t
  | [], _, _, _ => ⟨[], rfl, rfl, by simp⟩
  | (fr, tgt, co) :: rows, i, hb, hs => by
    obtain ⟨ls, h1, h2, h3⟩ := directionLines_ok hr hn hL sg rows (i + 1) (fun x hx => hb x (by simp [hx])) fun j hj => by
      have := hs (j + 1) (by simpa using hj)
      rwa [show i + (j + 1) = i + 1 + j by omega] at this
    have hb0 := hb (fr, tgt, co) (by simp)
    have ha := arrow_ok hL (hs 0 (by simp)) hb0.1 hb0.2
    simp only [Nat.add_zero] at ha
    refine ⟨directionText (name tgt) (name fr) (sg i) (round (100 * co / n)) :: ls, ?_, by simp [h2], ?_⟩
    · rw [directionLines, ha, percent_ok hn, h1, directionText_eq]
    · intro j x line hx hline
      cases j with
      | zero =>
        simp only [List.getElem?_cons_zero, Option.some.injEq] at hx hline
        subst hx hline
        exact ⟨_, share_round hr co n, rfl⟩
      | succ j =>
        simp only [List.getElem?_cons_succ] at hx hline
        obtain ⟨t, k1, k2⟩ := h3 j x line hx hline
        exact ⟨t, k1, by rw [k2, show i + 1 + j = i + (j + 1) by omega]⟩

theorem toNat_map (l : List Nat) : (l.map fun x => (x : Int)).map Int.toNat = l := by
  induction l with
  | nil => rfl
  | cons a l ih => simpa using ih

theorem zip3 {α : Type} (f g h : α → Nat) (rows : List α) :
    (rows.map f).zip ((rows.map g).zip (rows.map h)) = rows.map fun x => (f x, g x, h x) := by
  induction rows with
  | nil => rfl
  | cons x l ih => simp [ih]

/-! ### The properties -/

/-- Printing what `get_causal_direction_counts` returned. -/
def printCounts (round : ℚ → Nat) (n : Nat) (L : Labels) (d : Counts) : Except Err (List Text) :=
  printDirections round n L (d.src.map Int.toNat) (d.dst.map Int.toNat) d.count d.sign

/-- **C207.** For direction counts of a bootstrap result, one line is printed per direction, in the order of the counts: target, source and the
share of the samples that contain the direction, rounded to tenths of a percent.  With fewer than 2000 samples, 100.0% is printed exactly
for the directions found in every sample, and 0.0% never. -/
theorem C207_directions_partial (as : Argsort) (r c : Nat) {ms : List Sample} (hms : ms ≠ []) {k : Option Int} {thr : Option ℚ}
    (hv : ValidParams k thr) {round : ℚ → Nat} (hr : Rounds round) {L : Labels} {name : Nat → String} (hL : Names L (max r c) name) :
    ∃ d lines, directionCounts as r c ms k thr false = .ok d ∧ printCounts round ms.length L d = .ok lines ∧
      lines.length = d.src.length ∧
      (∀ (q : Nat) (line : Text), lines[q]? = some line → ∃ i j t, i < r ∧ j < c ∧ d.src[q]? = some (j : Int) ∧ d.dst[q]? = some (i : Int) ∧
        line = directionText (name i) (name j) "" t ∧ Share (occ ms (thr.getD 0) i j) ms.length t ∧
        (ms.length < 2000 → t ≠ 0 ∧ (t = 1000 ↔ ∀ m ∈ ms, thr.getD 0 < |(m i j).getD 0|))) ∧
      (k = none → ∀ i j, i < r → j < c → (∃ m ∈ ms, thr.getD 0 < |(m i j).getD 0|) →
        ∃ t, directionText (name i) (name j) "" t ∈ lines) := by
  obtain ⟨rows, h1, -, h3, -, h5, -⟩ := Boot.C16_direction_counts as r c hms hv
  have hn : ms.length ≠ 0 := by simpa using hms
  obtain ⟨lines, p1, p2, p3⟩ := directionLines_ok hr hn hL (sign := none) (fun _ => "") rows 0
    (fun x hx => ⟨lt_max_of_lt_right (h3 x hx).1, lt_max_of_lt_left (h3 x hx).2.1⟩) fun j _ => rfl
  refine ⟨_, lines, h1, ?_, by simp [p2], ?_, ?_⟩
  · rw [printCounts, printDirections]
    simp only [List.map_map]
    have e1 : rows.map (Int.toNat ∘ fun x => (x.1 : Int)) = rows.map fun x => x.1 := List.map_congr_left fun x _ => by simp
    have e2 : rows.map (Int.toNat ∘ fun x => (x.2.1 : Int)) = rows.map fun x => x.2.1 := List.map_congr_left fun x _ => by simp
    rw [e1, e2, zip3]
    simpa using p1
  · intro q line hq
    have hlt : q < rows.length := by rw [← p2]; exact (List.getElem?_eq_some_iff.1 hq).1
    have hx : rows[q]? = some rows[q] := List.getElem?_eq_getElem hlt
    obtain ⟨t, k1, k2⟩ := p3 q _ line hx hq
    obtain ⟨b1, b2, b3, b4⟩ := h3 rows[q] (List.getElem_mem hlt)
    refine ⟨rows[q].2.1, rows[q].1, t, b2, b1, by simp [hx], by simp [hx], k2, b3 ▸ k1, fun h2 => ?_⟩
    rw [b3] at k1
    obtain ⟨s1, s2⟩ := share_all k1 List.countP_le_length (by omega) h2
    refine ⟨fun h0 => ?_, s1.trans ?_⟩
    · have := s2.1 h0
      omega
    · unfold occ
      rw [List.countP_eq_length]
      simp
  · rintro hk i j hi hj ⟨m, hm, hmt⟩
    have hpos : 0 < occ ms (thr.getD 0) i j := List.countP_pos_iff.2 ⟨m, hm, by simpa using hmt⟩
    obtain ⟨q, hq, hq'⟩ := List.getElem_of_mem (h5 hk i j hi hj hpos)
    have hql : q < lines.length := by omega
    obtain ⟨t, -, k2⟩ := p3 q _ lines[q] (List.getElem?_eq_some_iff.2 ⟨hq, hq'⟩) (List.getElem?_eq_getElem hql)
    exact ⟨t, by rw [← k2]; exact List.getElem_mem hql⟩

/-- **C207.** With `split_by_causal_effect_sign=True`: a line per direction and sign. -/
theorem C207_signed (as : Argsort) (r c : Nat) {ms : List Sample} (hms : ms ≠ []) {k : Option Int} {thr : Option ℚ}
    (hv : ValidParams k thr) {round : ℚ → Nat} (hr : Rounds round) {L : Labels} {name : Nat → String} (hL : Names L (max r c) name) :
    ∃ d lines, directionCounts as r c ms k thr true = .ok d ∧ printCounts round ms.length L d = .ok lines ∧
      lines.length = d.src.length ∧
      (∀ (q : Nat) (line : Text), lines[q]? = some line → ∃ i j t, i < r ∧ j < c ∧ d.src[q]? = some (j : Int) ∧ d.dst[q]? = some (i : Int) ∧
        ((line = directionText (name i) (name j) "(b>0)" t ∧ Share (occPos ms (thr.getD 0) i j) ms.length t) ∨
         (line = directionText (name i) (name j) "(b<0)" t ∧ Share (occNeg ms (thr.getD 0) i j) ms.length t))) ∧
      (k = none → ∀ i j, i < r → j < c →
        ((∃ m ∈ ms, thr.getD 0 < (m i j).getD 0) → ∃ t, directionText (name i) (name j) "(b>0)" t ∈ lines) ∧
        ((∃ m ∈ ms, (m i j).getD 0 < - thr.getD 0) → ∃ t, directionText (name i) (name j) "(b<0)" t ∈ lines)) := by
  obtain ⟨rows, h1, -, h3, -, h5, -⟩ := Boot.C17_signed_direction_counts as r c hms hv
  have hn : ms.length ≠ 0 := by simpa using hms
  have hsg : ∀ (q : Nat) (x : Nat × Nat × Int × Nat), rows[q]? = some x → (rows.map fun x => x.2.2.1)[q]? = some x.2.2.1 := by
    intro q x hx; simp [hx]
  let sg : Nat → String := fun q => sgnText ((rows.map fun x => x.2.2.1).getD q 0)
  obtain ⟨lines, p1, p2, p3⟩ := directionLines_ok hr hn hL (sign := some (rows.map fun x => x.2.2.1)) sg
    (rows.map fun x => (x.1, x.2.1, x.2.2.2)) 0
    (by
      intro y hy
      obtain ⟨x, hx, rfl⟩ := List.mem_map.1 hy
      exact ⟨lt_max_of_lt_right (h3 x hx).1, lt_max_of_lt_left (h3 x hx).2.1⟩) (by
      intro j hj
      have hj' : j < rows.length := by simpa using hj
      simp only [Nat.zero_add, sg, signText, List.getD_eq_getElem?_getD, hsg j _ (List.getElem?_eq_getElem hj'), Option.getD_some, sgnText]
      by_cases hp : 0 < rows[j].2.2.1
      · rw [if_pos hp, if_pos hp]; rfl
      · rw [if_neg hp, if_neg hp]; rfl)
  have p2' : lines.length = rows.length := by simpa using p2
  have key : ∀ (q : Nat) (x : Nat × Nat × Int × Nat), rows[q]? = some x → ∀ line, lines[q]? = some line → ∃ t, Share x.2.2.2 ms.length t ∧
      line = directionText (name x.2.1) (name x.1) (sgnText x.2.2.1) t := by
    intro q x hx line hq
    obtain ⟨t, k1, k2⟩ := p3 q (x.1, x.2.1, x.2.2.2) line (by simp [hx]) hq
    refine ⟨t, k1, ?_⟩
    rw [k2]
    simp only [Nat.zero_add, sg, List.getD_eq_getElem?_getD, hsg q x hx, Option.getD_some]
  refine ⟨_, lines, h1, ?_, by simp [p2'], ?_, ?_⟩
  · rw [printCounts, printDirections]
    simp only [List.map_map]
    have e1 : rows.map (Int.toNat ∘ fun x => (x.1 : Int)) = rows.map fun x => x.1 := List.map_congr_left fun x _ => by simp
    have e2 : rows.map (Int.toNat ∘ fun x => (x.2.1 : Int)) = rows.map fun x => x.2.1 := List.map_congr_left fun x _ => by simp
    rw [e1, e2, zip3]
    exact p1
  · intro q line hq
    have hlt : q < rows.length := by rw [← p2']; exact (List.getElem?_eq_some_iff.1 hq).1
    have hx : rows[q]? = some rows[q] := List.getElem?_eq_getElem hlt
    obtain ⟨t, k1, k2⟩ := key q _ hx line hq
    obtain ⟨b1, b2, b3, b4⟩ := h3 rows[q] (List.getElem_mem hlt)
    refine ⟨rows[q].2.1, rows[q].1, t, b2, b1, by simp [hx], by simp [hx], ?_⟩
    rcases b4 with ⟨s1, s2⟩ | ⟨s1, s2⟩
    · left; rw [s1] at k2; rw [s2] at k1; exact ⟨k2, k1⟩
    · right; rw [s1, show sgnText (-1) = "(b<0)" by simp [sgnText]] at k2; rw [s2] at k1; exact ⟨k2, k1⟩
  · intro hk i j hi hj
    have hmem : ∀ v co, (j, i, v, co) ∈ rows → ∃ t, directionText (name i) (name j) (sgnText v) t ∈ lines := by
      intro v co h
      obtain ⟨q, hq, hq'⟩ := List.getElem_of_mem h
      have hql : q < lines.length := by omega
      obtain ⟨t, -, k2⟩ := key q _ (List.getElem?_eq_some_iff.2 ⟨hq, hq'⟩) lines[q] (List.getElem?_eq_getElem hql)
      exact ⟨t, by rw [← k2]; exact List.getElem_mem hql⟩
    constructor
    · rintro ⟨m, hm, hmt⟩
      rw [show "(b>0)" = sgnText 1 from rfl]
      exact hmem 1 _ ((h5 hk i j hi hj).1 (List.countP_pos_iff.2 ⟨m, hm, by simpa using hmt⟩))
    · rintro ⟨m, hm, hmt⟩
      rw [show "(b<0)" = sgnText (-1) from by simp [sgnText]]
      exact hmem (-1) _ ((h5 hk i j hi hj).2 (List.countP_pos_iff.2 ⟨m, hm, by simpa using hmt⟩))

theorem edgeLines_ok {L : Labels} {m : Nat} {name : Nat → String} (hL : Names L m name) {sign : Option (List Int)} (sg : Nat × Nat → String) :
    ∀ (E : List (Nat × Nat)) (j : Nat), (∀ e ∈ E, e.1 < m ∧ e.2 < m) →
    (∀ (q : Nat) (e : Nat × Nat), E[q]? = some e → signText sign (j + q) = .ok (sg e).toList) →
    edgeLines L sign j ((E.map Prod.snd).zip (E.map Prod.fst)) = .ok (E.map fun e => edgeText (name e.1) (name e.2) (sg e))
  | [], _, _, _ => rfl
  | (tgt, fr) :: E, j, hb, hs => by
    have ih := edgeLines_ok hL sg E (j + 1) (fun x hx => hb x (by simp [hx])) fun q e he => by
      have := hs (q + 1) e (by simpa using he)
      rwa [show j + (q + 1) = j + 1 + q by omega] at this
    have hb0 := hb (tgt, fr) List.mem_cons_self
    have hs0 : signText sign j = .ok (sg (tgt, fr)).toList := hs 0 (tgt, fr) rfl
    have ha := arrow_ok hL hs0 hb0.2 hb0.1
    simp only [List.map_cons, List.zip_cons_cons]
    rw [edgeLines, ha]
    simp only
    rw [ih, edgeText_eq]

theorem dagLines_ok {round : ℚ → Nat} (hr : Rounds round) {n : Nat} (hn : n ≠ 0) {L : Labels} (es : Boot.Dag → List Text) :
    ∀ (ds : List (Boot.Dag × Nat)) (i : Nat), (∀ d ∈ ds, edgeLines L d.1.sign 0 (d.1.src.zip d.1.dst) = .ok (es d.1)) →
    ∃ blocks : List (List Text), dagLines round n L i (ds.map fun d => ((d.1.src, d.1.dst, d.1.sign), d.2)) = .ok blocks.flatten ∧
      blocks.length = ds.length ∧ ∀ (q : Nat) d block, ds[q]? = some d → blocks[q]? = some block →
        ∃ t, Share d.2 n t ∧ block = dagText (i + q) t :: es d.1
  | [], _, _ => ⟨[], rfl, rfl, by simp⟩
  | d :: ds, i, he => by
    obtain ⟨bs, h1, h2, h3⟩ := dagLines_ok hr hn es ds (i + 1) fun x hx => he x (by simp [hx])
    refine ⟨(dagText i (round (100 * d.2 / n)) :: es d.1) :: bs, ?_, by simp [h2], ?_⟩
    · rw [List.map_cons, dagLines, percent_ok hn, he d (by simp), h1, dagText_eq]
      rfl
    · intro q x block hx hb
      cases q with
      | zero =>
        simp only [List.getElem?_cons_zero, Option.some.injEq] at hx hb
        subst hx hb
        exact ⟨_, share_round hr _ n, rfl⟩
      | succ q =>
        simp only [List.getElem?_cons_succ] at hx hb
        obtain ⟨t, k1, k2⟩ := h3 q x block hx hb
        exact ⟨t, k1, by rw [k2, show i + 1 + q = i + (q + 1) by omega]⟩

/-- Printing what `get_directed_acyclic_graph_counts` returned. -/
def printDagCounts (round : ℚ → Nat) (n : Nat) (L : Labels) (d : List Boot.Dag × List Nat) : Except Err (List Text) :=
  printDags round n L (d.1.map fun g => (g.src, g.dst, g.sign)) d.2

/-- The text for the sign of an edge of the sample `m`. -/
def edgeSign (split : Bool) (m : Sample) (e : Nat × Nat) : String :=
  if split then (if 0 < (m e.1 e.2).getD 0 then "(b>0)" else "(b<0)") else ""

theorem edgeLines_describes {split : Bool} {r c : Nat} {thr : ℚ} {m : Sample} {d : Boot.Dag} (h : Describes split r c thr m d)
    {L : Labels} {name : Nat → String} (hL : Names L (max r c) name) :
    ∃ E : List (Nat × Nat), E.Nodup ∧ (∀ i j, (i, j) ∈ E ↔ i < r ∧ j < c ∧ thr < |(m i j).getD 0|) ∧
      edgeLines L d.sign 0 (d.src.zip d.dst) = .ok (E.map fun e => edgeText (name e.1) (name e.2) (edgeSign split m e)) := by
  obtain ⟨E, h1, h2, h3, h4, h5⟩ := h
  refine ⟨E, h1, h2, ?_⟩
  rw [h3, h4, h5]
  refine edgeLines_ok hL (edgeSign split m) E 0 (fun e he => ?_) fun q e he => ?_
  · obtain ⟨a, b, -⟩ := (h2 e.1 e.2).1 he
    exact ⟨lt_max_of_lt_left a, lt_max_of_lt_right b⟩
  · cases split with
    | false => rfl
    | true =>
      have : (E.map fun p => if 0 < (m p.1 p.2).getD 0 then (1 : Int) else -1)[q]? =
          some (if 0 < (m e.1 e.2).getD 0 then (1 : Int) else -1) := by simp [he]
      simp only [if_true, signText, Nat.zero_add, this, edgeSign]
      by_cases hp : 0 < (m e.1 e.2).getD 0
      · rw [if_pos hp, if_pos hp]; rfl
      · rw [if_neg hp, if_neg hp]; rfl

/-- **C207.** For graph counts of a bootstrap result: the graphs are printed in the order of the counts, numbered from 0, each with the share
of the samples with this graph and one line for each of its edges; no graph is printed twice and, if `n_dags` is not given, every sample's
graph is printed. -/
theorem C207_dags (as : Argsort) (r c : Nat) {ms : List Sample} (hms : ms ≠ []) {k : Option Int} {thr : Option ℚ}
    (hv : ValidParams k thr) (split : Bool) {round : ℚ → Nat} (hr : Rounds round) {L : Labels} {name : Nat → String}
    (hL : Names L (max r c) name) :
    ∃ d, ∃ graphs : List Sample, ∃ blocks : List (List Text), dagCounts as r c ms k thr split = .ok d ∧
      printDagCounts round ms.length L d = .ok blocks.flatten ∧ blocks.length = graphs.length ∧
      (∀ g ∈ graphs, g ∈ ms) ∧ graphs.Pairwise (fun g g' => ¬ SameDag split r c (thr.getD 0) g g') ∧
      (k = none → ∀ m ∈ ms, ∃ g ∈ graphs, SameDag split r c (thr.getD 0) m g) ∧
      ∀ (q : Nat) g block, graphs[q]? = some g → blocks[q]? = some block → ∃ t, ∃ E : List (Nat × Nat),
        block = dagText q t :: E.map (fun e => edgeText (name e.1) (name e.2) (edgeSign split g e)) ∧
        Share (numWhere ms fun m => SameDag split r c (thr.getD 0) m g) ms.length t ∧
        (ms.length < 2000 → t ≠ 0 ∧ (t = 1000 ↔ ∀ m ∈ ms, SameDag split r c (thr.getD 0) m g)) ∧
        E.Nodup ∧ ∀ i j, (i, j) ∈ E ↔ i < r ∧ j < c ∧ thr.getD 0 < |(g i j).getD 0| := by
  classical
  obtain ⟨reps, h1, h2, h3, -, h5, -⟩ := Boot.C18_dag_counts as r c ms hv split
  have hn : ms.length ≠ 0 := by simpa using hms
  have hE : ∀ d : Boot.Dag, ∃ es, ∀ m, Describes split r c (thr.getD 0) m d → edgeLines L d.sign 0 (d.src.zip d.dst) = .ok es := by
    intro d
    by_cases hd : ∃ m, Describes split r c (thr.getD 0) m d
    · obtain ⟨m, hm⟩ := hd
      obtain ⟨E, -, -, e⟩ := edgeLines_describes hm hL
      exact ⟨_, fun _ _ => e⟩
    · exact ⟨[], fun m hm => absurd ⟨m, hm⟩ hd⟩
  choose es hes using hE
  obtain ⟨blocks, b1, b2, b3⟩ := dagLines_ok hr hn (L := L) es (reps.map fun x => (x.2.1, x.2.2)) 0 (by
    intro d hd
    obtain ⟨x, hx, rfl⟩ := List.mem_map.1 hd
    exact hes _ x.1 (h2 x hx).2.1)
  refine ⟨_, reps.map fun x => x.1, blocks, h1, ?_, by simpa using b2, ?_, ?_, ?_, ?_⟩
  · rw [printDagCounts, printDags]
    rw [← b1]
    congr 1
    simp only [List.map_map]
    clear h1 h2 h3 h5 b1 b2 b3
    induction reps with
    | nil => rfl
    | cons x l ih => simp only [List.map_cons, List.zip_cons_cons, ih]; rfl
  · intro g hg
    obtain ⟨x, hx, rfl⟩ := List.mem_map.1 hg
    exact (h2 x hx).1
  · exact List.pairwise_map.2 h3
  · intro hk m hm
    obtain ⟨x, hx, h⟩ := (h5 hk).1 m hm
    exact ⟨x.1, List.mem_map.2 ⟨x, hx, rfl⟩, h⟩
  · intro q g block hg hb
    rw [List.getElem?_map, Option.map_eq_some_iff] at hg
    obtain ⟨x, hx, rfl⟩ := hg
    obtain ⟨t, k1, k2⟩ := b3 q (x.2.1, x.2.2) block (by simp [hx]) hb
    have hxm : x ∈ reps := List.mem_of_getElem? hx
    obtain ⟨c1, c2, c3, c4⟩ := h2 x hxm
    obtain ⟨E, e1, e2, e3⟩ := edgeLines_describes c2 hL
    rw [hes _ x.1 c2] at e3
    simp only at k1
    rw [c3] at k1 c4
    refine ⟨t, E, ?_, k1, fun hlt => ?_, e1, e2⟩
    · rw [k2, Nat.zero_add]
      exact congrArg _ (Except.ok.inj e3)
    · obtain ⟨s1, s2⟩ := share_all k1 List.countP_le_length (by omega) hlt
      refine ⟨fun h0 => by have := s2.1 h0; omega, s1.trans ?_⟩
      unfold numWhere
      rw [List.countP_eq_length]
      simp

/-! ### Reading the lines -/

theorem split_at {a : Char} : ∀ {x y z w : Text}, a ∉ x → a ∉ z → x ++ a :: y = z ++ a :: w → x = z ∧ y = w
  | [], _, [], _, _, _, h => ⟨rfl, by simpa using h⟩
  | [], _, c :: z, _, _, hz, h => by
    simp only [List.nil_append, List.cons_append, List.cons.injEq] at h
    exact absurd (by simp [h.1]) hz
  | c :: x, _, [], _, hx, _, h => by
    simp only [List.nil_append, List.cons_append, List.cons.injEq] at h
    exact absurd (by simp [h.1]) hx
  | c :: x, y, d :: z, w, hx, hz, h => by
    simp only [List.cons_append, List.cons.injEq] at h
    obtain ⟨e1, e2⟩ := split_at (fun hm => hx (by simp [hm])) (fun hm => hz (by simp [hm])) h.2
    exact ⟨by rw [h.1, e1], e2⟩

theorem digits_inj {a b : Nat} (h : digits a = digits b) : a = b := by
  have := congrArg (fun l => Nat.ofDigitChars 10 l 0) h
  simpa [digits, Nat.ofDigitChars_ten_toDigits] using this

theorem not_mem_digits {c : Char} (hc : c.isDigit = false) (k : Nat) : c ∉ digits k := by
  intro h
  have := Nat.isDigit_of_mem_toDigits (by norm_num) (by norm_num) h
  simp [hc] at this

/-- **C207.** A printed line can be read back: if no name contains a blank, the names, the sign and the percentage are those printed. -/
theorem C207_readable {a b s a' b' s' : String} {t t' : Nat} (ha : ' ' ∉ a.toList) (ha' : ' ' ∉ a'.toList) (hb : ' ' ∉ b.toList)
    (hb' : ' ' ∉ b'.toList) (hs : s ∈ ["", "(b>0)", "(b<0)"]) (hs' : s' ∈ ["", "(b>0)", "(b<0)"])
    (h : directionText a b s t = directionText a' b' s' t') : a = a' ∧ b = b' ∧ s = s' ∧ t = t' := by
  have hsb : ∀ s : String, s ∈ ["", "(b>0)", "(b<0)"] → ' ' ∉ s.toList := by
    intro s hs
    simp only [List.mem_cons, List.not_mem_nil, or_false] at hs
    rcases hs with rfl | rfl | rfl <;> decide
  rw [directionText_eq, directionText_eq] at h
  simp only [List.append_assoc, List.cons_append, List.nil_append] at h
  obtain ⟨h1, h⟩ := split_at ha ha' h
  simp only [List.cons.injEq, true_and] at h
  obtain ⟨h2, h⟩ := split_at hb hb' h
  obtain ⟨h3, h⟩ := split_at (hsb s hs) (hsb s' hs') h
  simp only [List.cons.injEq, true_and] at h
  obtain ⟨h4, h⟩ := split_at (not_mem_digits (by decide) _) (not_mem_digits (by decide) _) h
  obtain ⟨h5, -⟩ := split_at (not_mem_digits (by decide) _) (not_mem_digits (by decide) _) h
  have := digits_inj h4
  have := digits_inj h5
  exact ⟨String.toList_inj.1 h1, String.toList_inj.1 h2, String.toList_inj.1 h3, by omega⟩

theorem xName_inj {i j : Nat} (h : xName i = xName j) : i = j := by
  have := congrArg String.toList h
  rw [xName_eq, xName_eq, List.cons.injEq] at this
  exact digits_inj this.2

theorem xName_no_blank (k : Nat) : ' ' ∉ (xName k).toList := by
  rw [xName_eq]
  intro h
  rcases List.mem_cons.1 h with h | h
  · exact absurd h (by decide)
  · exact not_mem_digits (by decide) k h

/-- **C207.** Without labels, different directions are printed differently. -/
theorem C207_readable_numbers {i j i' j' t t' : Nat} (h : directionText (xName i) (xName j) "" t = directionText (xName i') (xName j') "" t') :
    i = i' ∧ j = j' ∧ t = t' := by
  obtain ⟨h1, h2, -, h4⟩ := C207_readable (xName_no_blank _) (xName_no_blank _) (xName_no_blank _) (xName_no_blank _)
    (by simp) (by simp) h
  exact ⟨xName_inj h1, xName_inj h2, h4⟩

/-! ### What is refused -/

/-- **C207 (violated).** Labels given as an array or as the columns of a data frame, array-like as documented, are refused as soon as there is
a direction to print. -/
theorem C207_array_labels (round : ℚ → Nat) (n : Nat) {l : List Text} (hl : l.length ≠ 1) {fr tgt co : Nat} {src dst count : List Nat} :
    printDirections round n (.array l) (fr :: src) (tgt :: dst) (co :: count) none = .error .value := by
  have ht : truth (.array l) = .error .value := by
    rcases l with _ | ⟨a, _ | ⟨b, l⟩⟩
    · rfl
    · exact absurd rfl hl
    · rfl
  simp [printDirections, directionLines, arrow, signText, ht]

/-- **C207 (violated).** An array with a single label is refused too (unless that label is empty, which counts as no labels): a direction
has two endpoints. -/
theorem C207_array_of_one (round : ℚ → Nat) (n : Nat) {s : Text} {fr tgt co : Nat} {src dst count : List Nat} (h : fr ≠ tgt) :
    (s ≠ [] → printDirections round n (.array [s]) (fr :: src) (tgt :: dst) (co :: count) none = .error .index) ∧
      (s = [] → printDirections round n (.array [s]) [fr] [tgt] [co] none = printDirections round n .none [fr] [tgt] [co] none) := by
  constructor
  · intro hs
    have ht : truth (.array [s]) = .ok true := by
      cases s with
      | nil => exact absurd rfl hs
      | cons a l => rfl
    rcases tgt with _ | tgt
    · obtain ⟨fr, rfl⟩ := Nat.exists_eq_succ_of_ne_zero h
      simp [printDirections, directionLines, arrow, signText, ht, nameOf, labelAt]
    · simp [printDirections, directionLines, arrow, signText, ht, nameOf, labelAt]
  · rintro rfl
    have ht : truth (.array [[]]) = .ok false := rfl
    have ht' : truth .none = .ok false := rfl
    simp [printDirections, directionLines, arrow, signText, ht, ht', nameOf]

/-- **C207.** A list with too few labels is refused as soon as the first direction has an endpoint without a label. -/
theorem C207_too_few_labels (round : ℚ → Nat) (n : Nat) {l : List Text} (hl : l ≠ []) {fr tgt co : Nat} {src dst count : List Nat}
    (h : l.length ≤ fr ∨ l.length ≤ tgt) :
    printDirections round n (.list l) (fr :: src) (tgt :: dst) (co :: count) none = .error .index := by
  have ht : truth (.list l) = .ok true := by
    cases l with
    | nil => exact absurd rfl hl
    | cons a l => rfl
  have hidx : ∀ k, l.length ≤ k → labelAt (.list l) k = .error .index := by
    intro k hk
    simp [labelAt, List.getElem?_eq_none hk]
  by_cases h2 : l.length ≤ tgt
  · simp [printDirections, directionLines, arrow, signText, ht, nameOf, hidx tgt h2]
  · have h1 : l.length ≤ fr := by omega
    have : labelAt (.list l) tgt = .ok l[tgt] := by simp [labelAt, List.getElem?_eq_getElem (show tgt < l.length by omega)]
    simp [printDirections, directionLines, arrow, signText, ht, nameOf, hidx fr h1, this]

/-- A rounding that satisfies the hypothesis. -/
theorem rounds_floor : Rounds fun x => ⌊10 * x + 1 / 2⌋.toNat := by
  intro x hx
  have h0 : 0 ≤ ⌊10 * x + 1 / 2⌋ := Int.floor_nonneg.2 (by linarith)
  have e : ((⌊10 * x + 1 / 2⌋.toNat : ℕ) : ℚ) = (⌊10 * x + 1 / 2⌋ : ℤ) := by
    exact_mod_cast congrArg (fun z : ℤ => (z : ℚ)) (Int.toNat_of_nonneg h0)
  simp only [e]
  have := Int.floor_le (10 * x + 1 / 2)
  have := Int.lt_floor_add_one (10 * x + 1 / 2)
  rw [abs_le]
  constructor <;> linarith

/-- Two samples, the first with `x0 → x1`, the second with `x0 → x1` and `x1 → x2`. -/
def twoSamples : List Sample :=
  [fun i j => some (if i = 1 ∧ j = 0 then 2 else 0), fun i j => some (if i = 1 ∧ j = 0 then 2 else if i = 2 ∧ j = 1 then -1 else 0)]

/-- Concrete case of `C207_directions_partial`: the second direction is printed with 50.0%, the first with 100.0%. -/
example (as : Argsort) : ∃ d lines, directionCounts as 3 3 twoSamples none none false = .ok d ∧
    printCounts (fun x => ⌊10 * x + 1 / 2⌋.toNat) 2 .none d = .ok lines ∧ "x1 <--- x0  (100.0%)".toList ∈ lines ∧
    "x2 <--- x1  (50.0%)".toList ∈ lines := by
  obtain ⟨d, lines, h1, h2, -, h3, h4⟩ := C207_directions_partial as 3 3 (ms := twoSamples) (by simp [twoSamples]) (k := none) (thr := none)
    ⟨by simp, by simp⟩ rounds_floor (L := .none) (name := xName) (Or.inl ⟨Or.inl rfl, rfl⟩)
  have key : ∀ i j t, directionText (xName i) (xName j) "" t ∈ lines → Share (occ twoSamples 0 i j) 2 t := by
    intro i j t ht
    obtain ⟨q, hq, hq'⟩ := List.getElem_of_mem ht
    obtain ⟨i', j', t', -, -, -, -, e, s, -⟩ := h3 q _ (List.getElem?_eq_some_iff.2 ⟨hq, hq'⟩)
    obtain ⟨rfl, rfl, rfl⟩ := C207_readable_numbers e
    exact s
  refine ⟨d, lines, h1, h2, ?_, ?_⟩
  · obtain ⟨t, ht⟩ := h4 rfl 1 0 (by norm_num) (by norm_num) ⟨_, List.mem_cons_self, by norm_num⟩
    have hs := key 1 0 t ht
    rw [show occ twoSamples 0 1 0 = 2 by decide +kernel] at hs
    have : t = 1000 := ((share_all hs le_rfl (by norm_num) (by norm_num)).1).2 rfl
    subst this
    exact ht
  · obtain ⟨t, ht⟩ := h4 rfl 2 1 (by norm_num) (by norm_num) ⟨_, List.mem_cons_of_mem _ List.mem_cons_self, by norm_num⟩
    have hs := key 2 1 t ht
    rw [show occ twoSamples 0 2 1 = 1 by decide +kernel] at hs
    have : t = 500 := by
      obtain ⟨l, u⟩ := abs_le.1 hs
      push_cast at l u
      have l' : (499 : ℚ) < t := by linarith
      have u' : (t : ℚ) < 501 := by linarith
      have : 499 < t := by exact_mod_cast l'
      have : t < 501 := by exact_mod_cast u'
      omega
    subst this
    exact ht

end Verif.PrintBoot
