import Verif.Model.SimulatorGraph
import Verif.Props.Simulator
import Verif.Props.SimulatorNames

/-!
C252: which names, data and graphs `CausalBasedSimulator.train` accepts, how a graph is read, and what a refused call leaves behind.
-/
set_option autoImplicit false
set_option linter.unusedSectionVars false
namespace Verif.SimNames
open Verif.Simulator (Col)

variable {K : Type} [Field K] [LinearOrder K] [IsStrictOrderedRing K]

/-! ### Specification -/

/-- A table of numbers with `r` rows and `n` columns. -/
def IsTable (X : Arr K) (r n : Nat) : Prop :=
  X.shape = [r, n] ∧ 1 ≤ r ∧ 1 ≤ n ∧ ∀ i j, i < r → j < n → ∃ x, X.get [i, j] = .num x

/-- The array is the matrix `G` of numbers. -/
def IsMatrix (a : Arr K) (n : Nat) (G : Nat → Nat → K) : Prop :=
  a.shape = [n, n] ∧ ∀ i j, i < n → j < n → a.get [i, j] = .num (G i j)

/-- The array is the matrix `G`, where NaN stands for 0. -/
def IsMatrixNan (a : Arr K) (n : Nat) (G : Nat → Nat → K) : Prop :=
  a.shape = [n, n] ∧ ∀ i j, i < n → j < n → a.get [i, j] = .num (G i j) ∨ a.get [i, j] = .nan ∧ G i j = 0

/-- The array holds the matrices `B 0, …, B L`. -/
def IsMatrices (a : Arr K) (n L : Nat) (B : Nat → Nat → Nat → K) : Prop :=
  a.shape = [L + 1, n, n] ∧ ∀ l i j, l ≤ L → i < n → j < n → a.get [l, i, j] = .num (B l i j)

/-- The labels of a data frame with `n` columns; `none` is an array. -/
def LabelsFor (n : Nat) (labels : Option (List Label)) : Prop := ∀ l, labels = some l → l.length = n

/-! ### Index tuples and `check_array` -/

theorem indices_two (r n : Nat) (p : List Nat → Bool) : (indices [r, n]).all p = true ↔ ∀ i j, i < r → j < n → p [i, j] = true := by
  simp only [indices, List.all_eq_true, List.mem_flatMap, List.mem_map, List.mem_range, List.mem_singleton]
  constructor
  · intro h i j hi hj
    exact h _ ⟨i, hi, [j], ⟨j, hj, [], rfl, rfl⟩, rfl⟩
  · rintro h x ⟨i, hi, l, ⟨j, hj, l', rfl, rfl⟩, rfl⟩
    exact h i j hi hj

theorem indices_three (m r n : Nat) (p : List Nat → Bool) :
    (indices [m, r, n]).all p = true ↔ ∀ l i j, l < m → i < r → j < n → p [l, i, j] = true := by
  simp only [indices, List.all_eq_true, List.mem_flatMap, List.mem_map, List.mem_range, List.mem_singleton]
  constructor
  · intro h l i j hl hi hj
    exact h _ ⟨l, hl, [i, j], ⟨i, hi, [j], ⟨j, hj, [], rfl, rfl⟩, rfl⟩, rfl⟩
  · rintro h x ⟨l, hl, q, ⟨i, hi, q', ⟨j, hj, q'', rfl, rfl⟩, rfl⟩, rfl⟩
    exact h l i j hl hi hj

theorem passes_num (e : Entry K) : passes false e = true ↔ ∃ x, e = .num x := by
  cases e <;> simp [passes]

theorem passes_nan (e : Entry K) : passes true e = true ↔ (∃ x, e = .num x) ∨ e = .nan := by
  cases e <;> simp [passes]

theorem checkArray_two (b : Bool) (c : Bool) (a : Arr K) (r n : Nat) (h : a.shape = [r, n]) :
    checkArray b c a = true ↔ 1 ≤ r ∧ 1 ≤ n ∧ ∀ i j, i < r → j < n → passes b (a.get [i, j]) = true := by
  unfold checkArray
  rw [h, Bool.and_eq_true, indices_two]
  simp [and_assoc]

theorem checkArray_three (b : Bool) (a : Arr K) (m r n : Nat) (h : a.shape = [m, r, n]) :
    checkArray b true a = true ↔ 1 ≤ m ∧ ∀ l i j, l < m → i < r → j < n → passes b (a.get [l, i, j]) = true := by
  unfold checkArray
  rw [h, Bool.and_eq_true, indices_three]
  simp

theorem checkArray_table {X : Arr K} {r n : Nat} (h : IsTable X r n) : checkArray false false X = true :=
  (checkArray_two _ _ X r n h.1).2 ⟨h.2.1, h.2.2.1, fun i j hi hj => (passes_num _).2 (h.2.2.2 i j hi hj)⟩

theorem edge_congr (n : Nat) {G G' : Nat → Nat → K} (h : ∀ i j, i < n → j < n → G i j = G' i j) : Edge n G 0 = Edge n G' 0 := by
  funext a b
  apply propext
  unfold Edge
  constructor
  · rintro ⟨h1, h2, h3⟩
    exact ⟨h1, h2, by rwa [← h b a h2 h1]⟩
  · rintro ⟨h1, h2, h3⟩
    exact ⟨h1, h2, by rwa [h b a h2 h1]⟩

theorem plainGraph_ok {a : Arr K} {n : Nat} (hn : 1 ≤ n) {G : Nat → Nat → K} (h : IsMatrix a n G) :
    ∃ G', plainGraph n a = .ok G' ∧ ∀ i j, i < n → j < n → G' i j = G i j := by
  refine ⟨fun i j => (a.get [i, j]).val, ?_, fun i j hi hj => by beta_reduce; rw [h.2 i j hi hj]; rfl⟩
  unfold plainGraph
  rw [if_pos ((checkArray_two _ _ a n n h.1).2 ⟨hn, hn, fun i j hi hj => (passes_num _).2 ⟨_, h.2 i j hi hj⟩⟩), if_neg (by simp [h.1])]

theorem plainGraph_error {a : Arr K} {n : Nat} (h : ∀ G, ¬ IsMatrix a n G) : plainGraph n a = .error .value := by
  unfold plainGraph
  by_cases hc : checkArray false false a = true
  · rw [if_pos hc]
    by_cases hs : a.shape ≠ [n, n]
    · rw [if_pos hs]
    · push Not at hs
      refine absurd ⟨hs, fun i j hi hj => ?_⟩ (h fun i j => (a.get [i, j]).val)
      obtain ⟨x, hx⟩ := (passes_num _).1 (((checkArray_two _ _ a n n hs).1 hc).2.2 i j hi hj)
      beta_reduce
      rw [hx]
      rfl
  · rw [if_neg hc]

theorem nanGraph_ok {a : Arr K} {n : Nat} (hn : 1 ≤ n) {G : Nat → Nat → K} (h : IsMatrixNan a n G) :
    ∃ G', nanGraph n a = .ok G' ∧ ∀ i j, i < n → j < n → G' i j = G i j := by
  refine ⟨fun i j => (a.get [i, j]).val, ?_, fun i j hi hj => ?_⟩
  · unfold nanGraph
    rw [if_pos ((checkArray_two _ _ a n n h.1).2 ⟨hn, hn, fun i j hi hj => (passes_nan _).2 ?_⟩), if_neg (by simp [h.1])]
    rcases h.2 i j hi hj with h1 | h1
    · exact Or.inl ⟨_, h1⟩
    · exact Or.inr h1.1
  · rcases h.2 i j hi hj with h1 | h1
    · beta_reduce
      rw [h1]
      rfl
    · beta_reduce
      rw [h1.1, h1.2]
      rfl

theorem nanGraph_error {a : Arr K} {n : Nat} (h : ∀ G, ¬ IsMatrixNan a n G) : nanGraph n a = .error .value := by
  unfold nanGraph
  by_cases hc : checkArray true false a = true
  · rw [if_pos hc]
    by_cases hs : a.shape ≠ [n, n]
    · rw [if_pos hs]
    · push Not at hs
      refine absurd ⟨hs, fun i j hi hj => ?_⟩ (h fun i j => (a.get [i, j]).val)
      rcases (passes_nan _).1 (((checkArray_two _ _ a n n hs).1 hc).2.2 i j hi hj) with ⟨x, hx⟩ | hx
      · refine Or.inl ?_
        beta_reduce
        rw [hx]
        rfl
      · refine Or.inr ⟨hx, ?_⟩
        beta_reduce
        rw [hx]
        rfl
  · rw [if_neg hc]

theorem seriesGraph_ok {a : Arr K} {n L : Nat} {B : Nat → Nat → Nat → K} (h : IsMatrices a n L B) :
    ∃ B', seriesGraph n a = .ok (L, Simulator.tsGraph n B') ∧ ∀ l i j, l ≤ L → i < n → j < n → B' l i j = B l i j := by
  refine ⟨fun l i j => (a.get [l, i, j]).val, ?_, fun l i j hl hi hj => by beta_reduce; rw [h.2 l i j hl hi hj]; rfl⟩
  unfold seriesGraph
  rw [if_pos ((checkArray_three _ a (L + 1) n n h.1).2
    ⟨by omega, fun l i j hl hi hj => (passes_num _).2 ⟨_, h.2 l i j (by omega) hi hj⟩⟩), h.1]
  simp

theorem seriesGraph_error {a : Arr K} {n : Nat} (h : ∀ L B, ¬ IsMatrices a n L B) : seriesGraph n a = .error .value := by
  unfold seriesGraph
  by_cases hc : checkArray false true a = true
  · rw [if_pos hc]
    split
    · rename_i m r c hs
      by_cases hrc : r ≠ n ∨ c ≠ n
      · rw [if_pos hrc]
      · push Not at hrc
        obtain ⟨rfl, rfl⟩ := hrc
        have h1 := (checkArray_three _ a m _ _ hs).1 hc
        refine absurd ⟨by rw [hs]; congr 1; omega, fun l i j hl hi hj => ?_⟩ (h (m - 1) fun l i j => (a.get [l, i, j]).val)
        obtain ⟨x, hx⟩ := (passes_num _).1 (h1.2 l i j (by omega) hi hj)
        beta_reduce
        rw [hx]
        rfl
    · rfl
  · rw [if_neg hc]

theorem plainNames_length {n : Nat} {labels : Option (List Label)} (h : LabelsFor n labels) : (plainNames n labels).length = n := by
  cases labels with
  | none => simp [plainNames]
  | some l => simpa [plainNames] using h l rfl

/-! ### C252 -/

/-- **C252, names.** `cd_algo_name` is `None`, `"DirectLiNGAM"`, `"ICALiNGAM"`, `"BottomUpParceLiNGAM"` or `"VARLiNGAM"`.  Any other string is refused
with `ValueError` and anything that is no string with `TypeError`, whatever the other arguments are; the object keeps its state. -/
theorem C252_names (st : State K) (X : Arr K) (labels : Option (List Label)) (a : Arr K) (flags : Flags) (models : DictArg (UserModel K)) :
    trainCall st .other X labels a flags models = (st, .error (.arg .type)) ∧
    (∀ s : Name, s ∉ ["DirectLiNGAM".toList, "ICALiNGAM".toList, "BottomUpParceLiNGAM".toList, "VARLiNGAM".toList] →
      trainCall st (.str s) X labels a flags models = (st, .error (.arg .value))) ∧
    trainCall st .none X labels a flags models = trainCall st (.str "DirectLiNGAM".toList) X labels a flags models ∧
    trainCall st (.str "ICALiNGAM".toList) X labels a flags models = trainCall st (.str "DirectLiNGAM".toList) X labels a flags models := by
  refine ⟨rfl, fun s hs => ?_, rfl, rfl⟩
  simp only [List.mem_cons, List.not_mem_nil, or_false, not_or] at hs
  have h : dispatch (.str s) = .error .value := by
    simp only [dispatch]
    rw [if_neg hs.1, if_neg hs.2.1, if_neg hs.2.2.1, if_neg hs.2.2.2]
  unfold trainCall
  rw [h]

/-- **C252, data.** Data that are not a table of numbers are refused with `ValueError` before anything else is looked at. -/
theorem C252_data (st : State K) (s : Name) (hs : s ∈ ["DirectLiNGAM".toList, "ICALiNGAM".toList, "BottomUpParceLiNGAM".toList, "VARLiNGAM".toList])
    (X : Arr K) (hX : ∀ r n, ¬ IsTable X r n) (labels : Option (List Label)) (a : Arr K) (flags : Flags) (models : DictArg (UserModel K)) :
    trainCall st (.str s) X labels a flags models = (st, .error (.arg .value)) := by
  have hc : checkArray false false X ≠ true := by
    intro hc
    have hs : ∃ r n, X.shape = [r, n] := by
      unfold checkArray at hc
      rw [Bool.and_eq_true] at hc
      have h1 := hc.1
      split at h1
      · cases h1
      · cases h1
      · rename_i r n hs
        exact ⟨r, n, hs⟩
      · simp at h1
    obtain ⟨r, n, hs⟩ := hs
    have h2 := (checkArray_two _ _ X r n hs).1 hc
    exact hX r n ⟨hs, h2.1, h2.2.1, fun i j hi hj => (passes_num _).1 (h2.2.2 i j hi hj)⟩
  have hb : ∀ k, build k X labels a flags = .error (.arg .value) := fun k => by
    unfold build
    rw [if_neg hc]
  have hd : ∃ k, dispatch (.str s) = .ok k := by
    simp only [List.mem_cons, List.not_mem_nil, or_false] at hs
    rcases hs with rfl | rfl | rfl | rfl
    · exact ⟨.plain, rfl⟩
    · exact ⟨.plain, rfl⟩
    · exact ⟨.unobs, rfl⟩
    · exact ⟨.series, rfl⟩
  obtain ⟨k, hk⟩ := hd
  unfold trainCall
  rw [hk]
  simp only [hb k]

/-- What a successful call of `train` without discrete variables and models leaves behind: the labels as names, the matrix and the table. -/
def Keeps (st : State K) (X : Arr K) (labels : Option (List Label)) (r n : Nat) (G : Nat → Nat → K) : Prop :=
  ∃ h, st = some (h, []) ∧ h.names = plainNames n labels ∧ h.disc = [] ∧ h.rows = r ∧ (∀ i j, i < n → j < n → h.graph i j = G i j) ∧
    ∀ i j, i < r → j < n → X.get [i, j] = .num (h.data j i)

theorem train_none (h : Handler K) :
    (Acyclic (Edge h.names.length h.graph 0) → train h .none = .ok (some (h, []))) ∧
    (¬ Acyclic (Edge h.names.length h.graph 0) → train h .none = .error .value) := by
  unfold train
  rw [← Simulator.calcOrder_acyclic]
  cases Simulator.calcOrder h.graph h.names.length with
  | none => simp
  | some o => simp [checkModels]

theorem trainCall_matrix (st : State K) {alg : AlgoArg} {k : Kind} (hk : dispatch alg = .ok k) {X : Arr K} {r n : Nat} (hX : IsTable X r n)
    {labels : Option (List Label)} (hl : LabelsFor n labels) (a : Arr K) {G G' : Nat → Nat → K} (hG : ∀ i j, i < n → j < n → G' i j = G i j)
    (hb : build k X labels a .none = .ok ⟨plainNames n labels, [], G', fun j r => (X.get [r, j]).val, r⟩) :
    (Acyclic (Edge n G 0) → (trainCall st alg X labels a .none .none).2 = .ok () ∧ Keeps (trainCall st alg X labels a .none .none).1 X labels r n G) ∧
    (¬ Acyclic (Edge n G 0) → trainCall st alg X labels a .none .none = (st, .error (.arg .value))) := by
  have ht := train_none (⟨plainNames n labels, [], G', fun j r => (X.get [r, j]).val, r⟩ : Handler K)
  simp only [plainNames_length hl, edge_congr n hG] at ht
  constructor
  · intro hac
    have h1 : trainCall st alg X labels a .none .none = (some (⟨plainNames n labels, [], G', fun j r => (X.get [r, j]).val, r⟩, []), .ok ()) := by
      unfold trainCall
      rw [hk]
      simp only [hb, ht.1 hac]
    rw [h1]
    refine ⟨rfl, _, rfl, rfl, rfl, rfl, hG, fun i j hi hj => ?_⟩
    obtain ⟨x, hx⟩ := hX.2.2.2 i j hi hj
    simp only [hx]
    rfl
  · intro hac
    unfold trainCall
    rw [hk]
    simp only [hb, ht.2 hac]

/-- **C252, graphs of DirectLiNGAM and ICA-LiNGAM.** For a table, `train` accepts exactly the square matrices of numbers of the right size without
cycle, and keeps names, matrix and data.  Everything else (another shape, NaN or infinite entries, a cycle) raises `ValueError` and leaves the object as
it was. -/
theorem C252_matrix (st : State K) {alg : AlgoArg} (halg : alg = .none ∨ alg = .str "DirectLiNGAM".toList ∨ alg = .str "ICALiNGAM".toList)
    {X : Arr K} {r n : Nat} (hX : IsTable X r n) {labels : Option (List Label)} (hl : LabelsFor n labels) (a : Arr K) :
    (∀ G, IsMatrix a n G → Acyclic (Edge n G 0) →
      (trainCall st alg X labels a .none .none).2 = .ok () ∧ Keeps (trainCall st alg X labels a .none .none).1 X labels r n G) ∧
    ((¬ ∃ G, IsMatrix a n G ∧ Acyclic (Edge n G 0)) → trainCall st alg X labels a .none .none = (st, .error (.arg .value))) := by
  have hk : dispatch alg = .ok .plain := by
    rcases halg with rfl | rfl | rfl <;> rfl
  have hb : ∀ G', plainGraph n a = .ok G' → build .plain X labels a .none = .ok ⟨plainNames n labels, [], G', fun j r => (X.get [r, j]).val, r⟩ := by
    intro G' hG'
    unfold build
    rw [if_pos (checkArray_table hX)]
    simp only [hX.1, List.getD_cons_zero, List.getD_cons_succ, hG', plainDiscrete]
  constructor
  · intro G hG hac
    obtain ⟨G', h1, h2⟩ := plainGraph_ok hX.2.2.1 hG
    exact (trainCall_matrix st hk hX hl a h2 (hb G' h1)).1 hac
  · intro hno
    by_cases hm : ∃ G, IsMatrix a n G
    · obtain ⟨G, hG⟩ := hm
      obtain ⟨G', h1, h2⟩ := plainGraph_ok hX.2.2.1 hG
      exact (trainCall_matrix st hk hX hl a h2 (hb G' h1)).2 fun hac => hno ⟨G, hG, hac⟩
    · push Not at hm
      unfold trainCall build
      rw [hk]
      simp only [checkArray_table hX, if_true, hX.1, List.getD_cons_zero, List.getD_cons_succ, plainGraph_error hm]

/-- **C252, graphs of BottomUpParceLiNGAM.** NaN is accepted and read as the absence of an edge; otherwise as for DirectLiNGAM. -/
theorem C252_matrix_nan (st : State K) {X : Arr K} {r n : Nat} (hX : IsTable X r n) {labels : Option (List Label)} (hl : LabelsFor n labels) (a : Arr K) :
    (∀ G, IsMatrixNan a n G → Acyclic (Edge n G 0) →
      (trainCall st (.str "BottomUpParceLiNGAM".toList) X labels a .none .none).2 = .ok () ∧
        Keeps (trainCall st (.str "BottomUpParceLiNGAM".toList) X labels a .none .none).1 X labels r n G) ∧
    ((¬ ∃ G, IsMatrixNan a n G ∧ Acyclic (Edge n G 0)) →
      trainCall st (.str "BottomUpParceLiNGAM".toList) X labels a .none .none = (st, .error (.arg .value))) := by
  have hk : dispatch (.str "BottomUpParceLiNGAM".toList) = .ok .unobs := rfl
  have hb : ∀ G', nanGraph n a = .ok G' → build .unobs X labels a .none = .ok ⟨plainNames n labels, [], G', fun j r => (X.get [r, j]).val, r⟩ := by
    intro G' hG'
    unfold build
    rw [if_pos (checkArray_table hX)]
    simp only [hX.1, List.getD_cons_zero, List.getD_cons_succ, hG', plainDiscrete]
  constructor
  · intro G hG hac
    obtain ⟨G', h1, h2⟩ := nanGraph_ok hX.2.2.1 hG
    exact (trainCall_matrix st hk hX hl a h2 (hb G' h1)).1 hac
  · intro hno
    by_cases hm : ∃ G, IsMatrixNan a n G
    · obtain ⟨G, hG⟩ := hm
      obtain ⟨G', h1, h2⟩ := nanGraph_ok hX.2.2.1 hG
      exact (trainCall_matrix st hk hX hl a h2 (hb G' h1)).2 fun hac => hno ⟨G, hG, hac⟩
    · push Not at hm
      unfold trainCall build
      rw [hk]
      simp only [checkArray_table hX, if_true, hX.1, List.getD_cons_zero, List.getD_cons_succ, nanGraph_error hm]

/-- **C252, graphs of VARLiNGAM.** For a table without labels or with strings as labels, `train` accepts exactly the arrays of `L + 1` square matrices of
numbers of the right size (`L ≥ 0`) whose first matrix has no cycle.  Node `l * n + j` is variable `j` at lag `l`; only the variables at the present time
have parents, with the coefficients of the array, and row `t` of the node is row `t + L - l` of the table.  Everything else raises `ValueError` and leaves
the object as it was. -/
theorem C252_series (st : State K) {X : Arr K} {r n : Nat} (hX : IsTable X r n) {labels : Option (List Label)}
    (hl : labels = none ∨ ∃ l : List Name, labels = some (l.map Label.str) ∧ l.length = n) (a : Arr K) :
    (∀ L B, IsMatrices a n L B → Acyclic (Edge n (B 0) 0) →
      (trainCall st (.str "VARLiNGAM".toList) X labels a .none .none).2 = .ok () ∧
        ∃ h, (trainCall st (.str "VARLiNGAM".toList) X labels a .none .none).1 = some (h, []) ∧ tsNames n L labels = .ok h.names ∧ h.disc = [] ∧
          h.names.length = (L + 1) * n ∧ h.rows = r - L ∧ (∀ l i j, l ≤ L → i < n → j < n → h.graph i (l * n + j) = B l i j) ∧
          (∀ i c, n ≤ i → h.graph i c = 0) ∧ ∀ l j t, l ≤ L → j < n → t < r - L → X.get [t + L - l, j] = .num (h.data (l * n + j) t)) ∧
    ((¬ ∃ L B, IsMatrices a n L B ∧ Acyclic (Edge n (B 0) 0)) →
      trainCall st (.str "VARLiNGAM".toList) X labels a .none .none = (st, .error (.arg .value))) := by
  have hn := hX.2.2.1
  have hk : dispatch (.str "VARLiNGAM".toList) = .ok .series := rfl
  have hnames : ∀ L, ∃ names, tsNames n L labels = .ok names ∧ names.length = (L + 1) * n := by
    intro L
    rcases hl with rfl | ⟨l, rfl, h⟩
    · obtain ⟨names, h1, -, h2⟩ := (C205_names_lags n L).1
      exact ⟨names, h1, h2⟩
    · refine ⟨_, tsNames_strings n L l, ?_⟩
      simp [List.length_flatMap, h]
  have hb : ∀ L G' names, seriesGraph n a = .ok (L, G') → tsNames n L labels = .ok names →
      build .series X labels a .none = .ok ⟨names, [], G', Simulator.tsData n L fun r j => (X.get [r, j]).val, r - L⟩ := by
    intro L G' names h1 h2
    unfold build
    rw [if_pos (checkArray_table hX)]
    simp only [hX.1, List.getD_cons_zero, List.getD_cons_succ, h1, h2, seriesDiscrete]
  have key : ∀ L B, IsMatrices a n L B → ∃ B' names, (∀ l i j, l ≤ L → i < n → j < n → B' l i j = B l i j) ∧ tsNames n L labels = .ok names ∧
      names.length = (L + 1) * n ∧
      build .series X labels a .none =
        .ok ⟨names, [], Simulator.tsGraph n B', Simulator.tsData n L fun r j => (X.get [r, j]).val, r - L⟩ ∧
      (Acyclic (Edge names.length (Simulator.tsGraph n B') 0) ↔ Acyclic (Edge n (B 0) 0)) := by
    intro L B hB
    obtain ⟨B', h1, h2⟩ := seriesGraph_ok hB
    obtain ⟨names, h3, h4⟩ := hnames L
    refine ⟨B', names, h2, h3, h4, hb L _ names h1 h3, ?_⟩
    rw [h4, Nat.mul_comm, Simulator.C84_accepts_iff, edge_congr n fun i j hi hj => h2 0 i j (by omega) hi hj]
  constructor
  · intro L B hB hac
    obtain ⟨B', names, h1, h2, h3, h4, h5⟩ := key L B hB
    have ht := (train_none (⟨names, [], Simulator.tsGraph n B', Simulator.tsData n L fun r j => (X.get [r, j]).val, r - L⟩ : Handler K)).1 (h5.2 hac)
    have e : trainCall st (.str "VARLiNGAM".toList) X labels a .none .none =
        (some (⟨names, [], Simulator.tsGraph n B', Simulator.tsData n L fun r j => (X.get [r, j]).val, r - L⟩, []), .ok ()) := by
      unfold trainCall
      rw [hk]
      simp only [h4, ht]
    rw [e]
    refine ⟨rfl, _, rfl, h2, rfl, h3, rfl, fun l i j hl hi hj => ?_, fun i c hi => ?_, fun l j t hl hj ht => ?_⟩
    · have e1 : (l * n + j) / n = l := by
        rw [Nat.mul_comm, Nat.mul_add_div (by omega), Nat.div_eq_of_lt hj, Nat.add_zero]
      have e2 : (l * n + j) % n = j := by
        rw [Nat.mul_comm, Nat.mul_add_mod, Nat.mod_eq_of_lt hj]
      simp only [Simulator.tsGraph, hi, if_true, e1, e2]
      exact h1 l i j hl hi hj
    · simp only [Simulator.tsGraph, show ¬ i < n by omega, if_false]
    · have e1 : (l * n + j) / n = l := by
        rw [Nat.mul_comm, Nat.mul_add_div (by omega), Nat.div_eq_of_lt hj, Nat.add_zero]
      have e2 : (l * n + j) % n = j := by
        rw [Nat.mul_comm, Nat.mul_add_mod, Nat.mod_eq_of_lt hj]
      simp only [Simulator.tsData, e1, e2]
      rw [show L - l + t = t + L - l by omega]
      obtain ⟨x, hx⟩ := hX.2.2.2 (t + L - l) j (by omega) hj
      beta_reduce
      rw [hx]
      rfl
  · intro hno
    by_cases hm : ∃ L B, IsMatrices a n L B
    · obtain ⟨L, B, hB⟩ := hm
      obtain ⟨B', names, h1, h2, h3, h4, h5⟩ := key L B hB
      have ht := (train_none (⟨names, [], Simulator.tsGraph n B', Simulator.tsData n L fun r j => (X.get [r, j]).val, r - L⟩ : Handler K)).2
        (fun h => hno ⟨L, B, hB, h5.1 h⟩)
      unfold trainCall
      rw [hk]
      simp only [h4, ht]
    · push Not at hm
      unfold trainCall build
      rw [hk]
      simp only [checkArray_table hX, if_true, hX.1, List.getD_cons_zero, List.getD_cons_succ, seriesGraph_error hm]

/-- **C252, refused calls.** Whatever is passed: if `train` raises, the object keeps its previous state, so that `run` goes on with the model trained
before; if it does not raise, `run` never again complains about a missing call of `train`. -/
theorem C252_state (st : State K) (alg : AlgoArg) (X : Arr K) (labels : Option (List Label)) (a : Arr K) (flags : Flags) (models : DictArg (UserModel K)) :
    (∀ e, (trainCall st alg X labels a flags models).2 = .error e → (trainCall st alg X labels a flags models).1 = st) ∧
    ((trainCall st alg X labels a flags models).2 = .ok () → (trainCall st alg X labels a flags models).1 ≠ none) := by
  unfold trainCall
  cases dispatch alg with
  | error e => exact ⟨fun _ _ => rfl, fun h => (nomatch h)⟩
  | ok k =>
    simp only
    cases build k X labels a flags with
    | error e => exact ⟨fun _ _ => rfl, fun h => (nomatch h)⟩
    | ok h =>
      simp only
      cases ht : train h models with
      | error e => exact ⟨fun _ _ => rfl, fun h => (nomatch h)⟩
      | ok st' =>
        refine ⟨fun e h => (nomatch h), fun _ => ?_⟩
        simp only
        unfold train at ht
        split at ht
        · cases ht
        · split at ht
          · cases ht
          · simp only [Except.ok.injEq] at ht
            rw [← ht]
            simp

/-! ### Examples -/

/-- A table with two rows and columns. -/
def exTable : Arr ℚ := ⟨[2, 2], fun _ => .num 1⟩

/-- The matrix of `0 → 1` with an unknown entry. -/
def exNan : Arr ℚ := ⟨[2, 2], fun l => if l = [1, 0] then .nan else if l = [0, 1] then .num 2 else .num 0⟩

theorem exTable_ok : IsTable exTable 2 2 := ⟨rfl, by omega, by omega, fun _ _ _ _ => ⟨1, rfl⟩⟩

/-- A result of BottomUpParceLiNGAM with NaN is accepted under its own name and refused under the default name. -/
example : (trainCall none (.str "BottomUpParceLiNGAM".toList) exTable none exNan .none .none).2 = .ok () ∧
    trainCall none .none exTable none exNan .none .none = (none, .error (.arg .value)) := by
  have hl : LabelsFor 2 none := fun l h => nomatch h
  constructor
  · refine ((C252_matrix_nan none exTable_ok hl exNan).1 (fun i j => if i = 0 ∧ j = 1 then 2 else 0) ⟨rfl, fun i j hi hj => ?_⟩ ?_).1
    · interval_cases i <;> interval_cases j
      · exact Or.inl rfl
      · exact Or.inl rfl
      · exact Or.inr ⟨rfl, rfl⟩
      · exact Or.inl rfl
    · rw [← Simulator.calcOrder_acyclic]
      exact ⟨[1, 0], by decide +kernel⟩
  · refine (C252_matrix none (Or.inl rfl) exTable_ok hl exNan).2 ?_
    rintro ⟨G, hG, -⟩
    have := hG.2 1 0 (by omega) (by omega)
    cases this

/-- Two matrices of a time series. -/
def exSeries : Arr ℚ := ⟨[2, 2, 2], fun l => if l = [0, 1, 0] then .num 2 else if l = [1, 0, 1] then .num 3 else .num 0⟩

/-- A VAR graph with one lag is accepted for data of two variables. -/
example : (trainCall none (.str "VARLiNGAM".toList) exTable none exSeries .none .none).2 = .ok () := by
  refine ((C252_series none exTable_ok (Or.inl rfl) exSeries).1 1
    (fun l i j => if l = 0 ∧ i = 1 ∧ j = 0 then 2 else if l = 1 ∧ i = 0 ∧ j = 1 then 3 else 0) ⟨rfl, fun l i j hl hi hj => ?_⟩ ?_).1
  · interval_cases l <;> interval_cases i <;> interval_cases j <;> rfl
  · rw [← Simulator.calcOrder_acyclic]
    exact ⟨[0, 1], by decide +kernel⟩

/-- A result of RCD is refused by its name. -/
example : trainCall none (.str "RCD".toList) exTable none exNan .none .none = (none, .error (.arg .value)) :=
  (C252_names none exTable none exNan .none .none).2.1 _ (by decide)

/-- A column of numbers is no table. -/
example : trainCall none (.str "DirectLiNGAM".toList) (⟨[2], fun _ => .num 1⟩ : Arr ℚ) none exNan .none .none = (none, .error (.arg .value)) :=
  C252_data none _ (by decide) _ (fun r n h => by have := h.1; simp at this) none exNan .none .none

/-- An object that was trained keeps its model after a refused call. -/
example (st : State ℚ) : (trainCall st (.str "RCD".toList) exTable none exNan .none .none).1 = st :=
  (C252_state st _ exTable none exNan .none .none).1 (.arg .value)
    (by rw [(C252_names st exTable none exNan .none .none).2.1 _ (by decide)])

end Verif.SimNames
