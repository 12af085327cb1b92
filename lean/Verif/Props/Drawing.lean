import Verif.Proofs.Drawing
import Mathlib.Tactic.Linarith

/-! Properties of the graph drawings. -/
set_option autoImplicit false
set_option linter.unusedSectionVars false
namespace Verif.Drawing

/-! ### C123: arrows of the plain drawing -/

/-- Between two variables `make_dot` draws one arrow, from cause to effect and with the estimated coefficient, if the
coefficient exceeds the limit, and none otherwise.  A coefficient equal to the limit is not drawn. -/
theorem C123_arrows {a : Args} {r c : Nat} {A : Mat} {paths cycles : List (List Nat)} {d : Dot} (hlim : 0 ≤ a.lim)
    (h : makeDot a r c A paths cycles = .ok d) (i j : Nat) (hi : i < r) (hj : j < c) :
    (d.edges.filter (fun e => decide (e.src = j ∧ e.dst = i) && !e.both)).map (·.coef) =
      match A i j with
      | none => []
      | some x => if a.lim < |x| then [some x] else [] := by
  rw [(makeDot_eq h).2, List.filter_append, nanEdges_not_plain, List.append_nil, coefEdges_between]
  cases hA : A i j with
  | none => simp [idx, clean, hA, hlim]
  | some x =>
    by_cases hx : a.lim < |x|
    · simp [idx, clean, hA, hi, hj, hx]
    · simp [idx, clean, hA, hx]

/-- No other arrows are drawn, and there is one node per variable. -/
theorem C123_nothing_else {a : Args} {n : Nat} {A : Mat} {paths cycles : List (List Nat)} {d : Dot}
    (h : makeDot a n n A paths cycles = .ok d) : d.nodes.map (·.node) = List.range n ∧ ∀ e ∈ d.edges, e.src < n ∧ e.dst < n := by
  have hl : a.nLabels.getD n = n := by
    unfold makeDot at h
    cases hc : check a n n with
    | error e => simp [hc] at h
    | ok u =>
      unfold check at hc
      split_ifs at hc with h1 h2
      cases hL : a.nLabels with
      | none => rfl
      | some l => simpa [hL] using h2
  obtain ⟨h1, h2⟩ := makeDot_eq h
  constructor
  · rw [h1, dotNodes, hl, List.map_map]
    exact List.map_id _
  · intro e he
    rw [h2, List.mem_append] at he
    rcases he with he | he
    · simp only [coefEdges, List.mem_map, List.mem_filter] at he
      obtain ⟨⟨i, j⟩, ⟨hx, -⟩, rfl⟩ := he
      rw [mem_cells] at hx; exact ⟨hx.2, hx.1⟩
    · simp only [nanEdges, List.mem_map, List.mem_filter] at he
      obtain ⟨⟨i, j⟩, ⟨hx, -⟩, rfl⟩ := he
      rw [mem_cells] at hx; exact ⟨hx.2, hx.1⟩

/-- Every square matrix with one label per variable, and a path between existing variables if any, can be drawn. -/
theorem C123_draws {a : Args} {n : Nat} (A : Mat) (paths cycles : List (List Nat)) (hl : ∀ l, a.nLabels = some l → l = n)
    (hp : ∀ p, a.path = some p → p.1 < n ∧ p.2 < n) : ∃ d, makeDot a n n A paths cycles = .ok d := by
  have hc : check a n n = .ok () := by
    unfold check
    have h2 : a.nLabels.any (fun l => decide (l ≠ n)) = false := by
      cases hL : a.nLabels with
      | none => rfl
      | some l => simp [hl l hL]
    have h3 : a.path.any (fun p => decide (n < p.1 ∨ n < p.2)) = false := by
      cases hP : a.path with
      | none => rfl
      | some p => have := hp p hP; simp; omega
    rw [if_neg (by simp), h2, h3]; simp
  have hn : a.nLabels.getD n = n := by
    cases hL : a.nLabels with
    | none => rfl
    | some l => simp [hl l hL]
  have h4 : a.path.any (fun p => decide (n ≤ p.1 ∨ n ≤ p.2)) = false := by
    cases hP : a.path with
    | none => rfl
    | some p => have := hp p hP; simp; omega
  have h5 : (coefEdges a n n A paths cycles ++ nanEdges n n A).any (fun e => decide (n ≤ e.src ∨ n ≤ e.dst)) = false := by
    rw [List.any_eq_false]
    intro e he
    rw [List.mem_append] at he
    have : e.src < n ∧ e.dst < n := by
      rcases he with he | he
      · simp only [coefEdges, List.mem_map, List.mem_filter] at he
        obtain ⟨⟨i, j⟩, ⟨hx, -⟩, rfl⟩ := he
        rw [mem_cells] at hx; exact ⟨hx.2, hx.1⟩
      · simp only [nanEdges, List.mem_map, List.mem_filter] at he
        obtain ⟨⟨i, j⟩, ⟨hx, -⟩, rfl⟩ := he
        rw [mem_cells] at hx; exact ⟨hx.2, hx.1⟩
    simp; omega
  refine ⟨⟨dotNodes a n paths, coefEdges a n n A paths cycles ++ nanEdges n n A⟩, ?_⟩
  unfold makeDot
  simp only [hc, hn, h4, h5, Bool.false_eq_true, if_false]

/-- Without `ignore_shape` a matrix that is not square is refused; with it a matrix with a label for every column and no more
rows than columns is drawn. -/
theorem C123_shape {a : Args} {r c : Nat} (A : Mat) (paths cycles : List (List Nat)) :
    (a.ignoreShape = false → r ≠ c → makeDot a r c A paths cycles = .error .value) ∧
    (a.ignoreShape = true → r ≤ c → a.nLabels = some c → a.path = none → a.detectCycle = false →
      ∃ d, makeDot a r c A paths cycles = .ok d) := by
  constructor
  · intro h1 h2
    have : check a r c = .error .value := by unfold check; exact if_pos ⟨h1, h2⟩
    unfold makeDot
    simp only [this]
  · intro h1 h2 h3 h4 h5
    have hc : check a r c = .ok () := by
      unfold check; simp [h1, h3, h4, h5]
    have h6 : (coefEdges a r c A paths cycles ++ nanEdges r c A).any (fun e => decide (c ≤ e.src ∨ c ≤ e.dst)) = false := by
      rw [List.any_eq_false]
      intro e he
      rw [List.mem_append] at he
      have : e.src < c ∧ e.dst < c := by
        rcases he with he | he
        · simp only [coefEdges, List.mem_map, List.mem_filter] at he
          obtain ⟨⟨i, j⟩, ⟨hx, -⟩, rfl⟩ := he
          rw [mem_cells] at hx; exact ⟨hx.2, lt_of_lt_of_le hx.1 h2⟩
        · simp only [nanEdges, List.mem_map, List.mem_filter] at he
          obtain ⟨⟨i, j⟩, ⟨hx, -⟩, rfl⟩ := he
          rw [mem_cells] at hx; exact ⟨hx.2, lt_of_lt_of_le hx.1 h2⟩
      simp; omega
    have hn : a.nLabels.getD r = c := by rw [h3]; rfl
    have hp : a.path.any (fun p => decide (c ≤ p.1 ∨ c ≤ p.2)) = false := by rw [h4]; rfl
    refine ⟨⟨dotNodes a r paths, coefEdges a r c A paths cycles ++ nanEdges r c A⟩, ?_⟩
    unfold makeDot
    simp only [hc, hn, hp, h6, Bool.false_eq_true, if_false]

example : (∃ d, makeDot ⟨some 4, 1 / 100, none, false, true⟩ 2 4 (fun _ _ => some 1) [] [] = .ok d) ∧
    makeDot ⟨some 4, 1 / 100, none, false, false⟩ 2 4 (fun _ _ => some 1) [] [] = .error .value :=
  ⟨(C123_shape _ [] []).2 rfl (by decide) rfl rfl rfl, (C123_shape _ [] []).1 rfl (by decide)⟩

/-- Three variables, `0 → 1` with coefficient 2, `1 → 2` with a coefficient equal to the limit, and an unknown direction
between `0` and `2`. -/
def exA : Mat := fun i j =>
  if (i, j) = (1, 0) then some 2 else if (i, j) = (2, 1) then some (1 / 100)
  else if (i, j) = (0, 2) ∨ (i, j) = (2, 0) then none else some 0

/-- Arguments with the default limit. -/
def exArgs : Args := { nLabels := none, lim := 1 / 100, path := none, detectCycle := false, ignoreShape := false }

example : ∃ d, makeDot exArgs 3 3 exA [] [] = .ok d ∧
    (d.edges.filter (fun e => decide (e.src = 0 ∧ e.dst = 1) && !e.both)).map (·.coef) = [some 2] ∧
    (d.edges.filter (fun e => decide (e.src = 1 ∧ e.dst = 2) && !e.both)).map (·.coef) = [] ∧ d.nodes.map (·.node) = [0, 1, 2] := by
  obtain ⟨d, hd⟩ := C123_draws (a := exArgs) (n := 3) exA [] [] (by simp [exArgs]) (by simp [exArgs])
  refine ⟨d, hd, ?_, ?_, (C123_nothing_else hd).1⟩
  · rw [C123_arrows (by norm_num [exArgs]) hd 1 0 (by decide) (by decide)]; decide +kernel
  · rw [C123_arrows (by norm_num [exArgs]) hd 2 1 (by decide) (by decide)]; decide +kernel

/-! ### C124: unknown directions in the plain drawing -/

/-- The double-headed arrows between two variables. -/
def doubles (d : Dot) (i j : Nat) : List DotEdge :=
  d.edges.filter (fun e => decide (e.src = j ∧ e.dst = i) && e.both) ++ d.edges.filter (fun e => decide (e.src = i ∧ e.dst = j) && e.both)

/-- If the matrix marks an unknown direction in both cells, one double-headed arrow is drawn for the pair, and no arrow
for other pairs. -/
theorem C124_unknown_partial {a : Args} {n : Nat} {A : Mat} {paths cycles : List (List Nat)} {d : Dot}
    (h : makeDot a n n A paths cycles = .ok d) {i j : Nat} (hi : i < n) (hj : j < n) (hij : i ≠ j)
    (hsym : A i j = none ↔ A j i = none) : (doubles d i j).length = if A i j = none then 1 else 0 := by
  unfold doubles
  rw [(makeDot_eq h).2, List.filter_append, List.filter_append, coefEdges_not_both, coefEdges_not_both, nanEdges_between, nanEdges_between]
  by_cases hA : A i j = none
  · have hA' := hsym.1 hA
    rcases lt_or_gt_of_ne hij with hlt | hlt
    · simp [hA, hA', hi, hj, hlt.le, not_le.2 hlt]
    · simp [hA, hA', hi, hj, hlt.le, not_le.2 hlt]
  · have hA' : A j i ≠ none := fun hc => hA (hsym.2 hc)
    simp [hA, hA']

example : ∃ d, makeDot exArgs 3 3 exA [] [] = .ok d ∧ (doubles d 0 2).length = 1 ∧ (doubles d 0 1).length = 0 := by
  obtain ⟨d, hd⟩ := C123_draws (a := exArgs) (n := 3) exA [] [] (by simp [exArgs]) (by simp [exArgs])
  refine ⟨d, hd, ?_, ?_⟩
  · rw [C124_unknown_partial hd (by decide) (by decide) (by decide) (by decide +kernel)]; decide +kernel
  · rw [C124_unknown_partial hd (by decide) (by decide) (by decide) (by decide +kernel)]; decide +kernel

/-- An unknown direction that is marked only above the diagonal is lost: no arrow of any kind is drawn for that entry. -/
theorem C124_above_diagonal_lost {a : Args} {n : Nat} {A : Mat} {paths cycles : List (List Nat)} {d : Dot} (hlim : 0 ≤ a.lim)
    (h : makeDot a n n A paths cycles = .ok d) {i j : Nat} (hi : i < n) (hj : j < n) (hij : i < j) (hA : A i j = none)
    (hA' : A j i ≠ none) : doubles d i j = [] ∧ d.edges.filter (fun e => decide (e.src = j ∧ e.dst = i) && !e.both) = [] := by
  constructor
  · unfold doubles
    rw [(makeDot_eq h).2, List.filter_append, List.filter_append, coefEdges_not_both, coefEdges_not_both, nanEdges_between,
      nanEdges_between]
    simp [hA', not_le.2 hij]
  · have := C123_arrows hlim h i j hi hj
    rw [hA] at this
    simpa using this

/-- A matrix with an unknown entry above the diagonal only. -/
def upperA : Mat := fun i j => if (i, j) = (0, 1) then none else some 0

example : ∃ d, makeDot exArgs 2 2 upperA [] [] = .ok d ∧ doubles d 0 1 = [] := by
  obtain ⟨d, hd⟩ := C123_draws (a := exArgs) (n := 2) upperA [] [] (by simp [exArgs]) (by simp [exArgs])
  exact ⟨d, hd, (C124_above_diagonal_lost (by norm_num [exArgs]) hd (i := 0) (j := 1) (by decide) (by decide) (by decide)
    (by decide +kernel) (by decide +kernel)).1⟩

/-! ### C125: paths and cycles in the plain drawing -/

/-- An arrow is emphasised iff it is part of a path from start to end without repeated nodes. -/
theorem C125_path_arrows {a : Args} {n c : Nat} {A : Mat} {paths cycles : List (List Nat)} {d : Dot}
    (h : makeDot a n c A paths cycles = .ok d) {s t : Nat} (hp : a.path = some (s, t))
    (hpaths : ListsSimplePaths (Above n A a.lim) s t paths) {e : DotEdge} (he : e ∈ d.edges) (hb : e.both = false) :
    e.onPath = true ↔ StepOnPath (Above n A a.lim) s t e.src e.dst := by
  obtain ⟨-, -, -, h4, -⟩ := mem_plain h he hb
  rw [h4, hp]
  simp only [Option.isSome_some, Bool.true_and, decide_eq_true_eq, mem_pathEdges]
  constructor
  · rintro ⟨p, hp, x, y, rfl⟩
    obtain ⟨h1, h2⟩ := (hpaths _).1 hp
    exact ⟨x, y, h1, h2⟩
  · rintro ⟨x, y, h1, h2⟩
    exact ⟨_, (hpaths _).2 ⟨h1, h2⟩, x, y, rfl⟩

/-- A node is emphasised iff it is on such a path, provided start and end differ. -/
theorem C125_path_nodes {a : Args} {n c : Nat} {A : Mat} {paths cycles : List (List Nat)} {d : Dot}
    (h : makeDot a n c A paths cycles = .ok d) {s t : Nat} (hp : a.path = some (s, t)) (hst : s ≠ t)
    (hpaths : ListsSimplePaths (Above n A a.lim) s t paths) {v : DotNode} (hv : v ∈ d.nodes) :
    v.onPath = true ↔ ∃ p, IsPath (Above n A a.lim) s t p ∧ p.Nodup ∧ v.node ∈ p := by
  rw [(makeDot_eq h).1] at hv
  simp only [dotNodes, List.mem_map] at hv
  obtain ⟨u, -, rfl⟩ := hv
  simp only [hp, Option.isSome_some, Bool.true_and, decide_eq_true_eq, List.mem_flatMap, Prod.exists, mem_pathEdges, List.mem_cons,
    List.not_mem_nil, or_false]
  constructor
  · rintro ⟨x, y, ⟨p, hp, l, r, rfl⟩, hu⟩
    obtain ⟨h1, h2⟩ := (hpaths _).1 hp
    refine ⟨_, h1, h2, ?_⟩
    rcases hu with rfl | rfl <;> simp
  · rintro ⟨p, h1, h2, hu⟩
    obtain ⟨l, r, rfl⟩ := List.append_of_mem hu
    have hmem := (hpaths _).2 ⟨h1, h2⟩
    cases r with
    | cons b r => exact ⟨u, b, ⟨_, hmem, l, r, rfl⟩, .inl rfl⟩
    | nil =>
      rcases List.eq_nil_or_concat l with rfl | ⟨l', b, rfl⟩
      · obtain ⟨h3, h4, -⟩ := h1
        simp at h3 h4
        exact absurd (h3.symm.trans h4) hst
      · exact ⟨b, u, ⟨_, hmem, l', [], by simp⟩, .inr rfl⟩

/-- The start and the end of the path are the nodes with a double border. -/
theorem C125_path_ends {a : Args} {r c : Nat} {A : Mat} {paths cycles : List (List Nat)} {d : Dot}
    (h : makeDot a r c A paths cycles = .ok d) {v : DotNode} (hv : v ∈ d.nodes) :
    v.isEnd = true ↔ ∃ s t, a.path = some (s, t) ∧ (v.node = s ∨ v.node = t) := by
  rw [(makeDot_eq h).1] at hv
  simp only [dotNodes, List.mem_map] at hv
  obtain ⟨u, -, rfl⟩ := hv
  cases hp : a.path with
  | none => simp
  | some p => simp [Prod.ext_iff]

/-- With cycle detection an arrow is dashed iff it lies on a directed cycle, that is, iff its end leads back to its start. -/
theorem C125_cycle_arrows {a : Args} {n c : Nat} {A : Mat} {paths cycles : List (List Nat)} {d : Dot} (hlim : 0 ≤ a.lim)
    (h : makeDot a n c A paths cycles = .ok d) (hd : a.detectCycle = true)
    (hcyc : ListsSimpleCycles (Above n A a.lim) cycles) {e : DotEdge} (he : e ∈ d.edges) (hb : e.both = false) :
    e.dashed = true ↔ Relation.ReflTransGen (Above n A a.lim) e.dst e.src := by
  obtain ⟨h1, h2, h3, -, h5⟩ := mem_plain h he hb
  have hsq := makeDot_square h (.inr hd)
  subst hsq
  have hab : Above n A a.lim e.src e.dst := (arc_iff hlim).1 ⟨h2, h1, h3⟩
  rw [h5, hd]
  simp only [Bool.true_and, decide_eq_true_eq]
  exact mem_cycleEdges hcyc hab

/-- A cycle `0 → 1 → 0` and an arrow `1 → 2`. -/
def cycA : Mat := fun i j => if (i, j) = (1, 0) ∨ (i, j) = (0, 1) ∨ (i, j) = (2, 1) then some 1 else some 0

theorem cycA_above (a b : Nat) : Above 3 cycA (1 / 100) a b ↔ (a, b) = (0, 1) ∨ (a, b) = (1, 0) ∨ (a, b) = (1, 2) := by
  constructor
  · rintro ⟨ha, hb, x, hx, hl⟩
    have key : ∀ a ∈ List.range 3, ∀ b ∈ List.range 3, (1 / 100 : ℚ) < |(cycA b a).getD 0| →
        (a, b) = (0, 1) ∨ (a, b) = (1, 0) ∨ (a, b) = (1, 2) := by decide +kernel
    exact key a (List.mem_range.2 ha) b (List.mem_range.2 hb) (by rw [hx]; exact hl)
  · rintro (h | h | h) <;> cases h <;> exact ⟨by decide, by decide, 1, by decide +kernel, by norm_num⟩

theorem cycA_cycles : ListsSimpleCycles (Above 3 cycA (1 / 100)) [[0, 1]] := by
  constructor
  · intro c hc
    simp only [List.mem_singleton] at hc
    subst hc
    refine ⟨by decide, ?_, 0, 1, rfl, rfl, ?_⟩
    · simp only [List.isChain_cons_cons, cycA_above]; simp
    · simp only [cycA_above]; simp
  · rintro c ⟨hn, hch, x, y, hx, hy, hyx⟩
    refine ⟨[0, 1], by simp, ?_⟩
    rw [cycA_above] at hyx
    cases c with
    | nil => simp at hx
    | cons p c =>
      cases c with
      | nil =>
        simp at hx hy; subst hx; subst hy; simp at hyx; omega
      | cons q c =>
        obtain ⟨h1, h2⟩ := List.isChain_cons_cons.1 hch
        rw [cycA_above] at h1
        have hxp : p = x := by simpa using hx
        subst hxp
        cases c with
        | nil =>
          simp at hy; subst hy
          simp at h1 hyx
          rcases h1 with ⟨rfl, rfl⟩ | ⟨rfl, rfl⟩ | ⟨rfl, rfl⟩
          · exact List.IsRotated.refl _
          · exact ⟨1, rfl⟩
          · simp at hyx
        | cons r c =>
          obtain ⟨h3, h4⟩ := List.isChain_cons_cons.1 h2
          rw [cycA_above] at h3
          simp at h1 h3 hn
          rcases h1 with ⟨rfl, rfl⟩ | ⟨rfl, rfl⟩ | ⟨rfl, rfl⟩
          · rcases h3 with ⟨h, rfl⟩ | ⟨h, rfl⟩ | ⟨h, rfl⟩
            · simp at h
            · simp at hn
            · -- node 2 has no successor
              cases c with
              | nil => simp at hy; subst hy; simp at hyx
              | cons z c =>
                obtain ⟨h5, -⟩ := List.isChain_cons_cons.1 h4
                rw [cycA_above] at h5; simp at h5
          · rcases h3 with ⟨h, rfl⟩ | ⟨h, rfl⟩ | ⟨h, rfl⟩
            · simp at hn
            · simp at h
            · simp at h
          · rcases h3 with ⟨h, rfl⟩ | ⟨h, rfl⟩ | ⟨h, rfl⟩ <;> simp at h

theorem cycA_paths : ListsSimplePaths (Above 3 cycA (1 / 100)) 0 2 [[0, 1, 2]] := by
  intro p
  simp only [List.mem_singleton]
  constructor
  · rintro rfl
    exact ⟨⟨rfl, rfl, by simp only [List.isChain_cons_cons, cycA_above]; simp⟩, by decide⟩
  · rintro ⟨⟨h1, h2, h3⟩, h4⟩
    cases p with
    | nil => simp at h1
    | cons x p =>
      have hx : x = 0 := by simpa using h1
      subst hx
      cases p with
      | nil => simp at h2
      | cons y p =>
        obtain ⟨h5, h6⟩ := List.isChain_cons_cons.1 h3
        rw [cycA_above] at h5
        have hy : y = 1 := by simpa using h5
        subst hy
        cases p with
        | nil => simp at h2
        | cons z p =>
          obtain ⟨h7, h8⟩ := List.isChain_cons_cons.1 h6
          rw [cycA_above] at h7
          have hz : z = 0 ∨ z = 2 := by simpa using h7
          rcases hz with rfl | rfl
          · simp at h4
          · cases p with
            | nil => rfl
            | cons w p =>
              obtain ⟨h9, -⟩ := List.isChain_cons_cons.1 h8
              rw [cycA_above] at h9; simp at h9

/-- Arguments with a path and with cycle detection. -/
def pathArgs : Args := { nLabels := none, lim := 1 / 100, path := some (0, 2), detectCycle := true, ignoreShape := false }

example : ∃ d, makeDot pathArgs 3 3 cycA [[0, 1, 2]] [[0, 1]] = .ok d ∧ (∃ e ∈ d.edges, e.src = 1 ∧ e.dst = 0 ∧ e.both = false) ∧
    ∀ e ∈ d.edges, e.both = false → (e.src = 1 ∧ e.dst = 0 → e.dashed = true ∧ e.onPath = false) := by
  obtain ⟨d, hd⟩ := C123_draws (a := pathArgs) (n := 3) cycA [[0, 1, 2]] [[0, 1]] (by simp [pathArgs]) (by simp [pathArgs])
  refine ⟨d, hd, ?_, ?_⟩
  · have h1 := C123_arrows (by norm_num [pathArgs]) hd 0 1 (by decide) (by decide)
    have h2 : (match cycA 0 1 with | none => [] | some x => if pathArgs.lim < |x| then [some x] else []) = [some 1] := by decide +kernel
    rw [h2] at h1
    have h3 : some 1 ∈ (d.edges.filter (fun e => decide (e.src = 1 ∧ e.dst = 0) && !e.both)).map (·.coef) := by rw [h1]; simp
    obtain ⟨e, he, -⟩ := List.mem_map.1 h3
    simp only [List.mem_filter, Bool.and_eq_true, decide_eq_true_eq, Bool.not_eq_true'] at he
    exact ⟨e, he.1, he.2.1.1, he.2.1.2, he.2.2⟩
  · rintro e he hb ⟨h1, h2⟩
    constructor
    · rw [C125_cycle_arrows (by norm_num [pathArgs]) hd rfl cycA_cycles he hb, h1, h2]
      exact .single ((cycA_above 0 1).2 (by simp))
    · rw [← Bool.not_eq_true, C125_path_arrows hd rfl cycA_paths he hb, h1, h2]
      rintro ⟨x, y, hp, hn⟩
      have := (cycA_paths _).2 ⟨hp, hn⟩
      simp only [List.mem_singleton] at this
      have h3 : (1, 0) ∈ ([0, 1, 2] : List Nat).zip [1, 2] := mem_zip_tail.2 ⟨x, y, this.symm⟩
      simp at h3

/-! ### C126: levels around a target -/

/-- A variable is drawn as descendant of level `k` iff the shortest directed path from the target to it has `k` arrows and
`k` is within the limit, and likewise for ancestors with paths to the target.  The target has its own cluster. -/
theorem C126_levels {a : HighlightArgs} {name : Nat → String} {n : Nat} {A : Mat} {paths cycles : List (List Nat)}
    {cs : List Copy} {es : List CopyEdge} (h : makeDotHighlight a name n A paths cycles = .ok (cs, es)) {v k : Nat} (hv : v < n)
    (hvt : v ≠ a.target) (hk : 0 < k) :
    ((∃ x ∈ cs, x.node = v ∧ x.cluster = some (k : Int)) ↔
      DistanceIs (Reaching n A a.lim) a.target v k ∧ ∀ m, a.maxDsc = some m → k ≤ m) ∧
    ((∃ x ∈ cs, x.node = v ∧ x.cluster = some (-(k : Int))) ↔
      DistanceIs (fun x y => Reaching n A a.lim y x) a.target v k ∧ ∀ m, a.maxAnc = some m → k ≤ m) := by
  obtain ⟨hA, ht, hcs, -⟩ := highlight_eq h
  have hR := arc_reaching hA a.lim
  have hR' : ∀ x y, Reaching n A a.lim y x ↔ x < n ∧ y < n ∧ arc (limited a.lim (clean A)) y x = true := by
    intro x y; rw [hR y x]; constructor <;> rintro ⟨h1, h2, h3⟩ <;> exact ⟨h2, h1, h3⟩
  rw [hcs, mem_copies, mem_copies, drawnIn_pos hk, drawnIn_neg hk, distance_iff hR ht hvt,
    distance_iff (R := fun x y => Reaching n A a.lim y x) (fun x y => hR' x y) ht hvt]
  exact ⟨and_iff_right hv, and_iff_right hv⟩

/-- The remaining variables, among them those beyond the limits, are drawn as others, if at all. -/
theorem C126_others {a : HighlightArgs} {name : Nat → String} {n : Nat} {A : Mat} {paths cycles : List (List Nat)}
    {cs : List Copy} {es : List CopyEdge} (h : makeDotHighlight a name n A paths cycles = .ok (cs, es)) {v : Nat} (hv : v < n)
    (hvt : v ≠ a.target) : (∃ x ∈ cs, x.node = v ∧ x.cluster = none) ↔ a.drawOthers = true ∧
      (∀ k, DistanceIs (Reaching n A a.lim) a.target v k → ∃ m, a.maxDsc = some m ∧ m < k) ∧
      (∀ k, DistanceIs (fun x y => Reaching n A a.lim y x) a.target v k → ∃ m, a.maxAnc = some m ∧ m < k) := by
  obtain ⟨hA, ht, hcs, -⟩ := highlight_eq h
  have hR := arc_reaching hA a.lim
  have hR' : ∀ x y, Reaching n A a.lim y x ↔ x < n ∧ y < n ∧ arc (limited a.lim (clean A)) y x = true := by
    intro x y; rw [hR y x]; constructor <;> rintro ⟨h1, h2, h3⟩ <;> exact ⟨h2, h1, h3⟩
  have hnone : ∀ {o : Option Nat} {D : Nat → Prop} {c : Option Nat}, (∀ k, o = some k ↔ D k ∧ ∀ m, c = some m → k ≤ m) →
      (o = none ↔ ∀ k, D k → ∃ m, c = some m ∧ m < k) := by
    intro o D c ho
    constructor
    · rintro rfl k hk
      by_contra hcon
      push Not at hcon
      have := (ho k).2 ⟨hk, hcon⟩
      simp at this
    · intro hall
      cases o with
      | none => rfl
      | some k =>
        obtain ⟨h1, h2⟩ := (ho k).1 rfl
        obtain ⟨m, h3, h4⟩ := hall k h1
        have := h2 m h3; omega
  have e1 := hnone (fun k => distance_iff (cutoff := a.maxDsc) (k := k) hR ht hvt)
  have e2 := hnone (fun k => distance_iff (R := fun x y => Reaching n A a.lim y x) (cutoff := a.maxAnc) (k := k)
    (fun x y => hR' x y) ht hvt)
  rw [hcs, mem_copies, drawnIn_none, and_iff_right hv, e1, e2]
  refine and_congr_right fun _ => ?_
  constructor
  · rintro (hi | ⟨-, h⟩)
    · rw [isolate_iff hA hv] at hi
      constructor
      · intro k hk
        obtain ⟨w, -, hw⟩ := Relation.TransGen.tail'_iff.1 (trans_of_steps hk.1 hvt)
        exact absurd hw (hi w).2
      · intro k hk
        obtain ⟨w, -, hw⟩ := Relation.TransGen.tail'_iff.1 (trans_of_steps hk.1 hvt)
        exact absurd hw (hi w).1
    · exact h
  · intro h; exact .inr ⟨hvt, h⟩

/-- A chain `0 → 1 → 2 → 3`. -/
def chainA : Mat := fun i j => if i = j + 1 then some 1 else some 0

/-- Highlight variable 1 with one level of descendants. -/
def hArgs : HighlightArgs :=
  { target := 1, maxDsc := some 1, maxAnc := none, lim := some (1 / 100), drawOthers := true, detectCycle := false, path := none }

theorem hArgs_ok : makeDotHighlight hArgs (fun _ => "") 4 chainA [] [] =
    .ok ((copies hArgs (fun _ => "") 4 (limited hArgs.lim (clean chainA)) []), copyEdges hArgs 4 (limited hArgs.lim (clean chainA)) [] []) := by
  have h1 : finite 4 chainA = true := by decide +kernel
  have h2 : hArgs.path = none := rfl
  have h3 : hArgs.target = 1 := rfl
  unfold makeDotHighlight
  simp [h1, h2, h3]

example : (copies hArgs (fun _ => "") 4 (limited hArgs.lim (clean chainA)) []).map (fun x => (x.node, x.cluster)) =
    [(0, some (-1)), (1, some 0), (2, some 1), (3, none)] := by decide +kernel

example : DistanceIs (Reaching 4 chainA (some (1 / 100))) 1 2 1 ∧ ¬ ∃ x ∈ copies hArgs (fun _ => "") 4 (limited hArgs.lim (clean chainA)) [],
    x.node = 3 ∧ x.cluster = some 2 := by
  constructor
  · refine ((C126_levels hArgs_ok (v := 2) (k := 1) (by decide) (by decide) (by decide)).1.1 ?_).1
    exact ⟨⟨2, some 1, false, false⟩, by decide +kernel, rfl, rfl⟩
  · intro h
    have := ((C126_levels hArgs_ok (v := 3) (k := 2) (by decide) (by decide) (by decide)).1.1 h).2 1 rfl
    omega

/-- Every relation is drawn between all drawn copies of its two variables, with its coefficient, and nothing else is drawn. -/
theorem C126_arrows {a : HighlightArgs} {name : Nat → String} {n : Nat} {A : Mat} {paths cycles : List (List Nat)}
    {cs : List Copy} {es : List CopyEdge} (h : makeDotHighlight a name n A paths cycles = .ok (cs, es)) (i j : Nat) (k l : Option Int) :
    ((∃ e ∈ es, e.src = j ∧ e.srcCluster = k ∧ e.dst = i ∧ e.dstCluster = l) ↔
      Reaching n A a.lim j i ∧ (∃ x ∈ cs, x.node = j ∧ x.cluster = k) ∧ (∃ x ∈ cs, x.node = i ∧ x.cluster = l)) ∧
    ∀ e ∈ es, A e.dst e.src = some e.coef := by
  obtain ⟨hA, ht, hcs, hes⟩ := highlight_eq h
  have hR := arc_reaching hA a.lim
  have hnotother : ∀ v k, k ∈ drawnIn a n (limited a.lim (clean A)) v → (∃ x, Reaching n A a.lim v x ∨ Reaching n A a.lim x v) → v < n →
      (a.drawOthers || !isOther a n (limited a.lim (clean A)) v) = true := by
    intro v k hk hc hv
    by_contra hcon
    simp only [Bool.or_eq_true, not_or, Bool.not_eq_true, Bool.not_eq_false'] at hcon
    obtain ⟨h1, h2⟩ := hcon
    unfold drawnIn at hk
    simp only [h1, Bool.false_or, List.mem_filter] at hk
    simp only [isOther, decide_eq_true_eq] at h2
    have hiso : isolate n (limited a.lim (clean A)) v = false := by
      rw [← Bool.not_eq_true]
      intro hi
      rw [isolate_iff hA hv] at hi
      obtain ⟨x, hx | hx⟩ := hc
      · exact (hi x).1 hx
      · exact (hi x).2 hx
    unfold clustersOf at hk h2
    simp only [hiso, Bool.false_or] at hk h2
    obtain ⟨hk1, hk2⟩ := hk
    by_cases hvt : v = a.target
    · simp [hvt] at h2
    · cases hd : distance n (arc (limited a.lim (clean A))) a.maxDsc a.target v <;>
      cases ha : distance n (fun x y => arc (limited a.lim (clean A)) y x) a.maxAnc a.target v <;>
        simp [hvt, hd, ha] at h2 hk1
      subst hk1; simp at hk2
  constructor
  · rw [hcs, hes, mem_copies, mem_copies, hR]
    simp only [copyEdges, List.mem_flatMap, List.mem_map, List.mem_filter]
    constructor
    · rintro ⟨_, ⟨⟨i', j'⟩, ⟨hx, hc⟩, q, hq, r, hr, rfl⟩, rfl, rfl, rfl, rfl⟩
      rw [mem_cells] at hx
      simp only [Bool.and_eq_true, Bool.not_eq_true'] at hc
      exact ⟨⟨hx.2, hx.1, by simp [arc, hc.1]⟩, ⟨hx.2, hq⟩, hx.1, hr⟩
    · rintro ⟨⟨hj, hi, harc⟩, ⟨-, hk⟩, -, hl⟩
      have hreach := (hR j i).2 ⟨hj, hi, harc⟩
      have n1 := hnotother j k hk ⟨i, .inl hreach⟩ hj
      have n2 := hnotother i l hl ⟨j, .inr hreach⟩ hi
      refine ⟨_, ⟨(i, j), ⟨mem_cells.2 ⟨hi, hj⟩, ?_⟩, k, hk, l, hl, rfl⟩, rfl, rfl, rfl, rfl⟩
      simp only [Bool.or_eq_true, Bool.and_eq_true] at n1 n2 ⊢
      refine ⟨by simpa [arc] using harc, ?_⟩
      rcases n1 with n1 | n1
      · exact .inl n1
      · rcases n2 with n2 | n2
        · exact .inl n2
        · exact .inr ⟨n2, n1⟩
  · intro e he
    rw [hes] at he
    obtain ⟨h1, h2, h3, h4, -⟩ := mem_copyEdges he
    have hr : Reaching n A a.lim e.src e.dst := (hR _ _).2 ⟨h2, h1, by simp [arc, h3]⟩
    obtain ⟨-, -, x, hx, -, hl⟩ := hr
    rw [h4, hx]
    cases hlim : a.lim with
    | none => simp [limited, clean, hx]
    | some m => simp [limited, clean, hx, not_lt.2 (hl m hlim)]

/-- Concrete case: without the others, the arrow from 2 to the undrawn 3 is left out, and the other two arrows are drawn. -/
example : ∃ cs es, makeDotHighlight { hArgs with drawOthers := false } (fun _ => "") 4 chainA [] [] = .ok (cs, es) ∧
    (¬ ∃ e ∈ es, e.src = 2 ∧ e.dst = 3) ∧ ∃ e ∈ es, e.src = 1 ∧ e.srcCluster = some 0 ∧ e.dst = 2 ∧ e.dstCluster = some 1 := by
  have hok : makeDotHighlight { hArgs with drawOthers := false } (fun _ => "") 4 chainA [] [] =
      .ok (copies { hArgs with drawOthers := false } (fun _ => "") 4 (limited hArgs.lim (clean chainA)) [],
        copyEdges { hArgs with drawOthers := false } 4 (limited hArgs.lim (clean chainA)) [] []) := by
    have h1 : finite 4 chainA = true := by decide +kernel
    unfold makeDotHighlight
    simp [h1, hArgs]
  refine ⟨_, _, hok, ?_, ?_⟩
  · rintro ⟨e, he, h1, h2⟩
    obtain ⟨-, -, x, hx, hn, -⟩ := (C126_arrows hok 3 2 e.srcCluster e.dstCluster).1.1 ⟨e, he, h1, rfl, h2, rfl⟩
    have : ∀ x ∈ copies { hArgs with drawOthers := false } (fun _ => "") 4 (limited hArgs.lim (clean chainA)) [], x.node ≠ 3 := by decide +kernel
    exact this x hx hn
  · exact (C126_arrows hok 2 1 (some 0) (some 1)).1.2 ⟨⟨by decide, by decide, 1, rfl, by norm_num, by simp [hArgs]; norm_num⟩,
      by decide +kernel, by decide +kernel⟩

/-! ### C127: every variable once -/

/-- Around a target with at least one arrow, in a graph without directed cycles, every variable is drawn exactly once. -/
theorem C127_each_once_partial {a : HighlightArgs} {name : Nat → String} {n : Nat} {A : Mat} {paths cycles : List (List Nat)}
    {cs : List Copy} {es : List CopyEdge} (h : makeDotHighlight a name n A paths cycles = .ok (cs, es)) (hd : a.drawOthers = true)
    (hac : Acyclic (Reaching n A a.lim)) (hcon : ∃ x, Reaching n A a.lim a.target x ∨ Reaching n A a.lim x a.target) {v : Nat}
    (hv : v < n) : (cs.filter (fun x => decide (x.node = v))).length = 1 := by
  obtain ⟨hA, ht, hcs, -⟩ := highlight_eq h
  obtain ⟨k, hk⟩ := drawnIn_single hA ht hac hd hcon hv
  have := copies_of (a := a) (name := name) (adj := limited a.lim (clean A)) (paths := paths) hv
  rw [← hcs, hk] at this
  have h2 := congrArg List.length this
  simpa using h2

theorem chainA_reaching {a b : Nat} (h : Reaching 4 chainA (some (1 / 100)) a b) : a < b := by
  obtain ⟨-, -, x, hx, h1, -⟩ := h
  unfold chainA at hx
  split_ifs at hx with hc
  · omega
  · cases hx; norm_num at h1

theorem chainA_acyclic : Acyclic (Reaching 4 chainA (some (1 / 100))) := by
  intro i h
  have : ∀ a b, Relation.TransGen (Reaching 4 chainA (some (1 / 100))) a b → a < b := by
    intro a b h
    induction h with
    | single h => exact chainA_reaching h
    | tail _ h ih => exact ih.trans (chainA_reaching h)
  exact absurd (this i i h) (lt_irrefl i)

theorem chainA_connected : ∃ x, Reaching 4 chainA hArgs.lim hArgs.target x ∨ Reaching 4 chainA hArgs.lim x hArgs.target :=
  ⟨2, .inl ⟨by decide, by decide, 1, by decide +kernel, by norm_num, by
    intro l hl; cases hl; norm_num⟩⟩

example : ((copies hArgs (fun _ => "") 4 (limited hArgs.lim (clean chainA)) []).filter (fun x => decide (x.node = 3))).length = 1 :=
  C127_each_once_partial hArgs_ok rfl chainA_acyclic chainA_connected (by decide)

/-- A target without arrows is drawn twice: as target and among the others. -/
theorem C127_isolated_target_twice {a : HighlightArgs} {name : Nat → String} {n : Nat} {A : Mat} {paths cycles : List (List Nat)}
    {cs : List Copy} {es : List CopyEdge} (h : makeDotHighlight a name n A paths cycles = .ok (cs, es)) (hd : a.drawOthers = true)
    (hiso : ∀ x, ¬ Reaching n A a.lim a.target x ∧ ¬ Reaching n A a.lim x a.target) :
    (cs.filter (fun x => decide (x.node = a.target))).map (·.cluster) = [some 0, none] := by
  obtain ⟨hA, ht, hcs, -⟩ := highlight_eq h
  rw [hcs, copies_of ht]
  have hi := (isolate_iff hA ht).2 hiso
  simp [drawnIn, clustersOf, hd, hi, distance]

/-- Three variables of which variable 0 is isolated. -/
def isoA : Mat := fun i j => if (i, j) = (2, 1) then some 1 else some 0

/-- Highlight the isolated variable. -/
def isoArgs : HighlightArgs :=
  { target := 0, maxDsc := none, maxAnc := none, lim := some (1 / 100), drawOthers := true, detectCycle := false, path := none }

example : ∃ cs es, makeDotHighlight isoArgs (fun _ => "") 3 isoA [] [] = .ok (cs, es) ∧
    (cs.filter (fun x => decide (x.node = 0))).map (·.cluster) = [some 0, none] := by
  have h1 : finite 3 isoA = true := by decide +kernel
  have h2 : isoArgs.path = none := rfl
  have h3 : isoArgs.target = 0 := rfl
  have hok : makeDotHighlight isoArgs (fun _ => "") 3 isoA [] [] = .ok (copies isoArgs (fun _ => "") 3 (limited isoArgs.lim (clean isoA)) [],
      copyEdges isoArgs 3 (limited isoArgs.lim (clean isoA)) [] []) := by
    unfold makeDotHighlight; simp [h1, h2, h3]
  refine ⟨_, _, hok, C127_isolated_target_twice hok rfl ?_⟩
  rw [← isolate_iff h1 (by decide)]
  decide +kernel

/-! ### C128: the same relations as in the plain drawing -/

/-- Matrices with unknown directions cannot be drawn around a target, although double-headed arrows are documented. -/
theorem C128_unknown_rejected (a : HighlightArgs) (name : Nat → String) {n : Nat} {A : Mat} (paths cycles : List (List Nat)) {i j : Nat}
    (hi : i < n) (hj : j < n) (hA : A i j = none) : makeDotHighlight a name n A paths cycles = .error .value := by
  have : finite n A = false := by
    rw [← Bool.not_eq_true]
    intro h
    simp only [finite, List.all_eq_true] at h
    have := h (i, j) (mem_cells.2 ⟨hi, hj⟩)
    simp [hA] at this
  unfold makeDotHighlight
  exact if_pos (.inl this)

example : makeDotHighlight hArgs (fun _ => "") 3 exA [] [] = .error .value :=
  C128_unknown_rejected hArgs _ [] [] (i := 0) (j := 2) (by decide) (by decide) (by decide +kernel)

/-- Without unknown directions, without directed cycles and around a connected target, both drawings show the same arrows
with the same coefficients, if no coefficient equals the limit. -/
theorem C128_same_arrows_partial {a : HighlightArgs} {name : Nat → String} {n : Nat} {A : Mat} {paths cycles : List (List Nat)}
    {cs : List Copy} {es : List CopyEdge} (h : makeDotHighlight a name n A paths cycles = .ok (cs, es)) (hd : a.drawOthers = true)
    (hac : Acyclic (Reaching n A a.lim)) (hcon : ∃ x, Reaching n A a.lim a.target x ∨ Reaching n A a.lim x a.target)
    {b : Args} {paths' cycles' : List (List Nat)} {d : Dot} (hdot : makeDot b n n A paths' cycles' = .ok d)
    (hlim : a.lim = some b.lim) (hl : 1 / 100000000 < b.lim) (hne : ∀ i j, i < n → j < n → A i j ≠ some b.lim ∧ A i j ≠ some (-b.lim))
    {i j : Nat} (hi : i < n) (hj : j < n) :
    (es.filter (fun e => decide ((e.dst, e.src) = (i, j)))).map (fun e => some e.coef) =
      (d.edges.filter (fun e => decide (e.src = j ∧ e.dst = i) && !e.both)).map (·.coef) := by
  obtain ⟨hA, ht, -, hes⟩ := highlight_eq h
  have hl0 : 0 ≤ b.lim := le_trans (by norm_num) hl.le
  obtain ⟨k1, hk1⟩ := drawnIn_single hA ht hac hd hcon hi
  obtain ⟨k2, hk2⟩ := drawnIn_single hA ht hac hd hcon hj
  rw [C123_arrows hl0 hdot i j hi hj, hes, copyEdges_between hd, hk1, hk2]
  have : (A i j).isSome = true := by
    simp only [finite, List.all_eq_true] at hA
    exact hA (i, j) (mem_cells.2 ⟨hi, hj⟩)
  obtain ⟨x, hx⟩ := Option.isSome_iff_exists.1 this
  obtain ⟨n1, n2⟩ := hne i j hi hj
  rw [hx] at n1 n2
  have hx1 : |x| ≠ b.lim := by
    intro hc
    rcases abs_choice x with h' | h'
    · rw [h'] at hc; exact n1 (by rw [hc])
    · rw [h'] at hc; exact n2 (by rw [← hc, neg_neg])
  simp only [hi, hj, and_self, true_and, hx, hlim]
  by_cases hb : b.lim < |x|
  · have h1 : limited (some b.lim) (clean A) i j = x := by
      simp [limited, clean, hx, not_lt.2 hb.le]
    have h2 : close0 x = false := by simp only [close0, decide_eq_false_iff_not, not_le]; linarith
    simp [h1, h2, hb]
  · have h1 : limited (some b.lim) (clean A) i j = 0 := by
      have : |x| < b.lim := lt_of_le_of_ne (not_lt.1 hb) hx1
      simp [limited, clean, hx, this]
    have h2 : close0 0 = true := by simp [close0]
    simp [h1, h2, hb]

example (d : Dot) (hdot : makeDot exArgs 4 4 chainA [] [] = .ok d) :
    ((copyEdges hArgs 4 (limited hArgs.lim (clean chainA)) [] []).filter (fun e => decide ((e.dst, e.src) = (2, 1)))).map
      (fun e => some e.coef) = (d.edges.filter (fun e => decide (e.src = 1 ∧ e.dst = 2) && !e.both)).map (·.coef) :=
  C128_same_arrows_partial hArgs_ok rfl chainA_acyclic chainA_connected hdot rfl (by norm_num [exArgs]) (by
    have key : ∀ i ∈ List.range 4, ∀ j ∈ List.range 4, chainA i j ≠ some exArgs.lim ∧ chainA i j ≠ some (-exArgs.lim) := by decide +kernel
    exact fun i j hi hj => key i (List.mem_range.2 hi) j (List.mem_range.2 hj)) (by decide) (by decide)

/-- A coefficient equal to the limit is drawn around a target but not in the plain drawing. -/
theorem C128_limit_differs {a : HighlightArgs} {name : Nat → String} {n : Nat} {A : Mat} {paths cycles : List (List Nat)}
    {cs : List Copy} {es : List CopyEdge} (h : makeDotHighlight a name n A paths cycles = .ok (cs, es)) (hd : a.drawOthers = true)
    (hac : Acyclic (Reaching n A a.lim)) (hcon : ∃ x, Reaching n A a.lim a.target x ∨ Reaching n A a.lim x a.target)
    {b : Args} {paths' cycles' : List (List Nat)} {d : Dot} (hdot : makeDot b n n A paths' cycles' = .ok d)
    (hlim : a.lim = some b.lim) (hl : 1 / 100000000 < b.lim) {i j : Nat} (hi : i < n) (hj : j < n) (hA : A i j = some b.lim) :
    (es.filter (fun e => decide ((e.dst, e.src) = (i, j)))).map (fun e => some e.coef) = [some b.lim] ∧
      (d.edges.filter (fun e => decide (e.src = j ∧ e.dst = i) && !e.both)).map (·.coef) = [] := by
  obtain ⟨hfin, ht, -, hes⟩ := highlight_eq h
  have hl0 : 0 ≤ b.lim := le_trans (by norm_num) hl.le
  obtain ⟨k1, hk1⟩ := drawnIn_single hfin ht hac hd hcon hi
  obtain ⟨k2, hk2⟩ := drawnIn_single hfin ht hac hd hcon hj
  have habs : |b.lim| = b.lim := abs_of_nonneg hl0
  constructor
  · rw [hes, copyEdges_between hd, hk1, hk2]
    have h1 : limited (some b.lim) (clean A) i j = b.lim := by simp [limited, clean, hA, habs]
    have h2 : close0 b.lim = false := by simp only [close0, habs, decide_eq_false_iff_not, not_le]; linarith
    simp [hi, hj, hlim, h1, h2]
  · rw [C123_arrows hl0 hdot i j hi hj, hA]
    simp [habs]

/-- A coefficient equal to the default limit. -/
def limA : Mat := fun i j => if (i, j) = (1, 0) then some (1 / 100) else some 0

/-- Highlight variable 0 with the default limit. -/
def limArgs : HighlightArgs := isoArgs

example : ∃ cs es d, makeDotHighlight limArgs (fun _ => "") 2 limA [] [] = .ok (cs, es) ∧ makeDot exArgs 2 2 limA [] [] = .ok d ∧
    (es.filter (fun e => decide ((e.dst, e.src) = (1, 0)))).map (fun e => some e.coef) = [some (1 / 100)] ∧
    (d.edges.filter (fun e => decide (e.src = 0 ∧ e.dst = 1) && !e.both)).map (·.coef) = [] := by
  obtain ⟨d, hd⟩ := C123_draws (a := exArgs) (n := 2) limA [] [] (by simp [exArgs]) (by simp [exArgs])
  have h1 : finite 2 limA = true := by decide +kernel
  have h2 : limArgs.path = none := rfl
  have h3 : limArgs.target = 0 := rfl
  have hok : makeDotHighlight limArgs (fun _ => "") 2 limA [] [] = .ok (copies limArgs (fun _ => "") 2 (limited limArgs.lim (clean limA)) [],
      copyEdges limArgs 2 (limited limArgs.lim (clean limA)) [] []) := by
    unfold makeDotHighlight; simp [h1, h2, h3]
  have hlt : ∀ a b, Reaching 2 limA limArgs.lim a b → a = 0 ∧ b = 1 := by
    rintro a b ⟨-, -, x, hx, h4, -⟩
    unfold limA at hx
    split_ifs at hx with hc
    · cases hc; exact ⟨rfl, rfl⟩
    · cases hx; norm_num at h4
  have hac : Acyclic (Reaching 2 limA limArgs.lim) := by
    intro i h
    obtain ⟨w, hw, -⟩ := Relation.TransGen.head'_iff.1 h
    obtain ⟨w', -, hw'⟩ := Relation.TransGen.tail'_iff.1 h
    have := (hlt _ _ hw).1; have := (hlt _ _ hw').2; omega
  have hcon : ∃ x, Reaching 2 limA limArgs.lim limArgs.target x ∨ Reaching 2 limA limArgs.lim x limArgs.target :=
    ⟨1, .inl ⟨by decide, by decide, 1 / 100, by decide +kernel, by norm_num, by intro l hl; cases hl; norm_num⟩⟩
  exact ⟨_, _, d, hok, hd, C128_limit_differs hok rfl hac hcon hd rfl (by norm_num [exArgs]) (by decide) (by decide) (by decide +kernel)⟩

/-! ### C129: paths around a target -/

/-- The arrows of a path and of the cycles are marked around a target. -/
theorem C129_arrows_partial {a : HighlightArgs} {name : Nat → String} {n : Nat} {A : Mat} {paths cycles : List (List Nat)}
    {cs : List Copy} {es : List CopyEdge} (h : makeDotHighlight a name n A paths cycles = .ok (cs, es)) {s t : Nat}
    (hp : a.path = some (s, t)) (hpaths : ListsSimplePaths (Reaching n A a.lim) s t paths)
    (hcyc : ListsSimpleCycles (Reaching n A a.lim) cycles) {e : CopyEdge} (he : e ∈ es) :
    (e.onPath = true ↔ StepOnPath (Reaching n A a.lim) s t e.src e.dst) ∧
      (e.dashed = true ↔ a.detectCycle = true ∧ Relation.ReflTransGen (Reaching n A a.lim) e.dst e.src) := by
  obtain ⟨hA, -, -, hes⟩ := highlight_eq h
  rw [hes] at he
  obtain ⟨h1, h2, h3, -, h5, h6⟩ := mem_copyEdges he
  have hab : Reaching n A a.lim e.src e.dst := (arc_reaching hA a.lim _ _).2 ⟨h2, h1, by simp [arc, h3]⟩
  constructor
  · rw [h5, hp]
    simp only [Option.isSome_some, Bool.true_and, decide_eq_true_eq, mem_pathEdges]
    constructor
    · rintro ⟨p, hp, x, y, rfl⟩
      obtain ⟨h1, h2⟩ := (hpaths _).1 hp
      exact ⟨x, y, h1, h2⟩
    · rintro ⟨x, y, h1, h2⟩
      exact ⟨_, (hpaths _).2 ⟨h1, h2⟩, x, y, rfl⟩
  · rw [h6, Bool.and_eq_true, decide_eq_true_eq, mem_cycleEdges hcyc hab]

/-- But the nodes of the path never are, whatever the path. -/
theorem C129_nodes_never {a : HighlightArgs} {name : Nat → String} {n : Nat} {A : Mat} {paths cycles : List (List Nat)}
    {cs : List Copy} {es : List CopyEdge} (h : makeDotHighlight a name n A paths cycles = .ok (cs, es)) : ∀ x ∈ cs, x.onPath = false := by
  obtain ⟨-, -, hcs, -⟩ := highlight_eq h
  intro x hx
  rw [hcs] at hx
  simp only [copies, List.mem_flatMap, List.mem_map] at hx
  obtain ⟨v, -, k, -, rfl⟩ := hx
  simp [pathNodes]

/-- The double border marks exactly the copies of the two end points of the path. -/
theorem C129_border {a : HighlightArgs} {name : Nat → String} {n : Nat} {A : Mat} {paths cycles : List (List Nat)}
    {cs : List Copy} {es : List CopyEdge} (h : makeDotHighlight a name n A paths cycles = .ok (cs, es)) :
    ∀ x ∈ cs, (x.isEnd = true ↔ ∃ s t, a.path = some (s, t) ∧ (x.node = s ∨ x.node = t)) := by
  obtain ⟨-, -, hcs, -⟩ := highlight_eq h
  intro x hx
  rw [hcs] at hx
  simp only [copies, List.mem_flatMap, List.mem_map] at hx
  obtain ⟨v, -, k, -, rfl⟩ := hx
  rcases hp : a.path with _ | ⟨s, t⟩
  · simp
  · simp

/-- The cycle example with a path from 0 to 2. -/
def cycArgs : HighlightArgs :=
  { target := 0, maxDsc := none, maxAnc := none, lim := some (1 / 100), drawOthers := true, detectCycle := true, path := some (0, 2) }

theorem cycA_reaching : Reaching 3 cycA (some (1 / 100)) = Above 3 cycA (1 / 100) := by
  funext a b
  apply propext
  have hval : ∀ i j x, cycA i j = some x → x = 1 ∨ x = 0 := by
    intro i j x hx
    unfold cycA at hx
    split_ifs at hx <;> cases hx <;> simp
  constructor
  · rintro ⟨ha, hb, x, hx, h1, -⟩
    refine ⟨ha, hb, x, hx, ?_⟩
    rcases hval _ _ _ hx with rfl | rfl
    · norm_num
    · norm_num at h1
  · rintro ⟨ha, hb, x, hx, h1⟩
    refine ⟨ha, hb, x, hx, by linarith, ?_⟩
    intro l hl; cases hl; exact h1.le

example : ∃ cs es, makeDotHighlight cycArgs (fun i => s!"x{i}") 3 cycA [[0, 1, 2]] [[0, 1]] = .ok (cs, es) ∧
    (∀ x ∈ cs, x.onPath = false) ∧ (∃ e ∈ es, e.src = 0 ∧ e.dst = 1) ∧
    ∀ e ∈ es, e.src = 0 → e.dst = 1 → e.onPath = true ∧ e.dashed = true := by
  have h1 : finite 3 cycA = true := by decide +kernel
  have hok : makeDotHighlight cycArgs (fun i => s!"x{i}") 3 cycA [[0, 1, 2]] [[0, 1]] =
      .ok (copies cycArgs (fun i => s!"x{i}") 3 (limited cycArgs.lim (clean cycA)) [[0, 1, 2]],
        copyEdges cycArgs 3 (limited cycArgs.lim (clean cycA)) [[0, 1, 2]] [[0, 1]]) := by
    unfold makeDotHighlight; simp [h1, cycArgs]
  refine ⟨_, _, hok, C129_nodes_never hok, ?_, ?_⟩
  · have key : ((copyEdges cycArgs 3 (limited cycArgs.lim (clean cycA)) [[0, 1, 2]] [[0, 1]]).any
        (fun e => decide (e.src = 0 ∧ e.dst = 1))) = true := by decide +kernel
    obtain ⟨e, he, h⟩ := List.any_eq_true.1 key
    exact ⟨e, he, by simpa using h⟩
  · intro e he hs hd
    have hr : Reaching 3 cycA cycArgs.lim = Above 3 cycA (1 / 100) := cycA_reaching
    obtain ⟨h4, h5⟩ := C129_arrows_partial hok rfl (by rw [hr]; exact cycA_paths) (by rw [hr]; exact cycA_cycles) he
    rw [hr, hs, hd] at h4 h5
    refine ⟨h4.2 ⟨[], [2], ⟨rfl, rfl, by simp only [List.nil_append, List.isChain_cons_cons, cycA_above]; simp⟩, by decide⟩, h5.2 ⟨rfl, .single ((cycA_above 1 0).2 (by simp))⟩⟩

/-- Which end points of a path are accepted: those that are variables.  A larger number than the number of variables is rejected with
`ValueError`, the number of variables itself passes this check and fails later. -/
theorem C129_end_points {a : HighlightArgs} (name : Nat → String) {n : Nat} {A : Mat} (paths cycles : List (List Nat)) {s t : Nat}
    (hp : a.path = some (s, t)) (hfin : finite n A = true) (hn : 2 ≤ n) (ht : a.target < n) :
    ((∃ x, makeDotHighlight a name n A paths cycles = .ok x) ↔ s < n ∧ t < n) ∧
      (makeDotHighlight a name n A paths cycles = .error .value ↔ n < s ∨ n < t) ∧
      (makeDotHighlight a name n A paths cycles = .error .index ↔ max s t = n) := by
  unfold makeDotHighlight
  rw [if_neg (by simp [hfin]; omega), if_neg (by omega), hp]
  by_cases h1 : n < s ∨ n < t
  · have : ¬ (max s t = n) := by omega
    have : ¬ (s < n ∧ t < n) := by omega
    simp [*]
  · by_cases h2 : n ≤ s ∨ n ≤ t
    · have : max s t = n := by omega
      have : ¬ (s < n ∧ t < n) := by omega
      simp [*]
    · have : ¬ (max s t = n) := by omega
      have : s < n ∧ t < n := by omega
      simp [*]

end Verif.Drawing
