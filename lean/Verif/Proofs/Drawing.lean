import Verif.Model.Drawing
import Verif.Spec.Drawing
import Verif.Proofs.Order

set_option autoImplicit false
set_option linter.unusedSectionVars false
namespace Verif.Drawing

theorem mem_cells {r c i j : Nat} : (i, j) ∈ cells r c ↔ i < r ∧ j < c := by
  simp only [cells, List.mem_flatMap, List.mem_range, List.mem_map, Prod.mk.injEq]
  constructor
  · rintro ⟨a, ha, b, hb, rfl, rfl⟩; exact ⟨ha, hb⟩
  · rintro ⟨hi, hj⟩; exact ⟨i, hi, j, hj, rfl, rfl⟩

theorem nodup_cells (r c : Nat) : (cells r c).Nodup := by
  unfold cells
  rw [List.nodup_flatMap]
  refine ⟨fun a _ => ?_, ?_⟩
  · exact (List.nodup_range).map (fun x y h => (Prod.mk.inj h).2)
  · refine List.Pairwise.imp ?_ (List.nodup_range (n := r))
    intro a b hab x hx hy
    simp only [List.mem_map] at hx hy
    obtain ⟨_, _, rfl⟩ := hx
    obtain ⟨_, _, h⟩ := hy
    exact hab (Prod.mk.inj h).1.symm

/-- Keeping one cell of a list without repetitions. -/
theorem filter_cell {l : List (Nat × Nat)} (hl : l.Nodup) (i j : Nat) :
    l.filter (fun x => decide (x.1 = i ∧ x.2 = j)) = if (i, j) ∈ l then [(i, j)] else [] := by
  have h1 : l.filter (fun x => decide (x.1 = i ∧ x.2 = j)) = l.filter (fun x => x == (i, j)) := by
    refine List.filter_congr fun x _ => ?_
    rcases x with ⟨a, b⟩
    by_cases h : a = i ∧ b = j
    · obtain ⟨rfl, rfl⟩ := h; simp
    · rw [decide_eq_false h, eq_comm, beq_eq_false_iff_ne]
      intro h'; exact h (Prod.mk.inj h')
  rw [h1, List.filter_beq]
  by_cases h : (i, j) ∈ l
  · rw [if_pos h, List.count_eq_one_of_mem hl h]; rfl
  · rw [if_neg h, List.count_eq_zero_of_not_mem h]; rfl

theorem filter_filter_cell {l : List (Nat × Nat)} (hl : l.Nodup) (P : Nat × Nat → Bool) (i j : Nat) :
    (l.filter P).filter (fun x => decide (x.1 = i ∧ x.2 = j)) = if (i, j) ∈ l ∧ P (i, j) = true then [(i, j)] else [] := by
  rw [filter_cell (hl.filter P)]
  simp only [List.mem_filter]

/-! ### Paths and cycles -/

theorem mem_zip_tail {p : List Nat} {a b : Nat} : (a, b) ∈ p.zip p.tail ↔ ∃ x y, p = x ++ a :: b :: y := by
  induction p with
  | nil => simp
  | cons h t ih =>
    cases t with
    | nil =>
      simp only [List.tail_cons, List.zip_nil_right, List.not_mem_nil, false_iff]
      rintro ⟨x, y, hxy⟩
      have := congrArg List.length hxy
      simp at this; omega
    | cons h' t =>
      simp only [List.tail_cons, List.zip_cons_cons, List.mem_cons, Prod.mk.injEq] at ih ⊢
      rw [ih]
      constructor
      · rintro (⟨rfl, rfl⟩ | ⟨x, y, hxy⟩)
        · exact ⟨[], t, rfl⟩
        · exact ⟨h :: x, y, by rw [hxy]; rfl⟩
      · rintro ⟨x, y, hxy⟩
        cases x with
        | nil => left; simp at hxy; exact ⟨hxy.1.symm, hxy.2.1.symm⟩
        | cons z x => right; simp at hxy; exact ⟨x, y, hxy.2⟩

theorem mem_pathEdges {paths : List (List Nat)} {a b : Nat} :
    (a, b) ∈ pathEdges paths ↔ ∃ p ∈ paths, ∃ x y, p = x ++ a :: b :: y := by
  simp only [pathEdges, List.mem_flatMap, mem_zip_tail]

/-- A walk contains a path without repeated nodes. -/
theorem exists_simple {E : Nat → Nat → Prop} {a b : Nat} (h : Relation.ReflTransGen E a b) :
    ∃ p, IsPath E a b p ∧ p.Nodup := by
  induction h using Relation.ReflTransGen.head_induction_on with
  | refl => exact ⟨[b], ⟨rfl, rfl, by simp⟩, by simp⟩
  | @head a c hac _ ih =>
    obtain ⟨p, ⟨hh, hl, hch⟩, hn⟩ := ih
    by_cases ha : a ∈ p
    · obtain ⟨x, y, rfl⟩ := List.append_of_mem ha
      refine ⟨a :: y, ⟨rfl, ?_, (List.isChain_append.1 hch).2.1⟩, (List.nodup_append.1 hn).2.1⟩
      rw [← hl, List.getLast?_append, List.getLast?_cons]; rfl
    · cases p with
      | nil => simp at hh
      | cons d t =>
        have hdc : d = c := by simpa using hh
        subst hdc
        refine ⟨a :: d :: t, ⟨rfl, ?_, List.isChain_cons_cons.2 ⟨hac, hch⟩⟩, List.nodup_cons.2 ⟨ha, hn⟩⟩
        rw [← hl]; simp

theorem chain_reaches {E : Nat → Nat → Prop} : ∀ {p : List Nat} {a b : Nat}, p.head? = some a → p.getLast? = some b →
    p.IsChain E → Relation.ReflTransGen E a b
  | [], _, _, h, _, _ => by simp at h
  | [x], a, b, h, h', _ => by
    simp at h h'; subst h; subst h'; exact .refl
  | x :: y :: t, a, b, h, h', hc => by
    simp only [List.head?_cons, Option.some.injEq] at h
    subst h
    obtain ⟨h1, h2⟩ := List.isChain_cons_cons.1 hc
    exact .head h1 (chain_reaches (p := y :: t) rfl (by simpa using h') h2)

/-- The pairs of neighbours on a cycle. -/
theorem mem_zip_rotate {c : List Nat} {a b : Nat} : (a, b) ∈ c.zip (c.rotate 1) ↔
    (∃ x y, c = x ++ a :: b :: y) ∨ (c.getLast? = some a ∧ c.head? = some b) := by
  cases c with
  | nil => simp
  | cons h t =>
    have hz : (h :: t).rotate 1 = t ++ [h] := by simp
    rw [hz]
    have key : ∀ (t : List Nat) (h d : Nat), (a, b) ∈ (h :: t).zip (t ++ [d]) ↔
        (∃ x y, h :: t = x ++ a :: b :: y) ∨ ((h :: t).getLast? = some a ∧ b = d) := by
      intro t
      induction t with
      | nil =>
        intro h d
        simp only [List.nil_append, List.zip_cons_cons, List.zip_nil_right, List.mem_cons, Prod.mk.injEq, List.not_mem_nil,
          or_false, List.getLast?_singleton, Option.some.injEq]
        constructor
        · rintro ⟨rfl, rfl⟩; exact .inr ⟨rfl, rfl⟩
        · rintro (⟨x, y, hxy⟩ | ⟨rfl, rfl⟩)
          · have := congrArg List.length hxy
            simp at this; omega
          · exact ⟨rfl, rfl⟩
      | cons g t ih =>
        intro h d
        simp only [List.cons_append, List.zip_cons_cons, List.mem_cons, Prod.mk.injEq]
        have hlast : (h :: g :: t).getLast? = (g :: t).getLast? := by simp [List.getLast?_cons]
        have ih' := ih g d
        rw [hlast]
        constructor
        · rintro (⟨rfl, rfl⟩ | hm)
          · exact .inl ⟨[], t, rfl⟩
          · rcases ih'.1 hm with ⟨x, y, hxy⟩ | h2
            · exact .inl ⟨h :: x, y, by rw [hxy]; rfl⟩
            · exact .inr h2
        · rintro (⟨x, y, hxy⟩ | h2)
          · cases x with
            | nil => left; simp at hxy; exact ⟨hxy.1.symm, hxy.2.1.symm⟩
            | cons z x => right; simp at hxy; exact ih'.2 (.inl ⟨x, y, hxy.2⟩)
          · exact .inr (ih'.2 (.inr h2))
    rw [key t h h]
    simp only [List.head?_cons, Option.some.injEq]
    constructor
    · rintro (h1 | ⟨h1, h2⟩)
      · exact .inl h1
      · exact .inr ⟨h1, h2.symm⟩
    · rintro (h1 | ⟨h1, h2⟩)
      · exact .inl h1
      · exact .inr ⟨h1, h2.symm⟩

/-- Rotating a cycle does not change its edges. -/
theorem mem_zip_rotated {c c' : List Nat} (h : c ~r c') (x : Nat × Nat) : x ∈ c.zip (c.rotate 1) ↔ x ∈ c'.zip (c'.rotate 1) := by
  obtain ⟨n, rfl⟩ := h
  have : (c.rotate n).zip ((c.rotate n).rotate 1) = (c.zip (c.rotate 1)).rotate n := by
    rw [List.rotate_rotate, Nat.add_comm n 1, ← List.rotate_rotate]
    simp only [List.zip]
    rw [List.zipWith_rotate_distrib]
    simp
  rw [this, List.mem_rotate]

/-- An edge is on a listed cycle iff its end leads back to its start. -/
theorem mem_cycleEdges {E : Nat → Nat → Prop} {cycles : List (List Nat)} (h : ListsSimpleCycles E cycles) {a b : Nat} (hab : E a b) :
    (a, b) ∈ cycleEdges cycles ↔ Relation.ReflTransGen E b a := by
  simp only [cycleEdges, List.mem_flatMap]
  constructor
  · rintro ⟨c, hc, hm⟩
    obtain ⟨-, hch, f, l, hf, hl, hlf⟩ := h.1 c hc
    rcases mem_zip_rotate.1 hm with ⟨x, y, rfl⟩ | ⟨h1, h2⟩
    · -- follow the cycle from `b` to its last node, back to the first and on to `a`
      obtain ⟨hx, hy, hxy⟩ := List.isChain_append.1 hch
      have h1 : Relation.ReflTransGen E b l := by
        refine chain_reaches (p := b :: y) rfl ?_ (List.isChain_cons_cons.1 hy).2
        rw [← hl]; simp [List.getLast?_append, List.getLast?_cons]
      have h2 : Relation.ReflTransGen E f a := by
        refine chain_reaches (p := x ++ [a]) ?_ (by simp) ?_
        · rw [← hf]; cases x <;> simp
        · rw [List.isChain_append]
          exact ⟨hx, by simp, fun u hu v hv => hxy u hu v (by simpa using hv)⟩
      exact (h1.tail hlf).trans h2
    · refine chain_reaches h2 h1 hch
  · intro hba
    obtain ⟨p, ⟨hh, hl, hch⟩, hn⟩ := exists_simple hba
    obtain ⟨c, hc, hrot⟩ := h.2 p ⟨hn, hch, b, a, hh, hl, hab⟩
    exact ⟨c, hc, (mem_zip_rotated hrot _).2 (mem_zip_rotate.2 (.inr ⟨hl, hh⟩))⟩

/-! ### Distances -/

theorem walk_iff {n : Nat} {E : Nat → Nat → Bool} (hE : ∀ a b, E a b = true → b < n) : ∀ (k a b : Nat),
    walk n E k a b = true ↔ Steps (fun x y => E x y = true) k a b
  | 0, a, b => by simp [walk, Steps]
  | k + 1, a, b => by
    simp only [walk, Steps, List.any_eq_true, List.mem_range, Bool.and_eq_true]
    constructor
    · rintro ⟨x, -, h1, h2⟩; exact ⟨x, h1, (walk_iff hE k x b).1 h2⟩
    · rintro ⟨x, h1, h2⟩; exact ⟨x, hE a x h1, h1, (walk_iff hE k x b).2 h2⟩

theorem steps_of_chain {E : Nat → Nat → Prop} : ∀ {p : List Nat} {a b : Nat}, p.head? = some a → p.getLast? = some b →
    p.IsChain E → Steps E (p.length - 1) a b
  | [], _, _, h, _, _ => by simp at h
  | [x], a, b, h, h', _ => by simp at h h'; subst h; subst h'; rfl
  | x :: y :: t, a, b, h, h', hc => by
    simp only [List.head?_cons, Option.some.injEq] at h
    subst h
    obtain ⟨h1, h2⟩ := List.isChain_cons_cons.1 hc
    exact ⟨y, h1, steps_of_chain (p := y :: t) rfl (by simpa using h') h2⟩

theorem reaches_of_steps {E : Nat → Nat → Prop} : ∀ {k a b : Nat}, Steps E k a b → Relation.ReflTransGen E a b
  | 0, _, _, h => by cases h; exact .refl
  | _ + 1, _, _, ⟨_, h1, h2⟩ => .head h1 (reaches_of_steps h2)

/-- Shortest walks have fewer steps than there are nodes. -/
theorem distance_lt {E : Nat → Nat → Prop} {n a b k : Nat} (hE : ∀ x y, E x y → y < n) (ha : a < n)
    (h : DistanceIs E a b k) : k < n := by
  obtain ⟨p, ⟨hh, hl, hch⟩, hn⟩ := exists_simple (reaches_of_steps h.1)
  have hlt : ∀ x ∈ p, x < n := by
    intro x hx
    cases p with
    | nil => simp at hx
    | cons d t =>
      have hd : d = a := by simpa using hh
      subst hd
      rcases List.mem_cons.1 hx with rfl | hx
      · exact ha
      · -- every later node is the end of an edge
        have : ∀ (t : List Nat) (d : Nat), (d :: t).IsChain E → ∀ x ∈ t, x < n := by
          intro t
          induction t with
          | nil => intro d _ x hx; simp at hx
          | cons g t ih =>
            intro d hc x hx
            obtain ⟨h1, h2⟩ := List.isChain_cons_cons.1 hc
            rcases List.mem_cons.1 hx with rfl | hx
            · exact hE _ _ h1
            · exact ih g h2 x hx
        exact this t d hch x hx
  have hlen : p.length ≤ n := by
    have := (List.subperm_of_subset hn (l₂ := List.range n) fun x hx => List.mem_range.2 (hlt x hx)).length_le
    simpa using this
  have hs := steps_of_chain hh hl hch
  by_contra hcon
  refine h.2 (p.length - 1) ?_ hs
  have : p ≠ [] := by rintro rfl; simp at hh
  have : 0 < p.length := List.length_pos_iff.2 this
  omega

theorem distance_eq {n : Nat} {E : Nat → Nat → Bool} (hE : ∀ a b, E a b = true → b < n) {cutoff : Option Nat} {s v k : Nat}
    (hs : s < n) (hv : v ≠ s) : distance n E cutoff s v = some k ↔
      DistanceIs (fun x y => E x y = true) s v k ∧ ∀ m, cutoff = some m → k ≤ m := by
  have hfind : ∀ k, (List.range n).find? (fun k => walk n E k s v) = some k ↔ DistanceIs (fun x y => E x y = true) s v k := by
    intro k
    rw [List.find?_range_eq_some]
    constructor
    · rintro ⟨h1, h2, h3⟩
      refine ⟨(walk_iff hE _ _ _).1 h1, fun j hj hcon => ?_⟩
      have := h3 j hj
      rw [(walk_iff hE _ _ _).2 hcon] at this
      simp at this
    · intro h
      refine ⟨(walk_iff hE _ _ _).2 h.1, by simpa using distance_lt hE hs h, fun j hj => ?_⟩
      have := h.2 j hj
      rw [← walk_iff hE] at this
      simpa using this
  rw [distance, if_neg hv, Option.filter_eq_some_iff, hfind]
  simp only [decide_eq_true_eq]
  constructor
  · rintro ⟨h1, h2⟩
    refine ⟨h1, fun m hm => ?_⟩
    rw [hm] at h2; simpa using h2
  · rintro ⟨h1, h2⟩
    refine ⟨h1, ?_⟩
    cases cutoff with
    | none => exact (distance_lt hE hs h1).le
    | some m => exact h2 m rfl


/-! ### The plain drawing -/

theorem arc_iff {n : Nat} {A : Mat} {lim : ℚ} (hlim : 0 ≤ lim) {a b : Nat} : Arc n A lim a b ↔ Above n A lim a b := by
  unfold Arc Above idx clean
  refine and_congr_right fun _ => and_congr_right fun _ => ?_
  rw [decide_eq_true_iff]
  cases h : A b a with
  | none => simp [hlim]
  | some x => simp

theorem makeDot_eq {a : Args} {r c : Nat} {A : Mat} {paths cycles : List (List Nat)} {d : Dot}
    (h : makeDot a r c A paths cycles = .ok d) :
    d.nodes = dotNodes a r paths ∧ d.edges = coefEdges a r c A paths cycles ++ nanEdges r c A := by
  unfold makeDot at h
  cases hc : check a r c with
  | error e => simp [hc] at h
  | ok u =>
    simp only [hc] at h
    split_ifs at h
    cases h
    exact ⟨rfl, rfl⟩

theorem makeDot_square {a : Args} {r c : Nat} {A : Mat} {paths cycles : List (List Nat)} {d : Dot}
    (h : makeDot a r c A paths cycles = .ok d) (hp : a.path.isSome ∨ a.detectCycle = true) : r = c := by
  unfold makeDot at h
  cases hc : check a r c with
  | error e => simp [hc] at h
  | ok u =>
    unfold check at hc
    split_ifs at hc with h1 h2 h3 h4
    by_contra hne
    exact h4 ⟨hne, hp⟩

theorem coefEdges_between {a : Args} {r c : Nat} {A : Mat} {paths cycles : List (List Nat)} (i j : Nat) :
    (coefEdges a r c A paths cycles).filter (fun e => decide (e.src = j ∧ e.dst = i) && !e.both) =
      if (i < r ∧ j < c) ∧ idx A a.lim i j = true then
        [{ src := j, dst := i, coef := some (clean A i j), onPath := a.path.isSome && decide ((j, i) ∈ pathEdges paths),
           dashed := a.detectCycle && decide ((j, i) ∈ cycleEdges cycles), both := false }] else [] := by
  unfold coefEdges
  rw [List.filter_map]
  have : ((fun e : DotEdge => decide (e.src = j ∧ e.dst = i) && !e.both) ∘ fun x : Nat × Nat =>
      ({ src := x.2, dst := x.1, coef := some (clean A x.1 x.2), onPath := a.path.isSome && decide ((x.2, x.1) ∈ pathEdges paths),
         dashed := a.detectCycle && decide ((x.2, x.1) ∈ cycleEdges cycles), both := false } : DotEdge)) =
      fun x => decide (x.1 = i ∧ x.2 = j) := by
    funext x; simp [Bool.and_comm]
  rw [this, filter_filter_cell (nodup_cells r c)]
  simp only [mem_cells]
  split_ifs <;> rfl

theorem nanEdges_not_plain {r c : Nat} {A : Mat} (i j : Nat) :
    (nanEdges r c A).filter (fun e => decide (e.src = j ∧ e.dst = i) && !e.both) = [] := by
  rw [List.filter_eq_nil_iff]
  intro e he
  simp only [nanEdges, List.mem_map] at he
  obtain ⟨x, -, rfl⟩ := he
  simp

theorem nanEdges_between {r c : Nat} {A : Mat} (i j : Nat) :
    (nanEdges r c A).filter (fun e => decide (e.src = j ∧ e.dst = i) && e.both) =
      if (i < r ∧ j < c) ∧ j ≤ i ∧ A i j = none then
        [{ src := j, dst := i, coef := none, onPath := false, dashed := false, both := true }] else [] := by
  unfold nanEdges
  rw [List.filter_map]
  have : ((fun e : DotEdge => decide (e.src = j ∧ e.dst = i) && e.both) ∘ fun x : Nat × Nat =>
      ({ src := x.2, dst := x.1, coef := none, onPath := false, dashed := false, both := true } : DotEdge)) =
      fun x => decide (x.1 = i ∧ x.2 = j) := by
    funext x; simp [Bool.and_comm]
  rw [this, filter_filter_cell (nodup_cells r c)]
  simp only [mem_cells, Bool.and_eq_true, decide_eq_true_eq, Option.isNone_iff_eq_none]
  split_ifs <;> rfl

theorem coefEdges_not_both {a : Args} {r c : Nat} {A : Mat} {paths cycles : List (List Nat)} (i j : Nat) :
    (coefEdges a r c A paths cycles).filter (fun e => decide (e.src = j ∧ e.dst = i) && e.both) = [] := by
  rw [List.filter_eq_nil_iff]
  intro e he
  simp only [coefEdges, List.mem_map] at he
  obtain ⟨x, -, rfl⟩ := he
  simp

theorem mem_plain {a : Args} {r c : Nat} {A : Mat} {paths cycles : List (List Nat)} {d : Dot}
    (h : makeDot a r c A paths cycles = .ok d) {e : DotEdge} (he : e ∈ d.edges) (hb : e.both = false) :
    e.dst < r ∧ e.src < c ∧ idx A a.lim e.dst e.src = true ∧ e.onPath = (a.path.isSome && decide ((e.src, e.dst) ∈ pathEdges paths)) ∧
      e.dashed = (a.detectCycle && decide ((e.src, e.dst) ∈ cycleEdges cycles)) := by
  rw [(makeDot_eq h).2, List.mem_append] at he
  rcases he with he | he
  · simp only [coefEdges, List.mem_map, List.mem_filter] at he
    obtain ⟨⟨i, j⟩, ⟨hx, hi⟩, rfl⟩ := he
    rw [mem_cells] at hx
    exact ⟨hx.1, hx.2, hi, rfl, rfl⟩
  · simp only [nanEdges, List.mem_map] at he
    obtain ⟨x, -, rfl⟩ := he
    simp at hb

/-! ### The drawing around a target -/

theorem walk_congr {n : Nat} {E E' : Nat → Nat → Bool} (h : ∀ a b, a < n → b < n → E a b = E' a b) : ∀ (k a b : Nat), a < n →
    walk n E k a b = walk n E' k a b
  | 0, _, _, _ => rfl
  | k + 1, a, b, ha => by
    simp only [walk]
    rw [Bool.eq_iff_iff]
    simp only [List.any_eq_true, List.mem_range, Bool.and_eq_true]
    refine exists_congr fun x => ?_
    refine and_congr_right fun hx => ?_
    rw [h a x ha hx, walk_congr h k x b hx]

theorem distance_congr {n : Nat} {E E' : Nat → Nat → Bool} (h : ∀ a b, a < n → b < n → E a b = E' a b) {cutoff : Option Nat} {s v : Nat}
    (hs : s < n) : distance n E cutoff s v = distance n E' cutoff s v := by
  unfold distance
  have : (fun k => walk n E k s v) = fun k => walk n E' k s v := funext fun k => walk_congr h k s v hs
  rw [this]

/-- Distances in the relation that the drawing shows. -/
theorem distance_iff {n : Nat} {E : Nat → Nat → Bool} {R : Nat → Nat → Prop} (hR : ∀ a b, R a b ↔ a < n ∧ b < n ∧ E a b = true)
    {cutoff : Option Nat} {s v k : Nat} (hs : s < n) (hv : v ≠ s) : distance n E cutoff s v = some k ↔
      DistanceIs R s v k ∧ ∀ m, cutoff = some m → k ≤ m := by
  have h1 : ∀ a b, a < n → b < n → E a b = (decide (a < n) && decide (b < n) && E a b) := by
    intro a b ha hb; simp [ha, hb]
  rw [distance_congr h1 hs, distance_eq (by intro a b h; simp at h; exact h.1.2) hs hv]
  have : (fun x y => (decide (x < n) && decide (y < n) && E x y) = true) = R := by
    funext x y; rw [hR x y]; simp [and_assoc]
  rw [this]

theorem arc_reaching {n : Nat} {A : Mat} (hA : finite n A = true) (lim : Option ℚ) (a b : Nat) :
    Reaching n A lim a b ↔ a < n ∧ b < n ∧ arc (limited lim (clean A)) a b = true := by
  unfold Reaching
  refine and_congr_right fun ha => and_congr_right fun hb => ?_
  have : (A b a).isSome = true := by
    simp only [finite, List.all_eq_true] at hA
    exact hA (b, a) (mem_cells.2 ⟨hb, ha⟩)
  obtain ⟨x, hx⟩ := Option.isSome_iff_exists.1 this
  simp only [hx, Option.some.injEq, exists_eq_left', arc, close0, limited, clean, Option.getD_some]
  cases lim with
  | none => simp
  | some l =>
    simp only [Option.some.injEq, forall_eq']
    by_cases h : |x| < l
    · simp [h, not_le.2 h]
    · simp [h, not_lt.1 h]

theorem highlight_eq {a : HighlightArgs} {name : Nat → String} {n : Nat} {A : Mat} {paths cycles : List (List Nat)}
    {cs : List Copy} {es : List CopyEdge} (h : makeDotHighlight a name n A paths cycles = .ok (cs, es)) :
    finite n A = true ∧ a.target < n ∧ cs = copies a name n (limited a.lim (clean A)) paths ∧
      es = copyEdges a n (limited a.lim (clean A)) paths cycles := by
  unfold makeDotHighlight at h
  split_ifs at h with h1 h2 h3 h4
  push Not at h1 h2
  cases h
  exact ⟨by simpa using h1.1, h2, rfl, rfl⟩

theorem mem_copies {a : HighlightArgs} {name : Nat → String} {n : Nat} {adj : Nat → Nat → ℚ} {paths : List (List Nat)} {v : Nat}
    {k : Option Int} : (∃ x ∈ copies a name n adj paths, x.node = v ∧ x.cluster = k) ↔ v < n ∧ k ∈ drawnIn a n adj v := by
  simp only [copies, List.mem_flatMap, List.mem_range, List.mem_map]
  constructor
  · rintro ⟨_, ⟨w, hw, q, hq, rfl⟩, rfl, rfl⟩; exact ⟨hw, hq⟩
  · rintro ⟨hv, hk⟩; exact ⟨_, ⟨v, hv, k, hk, rfl⟩, rfl, rfl⟩

theorem drawnIn_pos {a : HighlightArgs} {n : Nat} {adj : Nat → Nat → ℚ} {v k : Nat} (hk : 0 < k) :
    some (k : Int) ∈ drawnIn a n adj v ↔ distance n (arc adj) a.maxDsc a.target v = some k := by
  have hk' : (k : Int) ≠ 0 := by omega
  simp only [drawnIn, clustersOf, List.mem_filter, List.mem_append, List.mem_map, Option.mem_toList, Option.isSome_some, Bool.or_true,
    and_true, Option.some.injEq]
  constructor
  · rintro (((h | h) | ⟨d, hd, he⟩) | ⟨d, hd, he⟩)
    · split_ifs at h <;> simp at h; omega
    · split_ifs at h <;> simp at h
    · have : d = k := by omega
      rw [← this]; exact hd
    · omega
  · intro h; exact .inl (.inr ⟨k, h, rfl⟩)

theorem drawnIn_neg {a : HighlightArgs} {n : Nat} {adj : Nat → Nat → ℚ} {v k : Nat} (hk : 0 < k) :
    some (-(k : Int)) ∈ drawnIn a n adj v ↔ distance n (fun x y => arc adj y x) a.maxAnc a.target v = some k := by
  simp only [drawnIn, clustersOf, List.mem_filter, List.mem_append, List.mem_map, Option.mem_toList, Option.isSome_some, Bool.or_true,
    and_true, Option.some.injEq]
  constructor
  · rintro (((h | h) | ⟨d, hd, he⟩) | ⟨d, hd, he⟩)
    · split_ifs at h <;> simp at h; omega
    · split_ifs at h <;> simp at h
    · omega
    · have : d = k := by omega
      rw [← this]; exact hd
  · intro h; exact .inr ⟨k, h, rfl⟩

theorem drawnIn_none {a : HighlightArgs} {n : Nat} {adj : Nat → Nat → ℚ} {v : Nat} :
    none ∈ drawnIn a n adj v ↔ a.drawOthers = true ∧ (isolate n adj v = true ∨ (v ≠ a.target ∧
      distance n (arc adj) a.maxDsc a.target v = none ∧ distance n (fun x y => arc adj y x) a.maxAnc a.target v = none)) := by
  simp only [drawnIn, clustersOf, List.mem_filter, List.mem_append, List.mem_map, Option.mem_toList, Option.isSome_none, Bool.or_false,
    reduceCtorEq, and_false, exists_false, or_false]
  rw [and_comm]
  refine and_congr_right fun _ => ?_
  constructor
  · rintro (h | h)
    · split_ifs at h <;> simp at h
    · split_ifs at h with hc
      · simp only [Bool.or_eq_true, Bool.and_eq_true, Option.isNone_iff_eq_none, decide_eq_true_eq] at hc
        rcases hc with hc | ⟨⟨h1, h2⟩, h3⟩
        · exact .inl hc
        · exact .inr ⟨h3, h1, h2⟩
      · simp at h
  · intro h
    refine .inr ?_
    rw [if_pos]
    · simp
    · simp only [Bool.or_eq_true, Bool.and_eq_true, Option.isNone_iff_eq_none, decide_eq_true_eq]
      rcases h with h | ⟨h1, h2, h3⟩
      · exact .inl h
      · exact .inr ⟨⟨h2, h3⟩, h1⟩

/-- Keeping the elements that come from one place. -/
theorem filter_flatMap_key {α β : Type} [DecidableEq α] {f : α → List β} {key : β → α} (hk : ∀ x, ∀ e ∈ f x, key e = x) (a : α) :
    ∀ {l : List α}, l.Nodup → (l.flatMap f).filter (fun e => decide (key e = a)) = if a ∈ l then f a else []
  | [], _ => by simp
  | x :: l, hl => by
    obtain ⟨h1, h2⟩ := List.nodup_cons.1 hl
    rw [List.flatMap_cons, List.filter_append, filter_flatMap_key hk a h2]
    by_cases hx : x = a
    · subst hx
      rw [if_neg h1, if_pos List.mem_cons_self, List.append_nil]
      rw [List.filter_eq_self]
      intro e he; simpa using hk x e he
    · have : (f x).filter (fun e => decide (key e = a)) = [] := by
        rw [List.filter_eq_nil_iff]
        intro e he hcon
        exact hx ((hk x e he).symm.trans (by simpa using hcon))
      rw [this, List.nil_append]
      have hiff : a ∈ x :: l ↔ a ∈ l := by simp [Ne.symm hx]
      simp only [hiff]

theorem copies_of {a : HighlightArgs} {name : Nat → String} {n : Nat} {adj : Nat → Nat → ℚ} {paths : List (List Nat)} {v : Nat}
    (hv : v < n) : ((copies a name n adj paths).filter (fun x => decide (x.node = v))).map (·.cluster) = drawnIn a n adj v := by
  unfold copies
  rw [filter_flatMap_key (key := Copy.node) (by
    intro x e he; simp only [List.mem_map] at he; obtain ⟨_, _, rfl⟩ := he; rfl) v List.nodup_range, if_pos (List.mem_range.2 hv),
    List.map_map]
  exact List.map_id _

theorem trans_of_steps {R : Nat → Nat → Prop} {k a b : Nat} (h : Steps R k a b) (hab : b ≠ a) : Relation.TransGen R a b := by
  rcases (Relation.reflTransGen_iff_eq_or_transGen.1 (reaches_of_steps h)) with h | h
  · exact absurd h hab
  · exact h

theorem reaches_swap {R : Nat → Nat → Prop} {a b : Nat} (h : Relation.TransGen (fun x y => R y x) a b) : Relation.TransGen R b a := by
  induction h with
  | single h => exact .single h
  | tail _ h ih => exact .head h ih

theorem isolate_iff {n : Nat} {A : Mat} (hA : finite n A = true) {lim : Option ℚ} {v : Nat} (hv : v < n) :
    isolate n (limited lim (clean A)) v = true ↔ ∀ x, ¬ Reaching n A lim v x ∧ ¬ Reaching n A lim x v := by
  simp only [isolate, List.all_eq_true, List.mem_range, Bool.and_eq_true, Bool.not_eq_true', arc_reaching hA]
  constructor
  · intro h x
    refine ⟨fun hc => ?_, fun hc => ?_⟩
    · rw [(h x hc.2.1).1] at hc; simp at hc
    · rw [(h x hc.1).2] at hc; simp at hc
  · intro h x hx
    have := h x
    simp only [hv, hx, true_and, Bool.not_eq_true] at this
    exact this

/-- In an acyclic drawing around a connected target every node is in one cluster. -/
theorem drawnIn_single {a : HighlightArgs} {n : Nat} {A : Mat} (hA : finite n A = true) (ht : a.target < n)
    (hac : Acyclic (Reaching n A a.lim)) (hd : a.drawOthers = true)
    (hcon : ∃ x, Reaching n A a.lim a.target x ∨ Reaching n A a.lim x a.target) {v : Nat} (hv : v < n) :
    ∃ k, drawnIn a n (limited a.lim (clean A)) v = [k] := by
  have hall : drawnIn a n (limited a.lim (clean A)) v = clustersOf a n (limited a.lim (clean A)) v := by
    simp [drawnIn, hd]
  rw [hall]
  have hR := arc_reaching hA a.lim
  have hR' : ∀ x y, Reaching n A a.lim y x ↔ x < n ∧ y < n ∧ arc (limited a.lim (clean A)) y x = true := by
    intro x y; rw [hR y x]; constructor <;> rintro ⟨h1, h2, h3⟩ <;> exact ⟨h2, h1, h3⟩
  by_cases hvt : v = a.target
  · subst hvt
    have hi : isolate n (limited a.lim (clean A)) a.target = false := by
      rw [← Bool.not_eq_true, isolate_iff hA hv]
      intro h
      obtain ⟨x, hx | hx⟩ := hcon
      · exact (h x).1 hx
      · exact (h x).2 hx
    refine ⟨some 0, ?_⟩
    simp [clustersOf, hi, distance]
  · have hdsc : ∀ k, distance n (arc (limited a.lim (clean A))) a.maxDsc a.target v = some k →
        Relation.TransGen (Reaching n A a.lim) a.target v := fun k hk =>
      trans_of_steps ((distance_iff hR ht hvt).1 hk).1.1 hvt
    have hanc : ∀ k, distance n (fun x y => arc (limited a.lim (clean A)) y x) a.maxAnc a.target v = some k →
        Relation.TransGen (Reaching n A a.lim) v a.target := fun k hk =>
      reaches_swap (trans_of_steps ((distance_iff (R := fun x y => Reaching n A a.lim y x) (fun x y => hR' x y) ht hvt).1 hk).1.1 hvt)
    have hi1 : Relation.TransGen (Reaching n A a.lim) a.target v → isolate n (limited a.lim (clean A)) v = false := by
      intro h
      rw [← Bool.not_eq_true, isolate_iff hA hv]
      intro hi
      obtain ⟨w, -, hw⟩ := Relation.TransGen.tail'_iff.1 h
      exact (hi w).2 hw
    have hi2 : Relation.TransGen (Reaching n A a.lim) v a.target → isolate n (limited a.lim (clean A)) v = false := by
      intro h
      rw [← Bool.not_eq_true, isolate_iff hA hv]
      intro hi
      obtain ⟨w, hw, -⟩ := Relation.TransGen.head'_iff.1 h
      exact (hi w).1 hw
    unfold clustersOf
    cases h1 : distance n (arc (limited a.lim (clean A))) a.maxDsc a.target v with
    | some k =>
      cases h2 : distance n (fun x y => arc (limited a.lim (clean A)) y x) a.maxAnc a.target v with
      | some m => exact absurd ((hdsc k h1).trans (hanc m h2)) (hac _)
      | none => exact ⟨some (k : Int), by simp [hvt, hi1 (hdsc k h1)]⟩
    | none =>
      cases h2 : distance n (fun x y => arc (limited a.lim (clean A)) y x) a.maxAnc a.target v with
      | some m => exact ⟨some (-(m : Int)), by simp [hvt, hi2 (hanc m h2)]⟩
      | none => exact ⟨none, by simp [hvt]⟩

/-- The arrows from `j` to `i`: one for each pair of copies. -/
theorem copyEdges_between {a : HighlightArgs} {n : Nat} {adj : Nat → Nat → ℚ} {paths cycles : List (List Nat)} (hd : a.drawOthers = true)
    (i j : Nat) : ((copyEdges a n adj paths cycles).filter (fun e => decide ((e.dst, e.src) = (i, j)))) =
      if (i < n ∧ j < n) ∧ close0 (adj i j) = false then
        (drawnIn a n adj j).flatMap (fun kt => (drawnIn a n adj i).map (fun kh =>
          { src := j, srcCluster := kt, dst := i, dstCluster := kh, coef := adj i j,
            onPath := a.path.isSome && decide ((j, i) ∈ pathEdges paths),
            dashed := a.detectCycle && decide ((j, i) ∈ cycleEdges cycles) })) else [] := by
  unfold copyEdges
  rw [filter_flatMap_key (key := fun e : CopyEdge => (e.dst, e.src)) (by
    intro x e he
    simp only [List.mem_flatMap, List.mem_map] at he
    obtain ⟨_, _, _, _, rfl⟩ := he; rfl) (i, j) ((nodup_cells n n).filter _)]
  simp only [List.mem_filter, mem_cells, hd, Bool.true_or, Bool.and_true, Bool.not_eq_true']

theorem mem_copyEdges {a : HighlightArgs} {n : Nat} {adj : Nat → Nat → ℚ} {paths cycles : List (List Nat)} {e : CopyEdge}
    (he : e ∈ copyEdges a n adj paths cycles) : e.dst < n ∧ e.src < n ∧ close0 (adj e.dst e.src) = false ∧ e.coef = adj e.dst e.src ∧
      e.onPath = (a.path.isSome && decide ((e.src, e.dst) ∈ pathEdges paths)) ∧
      e.dashed = (a.detectCycle && decide ((e.src, e.dst) ∈ cycleEdges cycles)) := by
  simp only [copyEdges, List.mem_flatMap, List.mem_map, List.mem_filter] at he
  obtain ⟨⟨i, j⟩, ⟨hx, hc⟩, _, _, _, _, rfl⟩ := he
  rw [mem_cells] at hx
  simp only [Bool.and_eq_true, Bool.not_eq_true'] at hc
  exact ⟨hx.1, hx.2, hc.1, rfl, rfl, rfl⟩

end Verif.Drawing
