import Verif.Spec.Graph
import Mathlib.Algebra.Order.Field.Rat

/-!
Model of the graph drawings `make_dot` and `make_dot_highlight` (`/repo/lingam/utils/__init__.py`).  The drawing is a list
of nodes and a list of edges with the attributes that carry meaning.  Colours, positions, the rounding of the labels and
the edges of a prediction model are left out.  The path and cycle lists of networkx are parameters.
-/
set_option autoImplicit false
namespace Verif.Drawing

/-- The exceptions of lingam/utils/__init__.py:274-309, 483-536, the exceptions of networkx, and `IndexError`
for a missing name. -/
inductive Err | value | type | index
deriving DecidableEq, Repr

/-- `adjacency_matrix`; `none` is NaN.  lingam/utils/__init__.py:273, 483-489. -/
abbrev Mat := Nat → Nat → Option ℚ

/-- An edge of the drawing: `d.edge(...)`, lingam/utils/__init__.py:356-364, 415-416, 745. -/
structure DotEdge where
  src : Nat
  dst : Nat
  /-- the number on the edge -/
  coef : Option ℚ
  /-- `penwidth=2` and the path colour -/
  onPath : Bool
  /-- `style=dashed` -/
  dashed : Bool
  /-- `dir=both` -/
  both : Bool
deriving DecidableEq, Repr

/-- A node of the drawing: `d.node(...)`, lingam/utils/__init__.py:343-352. -/
structure DotNode where
  node : Nat
  /-- drawn in the path colour -/
  onPath : Bool
  /-- `peripheries=2` -/
  isEnd : Bool
deriving DecidableEq, Repr

/-- lingam/utils/__init__.py:340-418. -/
structure Dot where
  nodes : List DotNode
  edges : List DotEdge

/-- `np.nan_to_num`, lingam/utils/__init__.py:273. -/
def clean (A : Mat) (i j : Nat) : ℚ := (A i j).getD 0

/-- `np.abs(B) > lower_limit`, lingam/utils/__init__.py:312. -/
def idx (A : Mat) (lim : ℚ) (i j : Nat) : Bool := decide (lim < |clean A i j|)

/-- Cells of an `r × c` array in the order of `np.where`, lingam/utils/__init__.py:355, 409, 724. -/
def cells (r c : Nat) : List (Nat × Nat) := (List.range r).flatMap (fun i => (List.range c).map (fun j => (i, j)))

/-- The graph handed to networkx: `idx.T`, an edge from column to row.  lingam/utils/__init__.py:314-316. -/
def Arc (n : Nat) (A : Mat) (lim : ℚ) (a b : Nat) : Prop := a < n ∧ b < n ∧ idx A lim b a = true

/-- `set(zip(path_, path_[1:]))` over all paths, lingam/utils/__init__.py:322-324, 590-592. -/
def pathEdges (paths : List (List Nat)) : List (Nat × Nat) := paths.flatMap (fun p => p.zip p.tail)

/-- `list(zip(cycle, np.roll(cycle, -1)))` over all cycles, lingam/utils/__init__.py:333-338, 712-717. -/
def cycleEdges (cycles : List (List Nat)) : List (Nat × Nat) := cycles.flatMap (fun c => c.zip (c.rotate 1))

/-- The arguments that matter for the drawing.  `path` is `(start, end)`, `nLabels` the number of labels if given.
lingam/utils/__init__.py:222-235. -/
structure Args where
  nLabels : Option Nat
  lim : ℚ
  path : Option (Nat × Nat)
  detectCycle : Bool
  ignoreShape : Bool

/-- The checks, lingam/utils/__init__.py:274-306, 316.  `check_scalar` accepts the end point `B.shape[0]`;
networkx refuses matrices that are not square. -/
def check (a : Args) (r c : Nat) : Except Err Unit :=
  if a.ignoreShape = false ∧ r ≠ c then .error .value
  else if a.nLabels.any (fun l => decide (l ≠ c)) then .error .value
  else if a.path.any (fun p => decide (r < p.1 ∨ r < p.2)) then .error .value
  else if r ≠ c ∧ (a.path.isSome ∨ a.detectCycle = true) then .error .value
  else .ok ()

/-- The coefficient edges, lingam/utils/__init__.py:354-364. -/
def coefEdges (a : Args) (r c : Nat) (A : Mat) (paths cycles : List (List Nat)) : List DotEdge :=
  ((cells r c).filter (fun x => idx A a.lim x.1 x.2)).map (fun x =>
    { src := x.2, dst := x.1, coef := some (clean A x.1 x.2),
      onPath := a.path.isSome && decide ((x.2, x.1) ∈ pathEdges paths),
      dashed := a.detectCycle && decide ((x.2, x.1) ∈ cycleEdges cycles), both := false })

/-- The arrows for unknown directions: NaN on or below the diagonal.  lingam/utils/__init__.py:408-416. -/
def nanEdges (r c : Nat) (A : Mat) : List DotEdge :=
  ((cells r c).filter (fun x => decide (x.2 ≤ x.1) && (A x.1 x.2).isNone)).map (fun x =>
    { src := x.2, dst := x.1, coef := none, onPath := false, dashed := false, both := true })

/-- The nodes, lingam/utils/__init__.py:342-352.  Without labels there are `len(B)` nodes. -/
def dotNodes (a : Args) (r : Nat) (paths : List (List Nat)) : List DotNode :=
  (List.range (a.nLabels.getD r)).map (fun i =>
    { node := i, onPath := a.path.isSome && decide (i ∈ (pathEdges paths).flatMap (fun e => [e.1, e.2])),
      isEnd := a.path.any (fun p => decide (i = p.1 ∨ i = p.2)) })

/-- lingam/utils/__init__.py:222-418 `make_dot` without a prediction model, distinct labels.  A path from or to a node that
does not exist raises, and so does an edge whose end has no name. -/
def makeDot (a : Args) (r c : Nat) (A : Mat) (paths cycles : List (List Nat)) : Except Err Dot :=
  match check a r c with
  | .error e => .error e
  | .ok () =>
    let n := a.nLabels.getD r
    let edges := coefEdges a r c A paths cycles ++ nanEdges r c A
    if a.path.any (fun p => decide (n ≤ p.1 ∨ n ≤ p.2)) then .error .index
    else if edges.any (fun e => decide (n ≤ e.src ∨ n ≤ e.dst)) then .error .index
    else .ok ⟨dotNodes a r paths, edges⟩

/-! ### `make_dot_highlight` -/

/-- `np.isclose(x, 0)` with the default tolerances, lingam/utils/__init__.py:543, 724. -/
def close0 (x : ℚ) : Bool := decide (|x| ≤ 1 / 100000000)

/-- `adj[abs(adj) < lower_limit] = 0`, lingam/utils/__init__.py:538-540. -/
def limited (lim : Option ℚ) (adj : Nat → Nat → ℚ) (i j : Nat) : ℚ :=
  match lim with
  | none => adj i j
  | some l => if |adj i j| < l then 0 else adj i j

/-- The edges `a → b` of the networkx graph, lingam/utils/__init__.py:543. -/
def arc (adj : Nat → Nat → ℚ) (a b : Nat) : Bool := !close0 (adj b a)

/-- Walks of exactly `k` steps in a graph with `n` nodes, lingam/utils/__init__.py:545-553 (networkx's breadth first search). -/
def walk (n : Nat) (E : Nat → Nat → Bool) : Nat → Nat → Nat → Bool
  | 0, a, b => decide (a = b)
  | k + 1, a, b => (List.range n).any (fun x => E a x && walk n E k x b)

/-- `nx.single_source_shortest_path_length(G, source, cutoff)` without the source itself.
lingam/utils/__init__.py:545-553. -/
def distance (n : Nat) (E : Nat → Nat → Bool) (cutoff : Option Nat) (source v : Nat) : Option Nat :=
  if v = source then none
  else ((List.range n).find? (fun k => walk n E k source v)).filter (fun k => decide (k ≤ cutoff.getD n))

/-- The arguments of `make_dot_highlight` that matter here.  lingam/utils/__init__.py:421-435. -/
structure HighlightArgs where
  target : Nat
  maxDsc : Option Nat
  maxAnc : Option Nat
  lim : Option ℚ
  drawOthers : Bool
  detectCycle : Bool
  path : Option (Nat × Nat)

/-- The Python values compared at lingam/utils/__init__.py:671: node numbers and names.  A number never equals a name. -/
inductive PyVal | int (n : Nat) | str (s : String)
deriving DecidableEq, Repr

/-- `path_nodes`: the names of the nodes on the paths.  lingam/utils/__init__.py:594-595. -/
def pathNodes (name : Nat → String) (paths : List (List Nat)) : List PyVal :=
  ((pathEdges paths).flatMap (fun e => [e.1, e.2])).map (fun v => .str (name v))

/-- A copy of a node in the cluster with the given key: 0 the target, positive descendants, negative ancestors, `none`
others.  lingam/utils/__init__.py:567-586, 630-686. -/
structure Copy where
  node : Nat
  cluster : Option Int
  /-- drawn in the path colour -/
  onPath : Bool
  isEnd : Bool
deriving DecidableEq, Repr

/-- An edge between two copies, lingam/utils/__init__.py:732-745. -/
structure CopyEdge where
  src : Nat
  srcCluster : Option Int
  dst : Nat
  dstCluster : Option Int
  coef : ℚ
  onPath : Bool
  dashed : Bool
deriving DecidableEq, Repr

/-- `nx.isolates(G)`: no edge in either direction.  lingam/utils/__init__.py:558. -/
def isolate (n : Nat) (adj : Nat → Nat → ℚ) (v : Nat) : Bool :=
  (List.range n).all (fun x => !arc adj v x && !arc adj x v)

/-- The clusters in which node `v` is listed.  lingam/utils/__init__.py:556-586. -/
def clustersOf (a : HighlightArgs) (n : Nat) (adj : Nat → Nat → ℚ) (v : Nat) : List (Option Int) :=
  let dsc := distance n (arc adj) a.maxDsc a.target v
  let anc := distance n (fun x y => arc adj y x) a.maxAnc a.target v
  (if v = a.target then [some 0] else [])
    ++ (if isolate n adj v || (dsc.isNone && anc.isNone && decide (v ≠ a.target)) then [none] else [])
    ++ dsc.toList.map (fun d : Nat => some (d : Int)) ++ anc.toList.map (fun d : Nat => some (-(d : Int)))

/-- The clusters in which node `v` is drawn.  lingam/utils/__init__.py:630-633. -/
def drawnIn (a : HighlightArgs) (n : Nat) (adj : Nat → Nat → ℚ) (v : Nat) : List (Option Int) :=
  (clustersOf a n adj v).filter (fun k => a.drawOthers || k.isSome)

/-- The drawn nodes, lingam/utils/__init__.py:630-686. -/
def copies (a : HighlightArgs) (name : Nat → String) (n : Nat) (adj : Nat → Nat → ℚ) (paths : List (List Nat)) : List Copy :=
  (List.range n).flatMap (fun v => (drawnIn a n adj v).map (fun k =>
    { node := v, cluster := k, onPath := a.path.isSome && decide (PyVal.int v ∈ pathNodes name paths), isEnd := a.path.any (fun p => decide (v = p.1 ∨ v = p.2)) }))

/-- Nodes of the cluster of others, lingam/utils/__init__.py:720. -/
def isOther (a : HighlightArgs) (n : Nat) (adj : Nat → Nat → ℚ) (v : Nat) : Bool := decide (none ∈ clustersOf a n adj v)

/-- The drawn edges, lingam/utils/__init__.py:723-745. -/
def copyEdges (a : HighlightArgs) (n : Nat) (adj : Nat → Nat → ℚ) (paths cycles : List (List Nat)) : List CopyEdge :=
  ((cells n n).filter (fun x => !close0 (adj x.1 x.2) &&
      (a.drawOthers || (!isOther a n adj x.1 && !isOther a n adj x.2)))).flatMap (fun x =>
    (drawnIn a n adj x.2).flatMap (fun kt => (drawnIn a n adj x.1).map (fun kh =>
      { src := x.2, srcCluster := kt, dst := x.1, dstCluster := kh, coef := adj x.1 x.2,
        onPath := a.path.isSome && decide ((x.2, x.1) ∈ pathEdges paths),
        dashed := a.detectCycle && decide ((x.2, x.1) ∈ cycleEdges cycles) })))

/-- All entries, if none is NaN: `check_array` raises otherwise.  lingam/utils/__init__.py:483-489. -/
def finite (n : Nat) (A : Mat) : Bool := (cells n n).all (fun x => (A x.1 x.2).isSome)

/-- lingam/utils/__init__.py:421-747 `make_dot_highlight`, square matrix.  The end point `n` is accepted by the check of a path
but networkx raises for it. -/
def makeDotHighlight (a : HighlightArgs) (name : Nat → String) (n : Nat) (A : Mat) (paths cycles : List (List Nat)) :
    Except Err (List Copy × List CopyEdge) :=
  if finite n A = false ∨ n < 2 then .error .value
  else if n ≤ a.target then .error .value
  else if a.path.any (fun p => decide (n < p.1 ∨ n < p.2)) then .error .value
  else if a.path.any (fun p => decide (n ≤ p.1 ∨ n ≤ p.2)) then .error .index
  else
    let adj := limited a.lim (clean A)
    .ok (copies a name n adj paths, copyEdges a n adj paths cycles)

end Verif.Drawing
