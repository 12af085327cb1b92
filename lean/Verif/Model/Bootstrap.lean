import Verif.Model.Paths
import Verif.Model.DirectLingam
import Mathlib.Algebra.Order.Field.Rat

/-!
Model of `BootstrapResult` and `BootstrapMixin.bootstrap` (`/repo/lingam/bootstrap.py`).

A bootstrap result holds a list of matrices with `r` rows and `c` columns (`c = r` except for the time series models);
NaN is `none`. Numbers are exact rationals.
-/
set_option autoImplicit false
namespace Verif.Boot
open Verif.Paths (nan0)

/-- lingam/bootstrap.py:81 (entries of `_adjacency_matrices`). -/
abbrev Mat := Nat → Nat → Option ℚ

/-- lingam/bootstrap.py:185, 256, 358, 418: `np.argsort` (default quicksort): some permutation of the positions that
sorts the values ascending; the order of
equal values is not specified. -/
structure Argsort where
  run : List ℚ → List Nat
  perm : ∀ l, (run l).Perm (List.range l.length)
  sorted : ∀ l, ((run l).map (fun i => l.getD i 0)).Pairwise (· ≤ ·)

/-- lingam/bootstrap.py:184, 255, 415: Number of occurrences. -/
def cnt {α : Type} [DecidableEq α] (l : List α) (x : α) : Nat := l.count x

/-- lingam/bootstrap.py:184, 255, 415: `np.unique(l, axis=0, return_counts=True)`: the distinct values in increasing
order with their counts. -/
def uniq {α : Type} [DecidableEq α] (le : α → α → Bool) (l : List α) : List (α × Nat) :=
  (l.dedup.mergeSort le).map (fun x => (x, cnt l x))

/-- lingam/bootstrap.py:184, 255 (order of the rows in `np.unique`): Lexicographic order of rows. -/
def lexLe : List Int → List Int → Bool
  | [], _ => true
  | _ :: _, [] => false
  | a :: as, b :: bs => if a < b then true else if b < a then false else lexLe as bs

/-- lingam/bootstrap.py:190-191, 259-260, 359-361, 419-420: `arr[order]`. -/
def take' {α : Type} (l : List α) (order : List Nat) : List α := order.filterMap (fun i => l[i]?)

/-- lingam/bootstrap.py:186-188, 257: `sort_order[:k]`, `k` optional. -/
def cut {α : Type} (k : Option Nat) (l : List α) : List α := match k with | none => l | some k => l.take k

/-- lingam/bootstrap.py:38-40, 152-162, 231-241, 298, 337, 400. -/
inductive Err | valueError | paths (e : Paths.Err) | typeError
  deriving DecidableEq, Repr

/-- Parameter checks lingam/bootstrap.py:149-162 (and 228-241, 293-298, 332-337, 395-400): `n` must be positive, the
threshold positive if given. -/
def checkParams (k : Option Int) (thr : Option ℚ) : Except Err (Option Nat × ℚ) :=
  match k, thr with
  | some k, none => if 0 < k then .ok (some k.toNat, 0) else .error .valueError
  | none, none => .ok (none, 0)
  | some k, some t => if 0 < k then (if 0 < t then .ok (some k.toNat, t) else .error .valueError)
      else .error .valueError
  | none, some t => if 0 < t then .ok (none, t) else .error .valueError

/-- lingam/bootstrap.py:170, 251: `np.sign(x).astype("int64")`. -/
def sgn (x : ℚ) : Int := if 0 < x then 1 else if x < 0 then -1 else 0

/-- lingam/bootstrap.py:166-175: the rows `[to, from]` (`[to, from, sign]` when split) of one matrix, row-major. -/
def directionsOf (r c : Nat) (thr : ℚ) (split : Bool) (m : Mat) : List (List Int) :=
  (List.range r).flatMap (fun i => ((List.range c).filter (fun j => decide (thr < |nan0 (m i j)|))).map (fun j =>
    if split then [Int.ofNat i, Int.ofNat j, sgn (nan0 (m i j))] else [Int.ofNat i, Int.ofNat j]))

/-- lingam/bootstrap.py:193-200: The dictionary returned by `get_causal_direction_counts`. -/
structure Counts where
  src : List Int
  dst : List Int
  count : List Nat
  sign : Option (List Int)
  deriving DecidableEq, Repr

/-- Sort `(value, count)` rows by decreasing count and keep the first `k` (lingam/bootstrap.py:185-190, 256-259). -/
def topCounts {α : Type} (as : Argsort) (k : Option Nat) (u : List (α × Nat)) : List (α × Nat) :=
  take' u (cut k (as.run (u.map (fun p => -(p.2 : ℚ)))))

/-- lingam/bootstrap.py:120-200 `get_causal_direction_counts`. -/
def directionCounts (as : Argsort) (r c : Nat) (ms : List Mat) (k : Option Int) (thr : Option ℚ) (split : Bool) :
    Except Err Counts := do
  let (k, thr) ← checkParams k thr
  if ms = [] then .error .valueError                     -- np.concatenate([]) (line 176)
  else
    let dirs := ms.flatMap (directionsOf r c thr split)
    if dirs = [] then                                    -- 178-182
      .ok ⟨[], [], [], if split then some [] else none⟩
    else
      let top := topCounts as k (uniq lexLe dirs)        -- 184-190
      .ok ⟨top.map (fun p => p.1.getD 1 0), top.map (fun p => p.1.getD 0 0), top.map Prod.snd,
        if split then some (top.map (fun p => p.1.getD 2 0)) else none⟩

/-- lingam/bootstrap.py:244-253: the thresholded (signed) matrix of one sample, flattened row-major. -/
def dagOf (r c : Nat) (thr : ℚ) (split : Bool) (m : Mat) : List Int :=
  (List.range r).flatMap (fun i => (List.range c).map (fun j =>
    if thr < |nan0 (m i j)| then (if split then sgn (nan0 (m i j)) else 1) else 0))

/-- lingam/bootstrap.py:261-274: one entry of `"dag"`: the lists `from`, `to` (and `sign`) of the nonzero cells. -/
structure Dag where
  src : List Nat
  dst : List Nat
  sign : Option (List Int)
  deriving DecidableEq, Repr

/-- lingam/bootstrap.py:264-272: `np.where(dag)` on the flattened `r × c` matrix: the cells, row-major. -/
def cells (r c : Nat) (flat : List Int) : List (Nat × Nat) :=
  (List.range r).flatMap (fun i => ((List.range c).filter (fun j => decide (flat.getD (i * c + j) 0 ≠ 0))).map
    (fun j => (i, j)))

/-- lingam/bootstrap.py:261-273. -/
def toDag (r c : Nat) (split : Bool) (flat : List Int) : Dag :=
  ⟨(cells r c flat).map Prod.snd, (cells r c flat).map Prod.fst,
    if split then some ((cells r c flat).map (fun p => flat.getD (p.1 * c + p.2) 0)) else none⟩

/-- lingam/bootstrap.py:202-276 `get_directed_acyclic_graph_counts`. An empty list of matrices is not modelled (a result
object always holds at least one sample). -/
def dagCounts (as : Argsort) (r c : Nat) (ms : List Mat) (k : Option Int) (thr : Option ℚ) (split : Bool) :
    Except Err (List Dag × List Nat) := do
  let (k, thr) ← checkParams k thr
  let top := topCounts as k (uniq lexLe (ms.map (dagOf r c thr split)))
  .ok (top.map (fun p => toDag r c split p.1), top.map Prod.snd)

/-- lingam/bootstrap.py:278-306 `get_probabilities`, the matrix `bp` (before the split of time series results).
`ms = []` raises (IndexError at line 301). -/
def probabilities (ms : List Mat) (thr : Option ℚ) : Except Err (Nat → Nat → ℚ) := do
  let (_, thr) ← checkParams none thr
  if ms = [] then .error .valueError
  else
    let bp := ms.foldl (fun (bp : Nat → Nat → ℚ) B => fun i j =>
      bp i j + (if thr < |nan0 (B i j)| then 1 else 0)) (fun _ _ => 0)
    .ok (fun i j => bp i j / ms.length)

/-- lingam/bootstrap.py:307-310: `np.hsplit(bp, c / r)` when there are several blocks; block `b` as a function. -/
def hsplit (r c : Nat) (bp : Nat → Nat → ℚ) : List (Nat → Nat → ℚ) :=
  (List.range (c / r)).map (fun b => fun i j => bp i (b * r + j))

/-- lingam/bootstrap.py:355, 424: `np.median` of a nonempty list without NaN. -/
def median (l : List ℚ) : ℚ :=
  let s := l.mergeSort (fun a b => decide (a ≤ b))
  (s.getD ((l.length - 1) / 2) 0 + s.getD (l.length / 2) 0) / 2

/-- lingam/bootstrap.py:363-370: The dictionary returned by `get_total_causal_effects`. -/
structure Effects where
  src : List Nat
  dst : List Nat
  effect : List ℚ
  probability : List ℚ
  deriving DecidableEq, Repr

/-- lingam/bootstrap.py:167, 246, 304, 341: `|x| > t` with NaN comparing false. -/
def exceeds (t : ℚ) (x : Option ℚ) : Bool := match x with | none => false | some v => decide (t < |v|)

/-- lingam/bootstrap.py:312-370 `get_total_causal_effects` on the `total_effects_` array of `n × n` matrices. -/
def totalCausalEffects (as : Argsort) (n : Nat) (ts : List Mat) (thr : Option ℚ) : Except Err Effects := do
  let (_, thr) ← checkParams none thr
  let probs := fun i j => ((ts.map (fun T => if exceeds thr (T i j) then (1 : ℚ) else 0)).sum) / ts.length   -- 340-345
  let dirs := (List.range n).flatMap (fun i => ((List.range n).filter (fun j => decide (0 < |probs i j|))).map
    (fun j => (i, j)))                                                                                  -- 348-349
  let rows := dirs.map (fun d =>                                                                        -- 351-355
    (d, median ((ts.map (fun T => T d.1 d.2)).filter (exceeds 0) |>.map nan0), probs d.1 d.2))
  let rows := take' rows (as.run (rows.map (fun p => -p.2.2)))                                          -- 357-361
  .ok ⟨rows.map (fun p => p.1.2), rows.map (fun p => p.1.1), rows.map (fun p => p.2.1), rows.map (fun p => p.2.2)⟩

/-! ### `get_paths` -/

/-- lingam/bootstrap.py:408: `str(k)` of a non-negative integer. -/
def natStr (k : Nat) : List Char :=
  if k < 10 then [Char.ofNat (48 + k)] else natStr (k / 10) ++ [Char.ofNat (48 + k % 10)]
  decreasing_by omega

/-- `"_".join(map(str, p))` (lingam/bootstrap.py:408). -/
def encode (p : List Nat) : List Char := List.intercalate ['_'] (p.map natStr)

/-- lingam/bootstrap.py:428: `int(s)` on decimal digits. -/
def parseNat (s : List Char) : Nat := s.foldl (fun acc ch => acc * 10 + (ch.toNat - 48)) 0

/-- `[int(i) for i in p.split("_")]` (lingam/bootstrap.py:428). -/
def decode (s : List Char) : List Nat := (s.splitOn '_').map parseNat

/-- lingam/bootstrap.py:355, 424: `np.median` with NaN absorbing. -/
def medianNan (l : List (Option ℚ)) : Option ℚ :=
  if l.any (fun x => x.isNone) then none else some (median (l.map nan0))

/-- lingam/bootstrap.py:415: Order of strings (code points). -/
def strLe (a b : List Char) : Bool := lexLe (a.map (fun ch => (ch.toNat : Int))) (b.map (fun ch => (ch.toNat : Int)))

/-- lingam/bootstrap.py:427-432. -/
structure PathTable where
  path : List (List Nat)
  effect : List (Option ℚ)
  probability : List ℚ
  deriving DecidableEq, Repr

/-- The loop lingam/bootstrap.py:403-409: all (encoded path, effect) pairs of all samples, first error propagated.
`none` = `find_all_paths` out of fuel. -/
def collectPaths (n : Nat) (src dst : Nat) (thr : ℚ) : List Mat → Option (Except Err (List (List Char × Option ℚ)))
  | [] => some (.ok [])
  | m :: ms =>
    match Paths.findAllPaths n m src dst thr with
    | none => none
    | some (.error e) => some (.error (.paths e))
    | some (.ok (ps, es)) =>
      match collectPaths n src dst thr ms with
      | none => none
      | some (.error e) => some (.error e)
      | some (.ok rest) => some (.ok ((ps.map encode).zip es ++ rest))

/-- lingam/bootstrap.py:372-432 `get_paths`. -/
def getPaths (as : Argsort) (n : Nat) (ms : List Mat) (src dst : Nat) (thr : Option ℚ) :
    Option (Except Err PathTable) :=
  match checkParams none thr with
  | .error e => some (.error e)
  | .ok (_, thr) =>
    match collectPaths n src dst thr ms with
    | none => none
    | some (.error e) => some (.error e)
    | some (.ok all) =>
      let top := topCounts as none (uniq strLe (all.map Prod.fst))                                     -- 414-420
      some (.ok ⟨top.map (fun p => decode p.1),
        top.map (fun p => medianNan ((all.filter (fun q => decide (q.1 = p.1))).map Prod.snd)),          -- 422-425
        top.map (fun p => (p.2 : ℚ) / ms.length)⟩)

/-! ### `bootstrap` -/

/-- lingam/bootstrap.py:52-57: the total effects of one fitted model; `total_effects[i]` starts as zeros. `pairs` are the
`(from, to)` pairs still to be processed. -/
def fillEffects (n : Nat) (B : Mat) : List (Nat × Nat) → Mat → Option (Except Err Mat)
  | [], T => some (.ok T)
  | (src, dst) :: ps, T =>
    match Paths.calcTotalEffect n B src dst with
    | none => none
    | some (.error e) => some (.error (.paths e))
    | some (.ok v) => fillEffects n B ps (fun i j => if i = dst ∧ j = src then v else T i j)

/-- lingam/bootstrap.py:53-54: The pairs `(from_, to)` in loop order: `for c, from_ in enumerate(order): for to in
order[c + 1:]`. -/
def laterPairs : List Nat → List (Nat × Nat)
  | [] => []
  | a :: l => l.map (fun b => (a, b)) ++ laterPairs l

/-- lingam/bootstrap.py:17-61 `bootstrap`. `fit s` is the outcome of `self.fit` on the `s`-th resample (resampling is random,
so the fits are arbitrary and may depend on everything before): causal order and matrix, or an error. -/
def bootstrapLoop (n : Nat) (fit : Nat → Except Err (List Nat × Mat)) :
    Nat → Nat → Option (Except Err (List (Mat × Mat)))
  | _, 0 => some (.ok [])
  | s, k + 1 =>
    match fit s with
    | .error e => some (.error e)
    | .ok (order, B) =>
      match fillEffects n B (laterPairs order) (fun _ _ => some 0) with
      | none => none
      | some (.error e) => some (.error e)
      | some (.ok T) =>
        match bootstrapLoop n fit (s + 1) k with
        | none => none
        | some (.error e) => some (.error e)
        | some (.ok rest) => some (.ok ((B, T) :: rest))

/-- lingam/bootstrap.py:33-60: `n_sampling` must be positive; result = (adjacency matrix, total effects) per sample. -/
def bootstrap (n : Nat) (fit : Nat → Except Err (List Nat × Mat)) (nSampling : Int) :
    Option (Except Err (List (Mat × Mat))) :=
  if 0 < nSampling then bootstrapLoop n fit 0 nSampling.toNat else some (.error .valueError)

end Verif.Boot
