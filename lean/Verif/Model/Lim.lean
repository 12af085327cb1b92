import Mathlib.Algebra.Order.Field.Basic
import Mathlib.Algebra.BigOperators.Group.Finset.Basic
import Mathlib.Algebra.BigOperators.Intervals
import Mathlib.Data.List.Basic

/-!
Model of `lingam/lim.py` (class `LiM`) and of the acyclicity constraint and outer loop of `lingam/lina.py`
(class `LiNA`).  `scipy.optimize.minimize` is an arbitrary function of everything its objective depends on,
`np.random.random` an arbitrary stream of start values and the local-search score (`_bic_scoring`) an arbitrary
function of the matrix.  Matrices are functions `Nat → Nat → K` with explicit size `d`.
-/
set_option autoImplicit false
namespace Verif.Lim

variable {K : Type} [Field K] [LinearOrder K]

/-- lingam/lim.py:88-95: A matrix; only the entries below the size matter. -/
abbrev Mat (K : Type) := Nat → Nat → K

/-- lingam/lim.py:98, 249-251; lingam/lina.py:132-137: `A @ B` for `d × d` matrices. -/
def mmul (d : Nat) (A B : Mat K) : Mat K := fun i j => ∑ k ∈ Finset.range d, A i k * B k j

/-- lingam/lim.py:249; lingam/lina.py:134: `np.eye(d)`. -/
def eye : Mat K := fun i j => if i = j then 1 else 0

/-- lingam/lim.py:250; lingam/lina.py:135: `np.linalg.matrix_power(M, n)` (numpy multiplies by repeated squaring; here
one factor at a time). -/
def mpow (d : Nat) (M : Mat K) : Nat → Mat K
  | 0 => eye
  | n + 1 => mmul d (mpow d M n) M

/-- lingam/lim.py:249, lingam/lina.py:135, 527, 571: `M = np.eye(d) + W * W / d`. -/
def mOf (d : Nat) (W : Mat K) : Mat K := fun i j => eye i j + W i j * W i j / (d : K)

/-- lingam/lim.py:244-252, lingam/lina.py:131-138 (repeated at 525-530, 567-574): `G_h = matrix_power(M, d - 1)` and `h = (G_h.T *
M).sum() - d`. -/
def hVal (d : Nat) (W : Mat K) : K :=
  (∑ i ∈ Finset.range d, ∑ j ∈ Finset.range d, mpow d (mOf d W) (d - 1) j i * mOf d W i j) - (d : K)

/-- lingam/lim.py:265, lingam/lina.py:152, 542: the gradient of `h` used by `_func`, `G_h.T * W * 2`. -/
def hGrad (d : Nat) (W : Mat K) : Mat K := fun i j => mpow d (mOf d W) (d - 1) j i * W i j * 2

/-- lingam/lim.py:281-285: The doubled variables `(w_pos, w_neg)`. -/
abbrev Dbl (K : Type) := Mat K × Mat K

/-- lingam/lim.py:254-256 `_adj`. -/
def adj (w : Dbl K) : Mat K := fun i j => w.1 i j - w.2 i j

/-- lingam/lim.py:318: `np.sum(np.absolute(W))`. -/
def absSum (d : Nat) (W : Mat K) : K := ∑ i ∈ Finset.range d, ∑ j ∈ Finset.range d, |W i j|

/-- lingam/lim.py:321, lingam/lina.py:175, 564: `W_est[np.abs(W_est) < w_threshold] = 0`. -/
def threshold (thr : K) (W : Mat K) : Mat K := fun i j => if |W i j| < thr then 0 else W i j

/-- `self._loss_type` (lingam/lim.py:98-146); any other string is `other`. -/
inductive LossType where
  | logistic | poisson | laplace | mixed | mixedDag | other
  deriving DecidableEq

/-- Constructor arguments (lingam/lim.py:30-62) that steer the loops. -/
structure Cfg (K : Type) where
  maxIter : Nat
  hTol : K
  rhoMax : K
  wThr : K

/-- lingam/lim.py:144, 293: Errors of `fit`. -/
inductive Err where
  | typeError
  deriving DecidableEq

/-- `h_new >= 0.25 * h` where `h` may still be `np.inf` (`none`), lingam/lim.py:304. -/
def geQuarter (hn : K) (h : Option K) : Bool :=
  match h with
  | none => false
  | some x => decide ((1 / 4 : K) * x ≤ hn)

/-- lingam/lim.py:296-307: the `while rho < rho_max` loop.  `opt rho` is `sol.x` of `sopt.minimize` (it always starts
from the same `w_est`).  `cur` is `(w_new, h_new)`, initially `None`.  Result `none` means out of fuel. -/
def inner (d : Nat) (rhoMax : K) (opt : K → Dbl K) (h : Option K) : Nat → K → Option (Dbl K × K) →
    Option (K × Option (Dbl K × K))
  | 0, _, _ => none
  | f + 1, rho, cur =>
    if rho < rhoMax then
      let w := opt rho
      let hn := hVal d (adj w)
      if geQuarter hn h then inner d rhoMax opt h f (rho * 10) (some (w, hn))
      else some (rho, some (w, hn))
    else some (rho, cur)

/-- lingam/lim.py:280-285: Loop state: `w_est`, `rho`, `alpha`, `h` and the number of random start values drawn so
far. -/
structure St (K : Type) where
  w : Dbl K
  rho : K
  alpha : K
  h : Option K
  draws : Nat

/-- lingam/lim.py:294-319: What one pass of the outer loop leads to. -/
inductive Step (K : Type) where
  | stop (s : St K)
  | more (s : St K)

/-- lingam/lim.py:308-319: the body after the inner loop, with `w_est, h = w_new, h_new`. -/
def afterInner (d : Nat) (c : Cfg K) (rnd : Nat → Dbl K) (s : St K) (rho : K) (w : Dbl K) (h : K) : Step K :=
  let alpha := s.alpha + rho * h
  if h ≤ c.hTol ∧ h ≠ 0 then Step.stop ⟨w, rho, alpha, some h, s.draws⟩
  else if c.rhoMax * (1 / 1000000) ≤ rho ∧ 100000 < h then
    -- `w_est = np.random.random(...)`, `rho = 1.0`, then the test against 0.09 may draw again
    if absSum d (adj (rnd s.draws)) < 9 / 100 then
      Step.more ⟨rnd (s.draws + 1), 1, alpha, some h, s.draws + 2⟩
    else Step.more ⟨rnd s.draws, 1, alpha, some h, s.draws + 1⟩
  else if c.rhoMax ≤ rho then Step.stop ⟨w, rho, alpha, some h, s.draws⟩
  else if absSum d (adj w) < 9 / 100 then Step.more ⟨rnd s.draws, rho, alpha, some h, s.draws + 1⟩
  else Step.more ⟨w, rho, alpha, some h, s.draws⟩

/-- lingam/lim.py:295-319: `for _ in range(max_iter)`.  `opt rho alpha w` is the result of the optimiser.
If the inner loop is not entered, `alpha += rho * None` raises `TypeError`. -/
def outer (d : Nat) (c : Cfg K) (fuel : Nat) (opt : K → K → Dbl K → Dbl K) (rnd : Nat → Dbl K) :
    Nat → St K → Option (Except Err (St K))
  | 0, s => some (Except.ok s)
  | n + 1, s =>
    match inner d c.rhoMax (fun rho => opt rho s.alpha s.w) s.h fuel s.rho none with
    | none => none
    | some (_, none) => some (Except.error Err.typeError)
    | some (rho, some (w, h)) =>
      match afterInner d c rnd s rho w h with
      | Step.stop t => some (Except.ok t)
      | Step.more t => outer d c fuel opt rnd n t

/-- lingam/lim.py:279-285: the start values. -/
def initSt (rnd : Nat → Dbl K) : St K := ⟨rnd 0, 1, 0, none, 1⟩

/-- lingam/lim.py:279-321: the global phase up to the thresholded `W_est`. -/
def globalPhase (d : Nat) (c : Cfg K) (fuel : Nat) (opt : K → K → Dbl K → Dbl K) (rnd : Nat → Dbl K) :
    Option (Except Err (Mat K)) :=
  (outer d c fuel opt rnd c.maxIter (initSt rnd)).map (fun r => r.map (fun s => threshold c.wThr (adj s.w)))

/-- lingam/lim.py:327, 347: `np.where(W != 0)` as the row-major list of index pairs. -/
def whereNe (d : Nat) (W : Mat K) : List (Nat × Nat) :=
  ((List.range d).flatMap (fun i => (List.range d).map (fun j => (i, j)))).filter (fun p => decide (W p.1 p.2 ≠ 0))

/-- lingam/lim.py:327-400: `W[i, j] = v`. -/
def setAt (W : Mat K) (i j : Nat) (v : K) : Mat K := fun a b => if a = i ∧ b = j then v else W a b

/-- lingam/lim.py:330-332: `product(range(2), repeat=m)` (`true` = reverse the edge). -/
def settings : Nat → List (List Bool)
  | 0 => [[]]
  | m + 1 => (settings m).map (fun s => false :: s) ++ (settings m).map (fun s => true :: s)

/-- lingam/lim.py:334-338: the candidate with some edges reversed. -/
def reverseEdges (W : Mat K) : List (Nat × Nat) → List Bool → Mat K
  | (a, b) :: I, r :: s =>
    reverseEdges (if r then setAt (setAt W a b 0) b a 1 else W) I s
  | _, _ => W

/-- lingam/lim.py:339-342 (repeated at 351-354, 363-366, 375-378, 389-392): accept a candidate with smaller loss that
passes the acyclicity test.  The state is `(aa, W_min_lss)`. -/
def tryCand (d : Nat) (hTol : K) (L : Mat K → K) (s : K × Mat K) (Wt : Mat K) : K × Mat K :=
  if L Wt < s.1 ∧ hVal d Wt < hTol then (L Wt, Wt) else s

/-- lingam/lim.py:356-358, 380-382: `np.all(W_est.astype(bool) == W_min_lss.astype(bool))`. -/
def sameSupport (d : Nat) (A B : Mat K) : Bool :=
  (List.range d).all (fun i => (List.range d).all (fun j => decide (A i j ≠ 0) == decide (B i j ≠ 0)))

/-- The deletion candidates of `W0` (lingam/lim.py:347-350, 359-362). -/
def deleteCands (W0 : Mat K) (I : List (Nat × Nat)) : List (Mat K) := I.map (fun p => setAt W0 p.1 p.2 0)

/-- lingam/lim.py:370-371, 384-385: `W_edges = W0 + W0.T + np.eye(d)`, `I_add = np.where(W_edges == 0)`. -/
def addIdx (d : Nat) (W0 : Mat K) : List (Nat × Nat) :=
  ((List.range d).flatMap (fun i => (List.range d).map (fun j => (i, j)))).filter
    (fun p => decide (W0 p.1 p.2 + W0 p.2 p.1 + eye p.1 p.2 = 0))

/-- The addition candidates of `W0` (lingam/lim.py:372-374, 386-388). -/
def addCands (d : Nat) (W0 : Mat K) : List (Mat K) := (addIdx d W0).map (fun p => setAt W0 p.1 p.2 1)

/-- lingam/lim.py:326-342: check directions. -/
def directions (d : Nat) (hTol : K) (L : Mat K → K) (W : Mat K) : K × Mat K :=
  (((settings (whereNe d W).length).drop 1).map (reverseEdges W (whereNe d W))).foldl (tryCand d hTol L) (L W, W)

/-- lingam/lim.py:344-366: the prune process. -/
def prune (d : Nat) (hTol : K) (L : Mat K → K) (W : Mat K) (s : K × Mat K) : K × Mat K :=
  if 2 < d ∧ d - 1 < (whereNe d W).length then
    let s1 := (deleteCands s.2 (whereNe d s.2)).foldl (tryCand d hTol L) s
    if sameSupport d W s1.2 then s1
    else (deleteCands W (whereNe d W)).foldl (tryCand d hTol L) s1
  else s

/-- lingam/lim.py:367-392: the add process (`len(I[0]) < d * (d - 1) / 2` is a comparison of real numbers; `d (d-1)` is
even, so doubling both sides is exact). -/
def addEdges (d : Nat) (hTol : K) (L : Mat K → K) (W : Mat K) (s : K × Mat K) : K × Mat K :=
  if 2 < d ∧ 2 * (whereNe d W).length < d * (d - 1) then
    let s1 := (addCands d s.2).foldl (tryCand d hTol L) s
    if sameSupport d W s1.2 then s1
    else (addCands d W).foldl (tryCand d hTol L) s1
  else s

/-- lingam/lim.py:326-392: the local search on the thresholded `W_est` with score `L`. -/
def localSearch (d : Nat) (hTol : K) (L : Mat K → K) (W : Mat K) : Mat K :=
  (addEdges d hTol L W (prune d hTol L W (directions d hTol L W))).2

/-- lingam/lim.py:91-278, 298-303, 314, 319: What `fit` depends on besides the configuration: the optimiser (for every
loss type; the data, `dis_con` and
`lambda1` are fixed), the random numbers and the "mixed_dag" score. -/
structure Env (K : Type) where
  opt : LossType → K → K → Dbl K → Dbl K
  rnd : Nat → Dbl K
  score : Mat K → K

/-- lingam/lim.py:64-91 and 93-399: `fit`.  The state of the object that matters is `_loss_type`, which line 325 sets to
"mixed_dag"; it is returned next to the adjacency matrix. -/
def fit (d : Nat) (c : Cfg K) (fuel : Nat) (e : Env K) (onlyGlobal : Bool) (lt : LossType) :
    Option (Except Err (LossType × Mat K)) :=
  (globalPhase d c fuel (e.opt lt) e.rnd).map (fun r => r.map (fun W =>
    if onlyGlobal then (lt, W) else (LossType.mixedDag, localSearch d c.hTol e.score W)))

/-! ### LiNA -/

/-- `h_new > 0.25 * h` (lingam/lina.py:166, 555). -/
def gtQuarter (hn : K) (h : Option K) : Bool :=
  match h with
  | none => false
  | some x => decide ((1 / 4 : K) * x < hn)

/-- lingam/lina.py:161-169, 550-558: the inner loop of LiNA, repeated in MDLiNA. -/
def linaInner (d : Nat) (rhoMax : K) (opt : K → Dbl K) (h : Option K) : Nat → K → Option (Dbl K × K) →
    Option (K × Option (Dbl K × K))
  | 0, _, _ => none
  | f + 1, rho, cur =>
    if rho < rhoMax then
      let w := opt rho
      let hn := hVal d (adj w)
      if gtQuarter hn h then linaInner d rhoMax opt h f (rho * 10) (some (w, hn))
      else some (rho, some (w, hn))
    else some (rho, cur)

/-- lingam/lina.py:160-173, 549-562: the outer loop of LiNA, repeated in MDLiNA (`_estimate_MDLiNA_B`); the state is `(w_est, rho, alpha, h)`. -/
def linaOuter (d : Nat) (c : Cfg K) (fuel : Nat) (opt : K → K → Dbl K → Dbl K) :
    Nat → Dbl K → K → K → Option K → Option (Except Err (Dbl K))
  | 0, w, _, _, _ => some (Except.ok w)
  | n + 1, w, rho, alpha, h =>
    match linaInner d c.rhoMax (fun r => opt r alpha w) h fuel rho none with
    | none => none
    | some (_, none) => some (Except.error Err.typeError)
    | some (rho', some (w', h')) =>
      if h' ≤ c.hTol ∨ c.rhoMax ≤ rho' then some (Except.ok w')
      else linaOuter d c fuel opt n w' rho' (alpha + rho' * h') (some h')

/-- lingam/lina.py:106-177 (and 496-566 for the multi-domain variant) `_estimate_LiNA` from the start values (all zero) to
the thresholded matrix. -/
def linaEstimate (d : Nat) (c : Cfg K) (fuel : Nat) (opt : K → K → Dbl K → Dbl K) : Option (Except Err (Mat K)) :=
  (linaOuter d c fuel opt c.maxIter (fun _ _ => 0, fun _ _ => 0) 1 0 none).map
    (fun r => r.map (fun w => threshold c.wThr (adj w)))

end Verif.Lim
