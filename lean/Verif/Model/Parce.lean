import Verif.Model.DirectLingam
import Mathlib.Order.WithBot
import Mathlib.Data.List.Zip

/-!
Model of `lingam/bottom_up_parce_lingam.py`.

Regressions and tests are oracles of the data (NaN is not modelled here):
* `single U m`: p-value (hsic) or F-correlation (fcorr) when `m` is the only candidate (lines 233-243);
* `hsic Uc j`: Fisher statistic (`⊤` when a p-value is 0, line 314) and Fisher p-value of candidate `j` (lines 254-258);
* `fcorr Uc j`: F-correlation of candidate `j` (line 267).
The early exit of line 316 only makes the statistic of a candidate that loses anyway smaller than its full sum.
-/
set_option autoImplicit false
namespace Verif.Parce

open Direct (PK extractPartialOrders)

/-- lingam/bottom_up_parce_lingam.py:116, 154, 210-214. -/
inductive Err
  | direct (e : Direct.Err)
  /-- lines 127: `self._alpha / (n_features - 1)` with one feature -/
  | zeroDivision
  /-- lines 210-214: comparison of arrays of different lengths (an error since numpy 1.25) -/
  | broadcast
  deriving DecidableEq

/-- lingam/bottom_up_parce_lingam.py:24-90: Constructor arguments (lines 24-90) and the data oracles. -/
structure Cfg (K : Type := ℚ) where
  pk : Option PK
  fc : Bool
  alpha : K
  indCorr : K
  single : List Nat → Nat → K
  hsic : List Nat → Nat → WithTop K × K
  fcorr : List Nat → Nat → K

section search
variable {K : Type} [LinearOrder K]

/-- lingam/bottom_up_parce_lingam.py:175-186: `_search_candidate`. -/
def searchCandidate (c : Cfg K) (po : List (Nat × Nat)) (U : List Nat) : List Nat :=
  match c.pk with
  | none => U
  | some _ => if po.length ≠ 0 then U.filter (fun i => decide (i ∉ po.map Prod.fst)) else U

/-- lingam/bottom_up_parce_lingam.py:247-272: one candidate. State: the variable left out of `exo_vec` (`none`
while `exo_vec = []`), `eval`,
`max_p_stat`. -/
def exoStep (c : Cfg K) (Uc : List Nat) (st : Option Nat × WithTop K × WithTop K) (j : Nat) :
    Option Nat × WithTop K × WithTop K :=
  if c.fc then
    if ((c.fcorr Uc j : K) : WithTop K) < st.2.1 then (some j, ((c.fcorr Uc j : K) : WithTop K), st.2.2) else st
  else
    if (c.hsic Uc j).1 < st.2.2 then (some j, (((c.hsic Uc j).2 : K) : WithTop K), (c.hsic Uc j).1) else st

/-- lingam/bottom_up_parce_lingam.py:227-276: `_find_exo_vec`: `(m, eval)`. If no candidate improves on
infinity, `exo_vec` stays empty and `m` is
the whole of `Uc` (line 274). -/
def findExo (c : Cfg K) (Uc U : List Nat) : List Nat × WithTop K :=
  match Uc with
  | [x] => ([x], ((c.single U x : K) : WithTop K))
  | Uc =>
    let r := Uc.foldl (exoStep c Uc) (none, ⊤, ⊤)
    match r.1 with
    | some j => ([j], r.2.1)
    | none => (Uc, r.2.1)

/-- lingam/bottom_up_parce_lingam.py:278-286: `_is_reject`, with `thresh = alpha / (n_features - 1)` (line 127).
-/
def isReject (c : Cfg K) (thresh : K) (eval : WithTop K) : Bool :=
  if c.fc then decide ((c.indCorr : WithTop K) ≤ eval) else decide (eval < (thresh : WithTop K))

/-- lingam/bottom_up_parce_lingam.py:210-214: `arr[key != m]` for arrays (`key` a column of `arr`): a one-element `m` is
broadcast, otherwise the lengths have to
agree (lines 210-214). -/
def dropEq {α : Type} (arr : List α) (key : α → Nat) (m : List Nat) : Except Err (List α) :=
  match m with
  | [x] => .ok (arr.filter (fun a => decide (key a ≠ x)))
  | m =>
    if arr.length = m.length then .ok (((arr.zip m).filter (fun p => decide (key p.1 ≠ p.2))).map Prod.fst)
    else .error .broadcast

/-- lingam/bottom_up_parce_lingam.py:188-225: `_search_causal_order` with `K_bttm`, remaining `U` and the
partial orders; `none` = out of fuel. -/
def searchOrder (c : Cfg K) (thresh : K) : Nat → List Nat → List Nat → List (Nat × Nat) → Option (Except Err (List Nat))
  | 0, _, _, _ => none
  | fuel + 1, K, U, po =>
    let Uc := searchCandidate c po U
    let r := findExo c Uc U
    if isReject c thresh r.2 then some (.ok K)
    else
      match dropEq U (fun x => x) r.1 with
      | .error e => some (.error e)
      | .ok U' =>
        match (if c.pk.isSome then dropEq po Prod.snd r.1 else .ok po) with
        | .error e => some (.error e)
        | .ok po' =>
          if U'.length ≤ 1 then some (.ok (U' ++ (r.1 ++ K)))
          else searchOrder c thresh fuel (r.1 ++ K) U' po'

end search

section adjacency
variable {F : Type} [Field F] {K : Type} [Field K] [LinearOrder K]

/-- lingam/bottom_up_parce_lingam.py:132-140: The causal order: the block of unresolved variables (empty if there is none) and
the resolved ones (lines 132-140). -/
structure Order where
  block : List Nat
  rest : List Nat

/-- lingam/bottom_up_parce_lingam.py:337-347: `self._flatten(self._causal_order)`, lines 337-347. -/
def Order.flat (o : Order) : List Nat := o.block ++ o.rest

/-- lingam/bottom_up_parce_lingam.py:133-140: The items of `causal_order_` (lines 133-140). -/
def Order.items (o : Order) : List (List Nat) :=
  (if o.block = [] then [] else [o.block]) ++ o.rest.map (fun i => [i])

/-- lingam/bottom_up_parce_lingam.py:370-382: one iteration with `target = causal_order[i]`, `before =
_flatten(causal_order[:i])`. For `i ≥ 1` the
item is a single variable. -/
def adjStep (pk : Option PK) (lasso : Direct.Lasso F) (items : List (List Nat)) (B : Nat → Nat → F) (i : Nat) :
    Nat → Nat → F :=
  match items[i]? with
  | some [target] => Direct.adjStep pk lasso B (items.take i).flatten target
  | _ => B

/-- lingam/bottom_up_parce_lingam.py:349-394: `_estimate_adjacency_matrix`; `none` is NaN. -/
def adjacency (pk : Option PK) (lasso : Direct.Lasso F) (o : Order) (i j : Nat) : Option F :=
  let B := (List.range' 1 (o.items.length - 1)).foldl (adjStep pk lasso o.items) (fun _ _ => 0)
  if i ∈ o.block ∧ j ∈ o.block ∧ i ≠ j then none else some (B i j)

/-- lingam/bottom_up_parce_lingam.py:113-121: the partial orders. -/
def priorOrders (c : Cfg K) (n : Nat) : Except Direct.Err (List (Nat × Nat)) :=
  match c.pk with
  | none => .ok []
  | some pk => extractPartialOrders n pk

/-- lingam/bottom_up_parce_lingam.py:92-142: `fit`; `none` = out of fuel. -/
def fit (c : Cfg K) (lasso : Direct.Lasso F) (n fuel : Nat) : Option (Except Err (Order × (Nat → Nat → Option F))) :=
  match priorOrders c n with
  | .error e => some (.error (.direct e))
  | .ok po =>
    if n = 1 then some (.error .zeroDivision)
    else
      match searchOrder c (c.alpha / ((n : K) - 1)) fuel [] (List.range n) po with
      | none => none
      | some (.error e) => some (.error e)
      | some (.ok K) =>
        let res := (List.range n).filter (fun i => decide (i ∉ K))
        let o : Order := ⟨if 1 < res.length then res else [], K⟩
        some (.ok (o, adjacency c.pk lasso o))

end adjacency
end Verif.Parce
