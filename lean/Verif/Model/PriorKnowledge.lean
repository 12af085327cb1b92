import Verif.Model.DirectLingam

/-! Model of `make_prior_knowledge` (`/repo/lingam/utils/__init__.py` lines 97-142). -/
set_option autoImplicit false
namespace Verif.Direct

/-- lingam/utils/__init__.py:128-141: `pk[r, c] = v` with numpy's bounds check (`none` = IndexError). Negative indices
are not modelled. -/
def setCell (n : Nat) (r c : Nat) (v : Int) (pk : PK) : Option PK :=
  if r < n ∧ c < n then some (fun i j => if i = r ∧ j = c then v else pk i j) else none

/-- lingam/utils/__init__.py:126-142. `None` arguments and empty lists behave the same (`if paths:`), both are `[]` here. -/
def makePriorKnowledge (n : Nat) (exo sinks : List Nat) (paths noPaths : List (Nat × Nat)) : Option PK := do
  let pk : PK := fun _ _ => -1
  let pk ← noPaths.foldlM (fun pk p => setCell n p.2 p.1 0 pk) pk                       -- 127-129
  let pk ← paths.foldlM (fun pk p => setCell n p.2 p.1 1 pk) pk                         -- 130-132
  let pk ← sinks.foldlM (fun (pk : PK) v =>                                             -- 133-135
    if v < n then some (fun i j => if j = v then 0 else pk i j) else none) pk
  let pk ← exo.foldlM (fun (pk : PK) v =>                                               -- 136-138
    if v < n then some (fun i j => if i = v then 0 else pk i j) else none) pk
  pure (fun i j => if i = j then -1 else pk i j)                                        -- 139

end Verif.Direct
