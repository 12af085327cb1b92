import Mathlib.Data.List.Basic

/-!
# Specification: fitting an object several times
-/
set_option autoImplicit false
namespace Verif

/-- The result of the last of the calls that succeed on a new object; `none` if there is none. -/
def lastSuccess {D R : Type} (fresh : D → Option R) (xs : List D) : Option R := (xs.filterMap fresh).getLast?

end Verif
