import Mathlib.Algebra.Order.Field.Rat

/-!
Model of `print_causal_directions` and `print_dagc` (`/repo/lingam/utils/__init__.py`): the printed lines.  The percentage is computed
exactly; `round` is any rounding to one decimal.
-/
set_option autoImplicit false
namespace Verif.PrintBoot

/-- A printed line, lingam/utils/__init__.py:66-68. -/
abbrev Text := List Char

/-- The exceptions: `IndexError`, `ValueError`, `ZeroDivisionError`.  lingam/utils/__init__.py:64-68. -/
inductive Err where
  | index
  | value
  | zeroDivision
  deriving DecidableEq

/-- The argument `labels`: `None`, a list (or tuple), or a numpy array (or pandas Index).  lingam/utils/__init__.py:49, 59-61. -/
inductive Labels where
  | none
  | list (l : List Text)
  | array (l : List Text)

/-- `f"{k}"` of a natural number, lingam/utils/__init__.py:68. -/
def digits (k : Nat) : Text := Nat.toDigits 10 k

/-- `if labels:`; the truth value of an array with other than one element is an error (for an empty one: in recent versions).
lingam/utils/__init__.py:65, 90. -/
def truth : Labels → Except Err Bool
  | .none => .ok false
  | .list l => .ok !l.isEmpty
  | .array [s] => .ok !s.isEmpty
  | .array _ => .error .value

/-- `labels[k]`, lingam/utils/__init__.py:66, 91. -/
def labelAt (L : Labels) (k : Nat) : Except Err Text :=
  match L with
  | .none => .error .value
  | .list l | .array l => match l[k]? with
    | some s => .ok s
    | none => .error .index

/-- `labels[k]` or `x{k}`.  lingam/utils/__init__.py:65-68, 90-93. -/
def nameOf (L : Labels) (b : Bool) (k : Nat) : Except Err Text := if b then labelAt L k else .ok ('x' :: digits k)

/-- `{100*co/n_sampling:.1f}%`; `round` gives the tenths.  lingam/utils/__init__.py:66, 68, 85. -/
def percent (round : ℚ → Nat) (co n : Nat) : Except Err Text :=
  if n = 0 then .error .zeroDivision
  else
    let k := round (100 * co / n)
    .ok (digits (k / 10) ++ '.' :: digits (k % 10) ++ ['%'])

/-- The text for the sign: nothing without the key `sign`.  lingam/utils/__init__.py:64, 87-89. -/
def signText (sign : Option (List Int)) (i : Nat) : Except Err Text :=
  match sign with
  | none => .ok []
  | some s => match s[i]? with
    | none => .error .index
    | some v => .ok (if 0 < v then ['(', 'b', '>', '0', ')'] else ['(', 'b', '<', '0', ')'])

/-- `{to} <--- {fr} {sign}`.  lingam/utils/__init__.py:66, 68, 91, 93. -/
def arrow (L : Labels) (sign : Option (List Int)) (i fr tgt : Nat) : Except Err Text :=
  match signText sign i with
  | .error e => .error e
  | .ok sg => match truth L with
    | .error e => .error e
    | .ok b => match nameOf L b tgt with
      | .error e => .error e
      | .ok t => match nameOf L b fr with
        | .error e => .error e
        | .ok f => .ok (t ++ [' ', '<', '-', '-', '-', ' '] ++ f ++ ' ' :: sg)

/-- The loop of `print_causal_directions` from position `i` on; rows are `(from, to, count)`.  lingam/utils/__init__.py:63-68. -/
def directionLines (round : ℚ → Nat) (n : Nat) (L : Labels) (sign : Option (List Int)) : Nat → List (Nat × Nat × Nat) → Except Err (List Text)
  | _, [] => .ok []
  | i, (fr, tgt, co) :: rows => match arrow L sign i fr tgt with
    | .error e => .error e
    | .ok a => match percent round co n with
      | .error e => .error e
      | .ok p => match directionLines round n L sign (i + 1) rows with
        | .error e => .error e
        | .ok ls => .ok ((a ++ [' ', '('] ++ p ++ [')']) :: ls)

/-- `print_causal_directions`, lingam/utils/__init__.py:49-68. -/
def printDirections (round : ℚ → Nat) (n : Nat) (L : Labels) (src dst count : List Nat) (sign : Option (List Int)) : Except Err (List Text) :=
  directionLines round n L sign 0 (src.zip (dst.zip count))

/-- The inner loop of `print_dagc` from position `j` on.  lingam/utils/__init__.py:86-93. -/
def edgeLines (L : Labels) (sign : Option (List Int)) : Nat → List (Nat × Nat) → Except Err (List Text)
  | _, [] => .ok []
  | j, (fr, tgt) :: es => match arrow L sign j fr tgt with
    | .error e => .error e
    | .ok a => match edgeLines L sign (j + 1) es with
      | .error e => .error e
      | .ok ls => .ok (('\t' :: a) :: ls)

/-- The outer loop of `print_dagc` from position `i` on; a graph is `(from, to, sign)`.  lingam/utils/__init__.py:84-93. -/
def dagLines (round : ℚ → Nat) (n : Nat) (L : Labels) : Nat → List ((List Nat × List Nat × Option (List Int)) × Nat) → Except Err (List Text)
  | _, [] => .ok []
  | i, ((src, dst, sign), co) :: ds => match percent round co n with
    | .error e => .error e
    | .ok p => match edgeLines L sign 0 (src.zip dst) with
      | .error e => .error e
      | .ok es => match dagLines round n L (i + 1) ds with
        | .error e => .error e
        | .ok ls => .ok ((['D', 'A', 'G', '['] ++ digits i ++ [']', ':', ' '] ++ p) :: es ++ ls)

/-- `print_dagc`, lingam/utils/__init__.py:71-93. -/
def printDags (round : ℚ → Nat) (n : Nat) (L : Labels) (dags : List (List Nat × List Nat × Option (List Int))) (count : List Nat) :
    Except Err (List Text) :=
  dagLines round n L 0 (dags.zip count)

end Verif.PrintBoot
