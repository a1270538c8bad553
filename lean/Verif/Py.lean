import Mathlib.Algebra.Order.Field.Basic
import Mathlib.Data.List.Basic

/-!
# Python / numpy semantics used by the model

Exceptions are values; arrays are lists; indices are natural numbers unless Python allows negative ones.
-/

namespace GwEcc

/-- Python exception classes raised by the modelled code (messages are not modelled). -/
inductive Err
  | exception          -- `raise Exception(...)`
  | keyError
  | valueError
  | typeError
  | indexError
  | zeroDivisionError
  | nameError          -- includes `UnboundLocalError`
  | attributeError
  | linAlgError
  deriving DecidableEq, Repr

/-- Result of a Python call: a value or an exception. -/
abbrev Py (α : Type) := Except Err α

section arrays

variable {α : Type}

/-- Normalisation of a slice bound `i` for a sequence of length `n`
(Python language reference, slicings: negative bounds count from the end, then clip). -/
def pyBound (n : ℕ) (i : ℤ) : ℕ :=
  if i < 0 then (i + n).toNat else min i.toNat n

/-- `l[start:stop]`. -/
def pySlice (l : List α) (start stop : ℤ) : List α :=
  (l.take (pyBound l.length stop)).drop (pyBound l.length start)

/-- `l[start:]`. -/
def pySliceFrom (l : List α) (start : ℤ) : List α := l.drop (pyBound l.length start)

/-- `l[:stop]`. -/
def pySliceTo (l : List α) (stop : ℤ) : List α := l.take (pyBound l.length stop)

/-- `np.diff(l)`. -/
def diff {K : Type} [Sub K] : List K → List K
  | a :: b :: l => (b - a) :: diff (b :: l)
  | _ => []

/-- Indices (counted from `k`) of the entries satisfying `p`. -/
def whereFrom (p : α → Bool) (k : ℕ) : List α → List ℕ
  | [] => []
  | a :: l => if p a then k :: whereFrom p (k + 1) l else whereFrom p (k + 1) l

/-- `np.where(mask)[0]`. -/
def npWhere (p : α → Bool) (l : List α) : List ℕ := whereFrom p 0 l

/-- Position and value of the first minimum of `a :: l`. -/
def argminP {K : Type} [LinearOrder K] (a : K) : List K → ℕ × K
  | [] => (0, a)
  | b :: l =>
    let r := argminP b l
    if a ≤ r.2 then (0, a) else (r.1 + 1, r.2)

/-- `np.argmin(l)`: index of the first minimum; `ValueError` on an empty array. -/
def argmin {K : Type} [LinearOrder K] : List K → Py ℕ
  | [] => .error .valueError
  | a :: l => .ok (argminP a l).1

/-- Position and value of the first maximum of `a :: l`. -/
def argmaxP {K : Type} [LinearOrder K] (a : K) : List K → ℕ × K
  | [] => (0, a)
  | b :: l =>
    let r := argmaxP b l
    if r.2 ≤ a then (0, a) else (r.1 + 1, r.2)

/-- `np.argmax(l)`: index of the first maximum; `ValueError` on an empty array. -/
def argmax {K : Type} [LinearOrder K] : List K → Py ℕ
  | [] => .error .valueError
  | a :: l => .ok (argmaxP a l).1

/-- `l[i]` with a nonnegative index. -/
def pyGet (l : List α) (i : ℕ) : Py α :=
  match l[i]? with
  | some a => .ok a
  | none => .error .indexError

end arrays

end GwEcc

namespace GwEcc

section dict

/-- A Python `dict`: key/value pairs in insertion order. -/
abbrev Dict (κ V : Type) := List (κ × V)

variable {κ V : Type} [DecidableEq κ]

/-- `d.get(k)`. -/
def Dict.get? (d : Dict κ V) (k : κ) : Option V := List.lookup k d

/-- `k in d`. -/
def Dict.has (d : Dict κ V) (k : κ) : Bool := (Dict.get? d k).isSome

/-- `d.keys()`. -/
def Dict.keys (d : Dict κ V) : List κ := d.map Prod.fst

/-- `d[k] = v`. -/
def Dict.set : Dict κ V → κ → V → Dict κ V
  | [], k, v => [(k, v)]
  | (k', v') :: d, k, v => if k = k' then (k, v) :: d else (k', v') :: Dict.set d k v

/-- `d.pop(k, None)` (the remaining dictionary). -/
def Dict.del (d : Dict κ V) (k : κ) : Dict κ V := d.filter (fun p => p.1 ≠ k)

/-- `d[k]`, `KeyError` when absent. -/
def Dict.getItem (d : Dict κ V) (k : κ) : Py V :=
  match Dict.get? d k with
  | some v => .ok v
  | none => .error .keyError

end dict

end GwEcc
