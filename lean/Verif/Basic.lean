import Mathlib.Algebra.BigOperators.Group.List.Basic
import Mathlib.Algebra.BigOperators.Ring.List
import Mathlib.Algebra.Order.Field.Basic
import Mathlib.Algebra.Order.Floor.Defs
import Mathlib.Data.Matrix.Mul
import Mathlib.Data.Rat.Floor
import Mathlib.Logic.Equiv.Fin.Basic

/-!
# Python values used by the model

Exceptions, indexing and arrays, shared by all model files.
-/

namespace SolidsPy

/-- Python exception classes raised by SolidsPy and the libraries it calls.
`nonFinite` is not a Python exception: it marks a result containing `inf` or `nan`
(NumPy division by zero only warns). -/
inductive PyErr
  | valueError
  | indexError
  | keyError
  | typeError
  | zeroDivision
  | unboundLocal
  | linAlg
  | fileNotFound
  | nonFinite
  deriving DecidableEq, Repr

/-- A Python computation: a value or an exception. -/
abbrev Py (α : Type) := Except PyErr α

/-- Python/NumPy index resolution on an axis of length `n`: negative indices count from the end. -/
def pyFin (n : ℕ) (i : ℤ) : Py (Fin n) :=
  if h : 0 ≤ i ∧ i < n then .ok ⟨i.toNat, by omega⟩
  else if h : i < 0 ∧ -(n : ℤ) ≤ i then .ok ⟨(i + n).toNat, by omega⟩
  else .error .indexError

/-- `l[i]` for a Python list or a 1-D array (or a row of a 2-D array). -/
def pyGet {α : Type} (l : List α) (i : ℤ) : Py α :=
  match pyFin l.length i with
  | .ok k => .ok (l.get k)
  | .error e => .error e

/-- `arr[idx]` with a list of indices (fancy indexing along the first axis). -/
def pyGetMany {α : Type} (l : List α) (idx : List ℤ) : Py (List α) :=
  idx.mapM (pyGet l)

/-- `a / b` on floats: division by zero leaves the finite numbers. -/
def pyDiv {K : Type} [Field K] [DecidableEq K] (a b : K) : Py K :=
  if b = 0 then .error .nonFinite else .ok (a / b)

/-- `astype(int)` and `int(x)`: truncation toward zero. -/
def pyTrunc {K : Type} [Field K] [LinearOrder K] [FloorRing K] (x : K) : ℤ :=
  if 0 ≤ x then ⌊x⌋ else ⌈x⌉

/-- A 1-D or 2-D float array, as returned by element routines. -/
inductive NdArr (K : Type)
  | vec (n : ℕ) (f : Fin n → K)
  | mat (m n : ℕ) (f : Matrix (Fin m) (Fin n) K)

namespace NdArr
variable {K : Type}

/-- `a.shape[0]`. -/
def shape0 : NdArr K → ℕ
  | vec n _ => n
  | mat m _ _ => m

/-- `a[r, c]` for non-negative `r`, `c`; a 1-D array has too few axes (`IndexError`). -/
def get2 (a : NdArr K) (r c : ℕ) : Py K :=
  match a with
  | vec _ _ => .error .indexError
  | mat m n f =>
    if h : r < m ∧ c < n then .ok (f ⟨r, h.1⟩ ⟨c, h.2⟩) else .error .indexError

/-- Flatten a matrix indexed by (node, component) into the interleaved layout
`d*node + component` that the strided slices `0::d`, `1::d`, ... address. -/
def ofBlocks {n d : ℕ} (M : Matrix (Fin n × Fin d) (Fin n × Fin d) K) : NdArr K :=
  mat (n * d) (n * d) (fun i j => M (finProdFinEquiv.symm i) (finProdFinEquiv.symm j))

end NdArr

/-- A float table (2-D array) as a list of rows. -/
abbrev Table (K : Type) := List (List K)

/-- The type of an element routine `uel(coord, params)` returning stiffness and mass. -/
abbrev Uel (K : Type) := Table K → List K → Py (NdArr K × NdArr K)

end SolidsPy
