import Verif.Model.Assem
import Verif.Model.Gauss
import Verif.Model.Gui
import Verif.Model.Pre

/-!
# The model against the tests of the project

The assertions of `/repo/tests` that compare numbers are evaluated on the model, in rational arithmetic, with the
tolerances of `np.allclose`.  These are tests of the model, not proofs; no property rests on them.  Expected values are
copied from the tests by a script.  The square root is approximated to twenty digits and the linear systems are solved by
elimination.  Tests with random numbers or of spectra are left out: C59 to C64, C85, C116 and C123 prove them in general.
-/

namespace SolidsPy
namespace Upstream
open Fem Uel Gauss Assem Pre

/-- Square root to twenty digits. -/
def sqrtQ (x : ℚ) : ℚ := (Nat.sqrt (⌊x * 10 ^ 40⌋.toNat) : ℚ) / 10 ^ 20

/-- `np.allclose(a, b)` for tables of the same shape. -/
def closeTab (rtol : ℚ) (a b : Table ℚ) : Bool :=
  a.length == b.length && (a.zip b).all fun (r, s) =>
    r.length == s.length && (r.zip s).all fun (x, y) => decide (|x - y| ≤ 1e-8 + rtol * |y|)

/-- The rows of an array. -/
def rows : NdArr ℚ → Table ℚ
  | .vec _ f => [List.ofFn f]
  | .mat _ _ f => List.ofFn fun i => List.ofFn fun j => f i j

/-- The rows of a matrix. -/
def matTab {m n : ℕ} (M : Matrix (Fin m) (Fin n) ℚ) : Table ℚ := List.ofFn fun i => List.ofFn fun j => M i j

/-- The table times a number. -/
def scale (c : ℚ) (t : Table ℚ) : Table ℚ := t.map (List.map (c * ·))

/-- The routine returns these two matrices, up to the tolerance. -/
def gives (f : Uel ℚ) (coord : Table ℚ) (params : List ℚ) (k m : Table ℚ) : Bool :=
  match f coord params with
  | .ok (A, B) => closeTab 1e-5 (rows A) k && closeTab 1e-5 (rows B) m
  | .error _ => false

/-- The routine returns this stiffness. -/
def givesK (f : Uel ℚ) (coord : Table ℚ) (params : List ℚ) (k : Table ℚ) : Bool :=
  match f coord params with
  | .ok (A, _) => closeTab 1e-5 (rows A) k
  | .error _ => false

/-- One step of the elimination: a row with a leading entry is taken out and cleared from the others. -/
def eliminate : ℕ → ℕ → Table ℚ → Table ℚ → Table ℚ
  | 0, _, done, _ => done
  | fuel + 1, col, done, todo =>
    match todo.find? fun r => r.getD col 0 != 0 with
    | none => done
    | some p =>
      let p := p.map (· / p.getD col 1)
      let clear := fun r : List ℚ => List.zipWith (fun x y => x - r.getD col 0 * y) r p
      let rest := (todo.map clear).filter fun r => r.any (· != 0)
      eliminate fuel (col + 1) (done.map clear ++ [p]) rest

/-- A solver: elimination on the extended matrix. -/
def gaussSolver : Sol.Solver ℚ := fun n A b =>
  let t := List.ofFn fun i => (List.ofFn fun j => A i j) ++ [b i]
  let r := eliminate n 0 [] t
  if r.length = n then .ok fun i => (r.getD i []).getD n 0 else .error .nonFinite

/-! ## `tests/test_uelutil.py` -/

-- `test_elast_tri3`
#guard gives elastTri3 [[0, 0], [1, 0], [0, 1]] [8/3, 1/3, 1]
  (scale (1/2) [[4, 2, -3, -1, -1, -1], [2, 4, -1, -1, -1, -3], [-3, -1, 3, 0, 0, 1], [-1, -1, 0, 1, 1, 0], [-1, -1, 0, 1, 1, 0],
  [-1, -3, 1, 0, 0, 3]])
  (scale (1/24) [[2, 0, 1, 0, 1, 0], [0, 2, 0, 1, 0, 1], [1, 0, 2, 0, 1, 0], [0, 1, 0, 2, 0, 1], [1, 0, 1, 0, 2, 0],
  [0, 1, 0, 1, 0, 2]])

-- `test_elast_tri6`
#guard gives elastTri6 [[0, 0], [1, 0], [0, 1], [0.5, 0], [0.5, 0.5], [0, 0.5]] [8/3, 1/3, 1]
  (scale (1/6) [[12, 6, 3, 1, 1, 1, -12, -4, 0, 0, -4, -4], [6, 12, 1, 1, 1, 3, -4, -4, 0, 0, -4, -12],
  [3, 1, 9, 0, 0, -1, -12, -4, 0, 4, 0, 0], [1, 1, 0, 3, -1, 0, -4, -4, 4, 0, 0, 0],
  [1, 1, 0, -1, 3, 0, 0, 0, 0, 4, -4, -4], [1, 3, -1, 0, 0, 9, 0, 0, 4, 0, -4, -12],
  [-12, -4, -12, -4, 0, 0, 32, 8, -8, -8, 0, 8], [-4, -4, -4, -4, 0, 0, 8, 32, -8, -24, 8, 0],
  [0, 0, 0, 4, 0, 4, -8, -8, 32, 8, -24, -8], [0, 0, 4, 0, 4, 0, -8, -24, 8, 32, -8, -8],
  [-4, -4, 0, 0, -4, -4, 0, 8, -24, -8, 32, 8], [-4, -12, 0, 0, -4, -12, 8, 0, -8, -8, 8, 32]])
  (scale (1/360) [[6, 0, -1, 0, -1, 0, 0, 0, -4, 0, 0, 0], [0, 6, 0, -1, 0, -1, 0, 0, 0, -4, 0, 0],
  [-1, 0, 6, 0, -1, 0, 0, 0, 0, 0, -4, 0], [0, -1, 0, 6, 0, -1, 0, 0, 0, 0, 0, -4],
  [-1, 0, -1, 0, 6, 0, -4, 0, 0, 0, 0, 0], [0, -1, 0, -1, 0, 6, 0, -4, 0, 0, 0, 0],
  [0, 0, 0, 0, -4, 0, 32, 0, 16, 0, 16, 0], [0, 0, 0, 0, 0, -4, 0, 32, 0, 16, 0, 16],
  [-4, 0, 0, 0, 0, 0, 16, 0, 32, 0, 16, 0], [0, -4, 0, 0, 0, 0, 0, 16, 0, 32, 0, 16],
  [0, 0, -4, 0, 0, 0, 16, 0, 16, 0, 32, 0], [0, 0, 0, -4, 0, 0, 0, 16, 0, 16, 0, 32]])

-- `test_elast_quad4`
#guard gives elastQuad4 [[-1, -1], [1, -1], [1, 1], [-1, 1]] [8/3, 1/3]
  (scale (1/6) [[8, 3, -5, 0, -4, -3, 1, 0], [3, 8, 0, 1, -3, -4, 0, -5], [-5, 0, 8, -3, 1, 0, -4, 3],
  [0, 1, -3, 8, 0, -5, 3, -4], [-4, -3, 1, 0, 8, 3, -5, 0], [-3, -4, 0, -5, 3, 8, 0, 1],
  [1, 0, -4, 3, -5, 0, 8, -3], [0, -5, 3, -4, 0, 1, -3, 8]])
  (scale (1/9) [[4, 0, 2, 0, 1, 0, 2, 0], [0, 4, 0, 2, 0, 1, 0, 2], [2, 0, 4, 0, 2, 0, 1, 0], [0, 2, 0, 4, 0, 2, 0, 1],
  [1, 0, 2, 0, 4, 0, 2, 0], [0, 1, 0, 2, 0, 4, 0, 2], [2, 0, 1, 0, 2, 0, 4, 0], [0, 2, 0, 1, 0, 2, 0, 4]])

-- `test_truss2D`
#guard gives (truss2D sqrtQ) [[0, 0], [1, 0]] [1.0, 1.0, 1.0]
  [[1, 0, -1, 0], [0, 0, 0, 0], [-1, 0, 1, 0], [0, 0, 0, 0]]
  (scale (1/6) [[2, 0, 1, 0], [0, 2, 0, 1], [1, 0, 2, 0], [0, 1, 0, 2]])

-- `test_beam2DU`
#guard gives (beam2DU sqrtQ) [[0, 0], [1, 0]] [1.0, 1.0, 1.0, 1.0]
  [[0, 0, 0, 0, 0, 0], [0, 12, 6, 0, -12, 6], [0, 6, 4, 0, -6, 2], [0, 0, 0, 0, 0, 0], [0, -12, -6, 0, 12, -6],
  [0, 6, 2, 0, -6, 4]]
  (scale (1/420) [[0, 0, 0, 0, 0, 0], [0, 156, 22, 0, 54, -13], [0, 22, 4, 0, 13, -3], [0, 0, 0, 0, 0, 0],
  [0, 54, 13, 0, 156, -22], [0, -13, -3, 0, -22, 4]])

-- `test_spring`
#guard givesK (spring sqrtQ) [[0, 0], [1, 0]] [1]
  [[1, 0, -1, 0], [0, 0, 0, 0], [-1, 0, 1, 0], [0, 0, 0, 0]]

/-! ## `tests/test_femutil.py` -/

-- `test_shape_tri3`
#guard closeTab 1e-5 [List.ofFn (shapeTri3 (K := ℚ) (0.0) (0.0)).1] [List.ofFn fun i : Fin 3 => if i = 0 then 1 else 0]
#guard closeTab 1e-5 [List.ofFn (shapeTri3 (K := ℚ) (1.0) (0.0)).1] [List.ofFn fun i : Fin 3 => if i = 1 then 1 else 0]
#guard closeTab 1e-5 [List.ofFn (shapeTri3 (K := ℚ) (0.0) (1.0)).1] [List.ofFn fun i : Fin 3 => if i = 2 then 1 else 0]

-- `test_shape_tri6_N`
#guard closeTab 1e-5 [List.ofFn (shapeTri6 (K := ℚ) (0.0) (0.0)).1] [List.ofFn fun i : Fin 6 => if i = 0 then 1 else 0]
#guard closeTab 1e-5 [List.ofFn (shapeTri6 (K := ℚ) (1.0) (0.0)).1] [List.ofFn fun i : Fin 6 => if i = 1 then 1 else 0]
#guard closeTab 1e-5 [List.ofFn (shapeTri6 (K := ℚ) (0.0) (1.0)).1] [List.ofFn fun i : Fin 6 => if i = 2 then 1 else 0]
#guard closeTab 1e-5 [List.ofFn (shapeTri6 (K := ℚ) (0.5) (0.0)).1] [List.ofFn fun i : Fin 6 => if i = 3 then 1 else 0]
#guard closeTab 1e-5 [List.ofFn (shapeTri6 (K := ℚ) (0.5) (0.5)).1] [List.ofFn fun i : Fin 6 => if i = 4 then 1 else 0]
#guard closeTab 1e-5 [List.ofFn (shapeTri6 (K := ℚ) (0.0) (0.5)).1] [List.ofFn fun i : Fin 6 => if i = 5 then 1 else 0]

-- `test_shape_quad4_N`
#guard closeTab 1e-5 [List.ofFn (shapeQuad4 (K := ℚ) (-1.0) (-1.0)).1] [List.ofFn fun i : Fin 4 => if i = 0 then 1 else 0]
#guard closeTab 1e-5 [List.ofFn (shapeQuad4 (K := ℚ) (1.0) (-1.0)).1] [List.ofFn fun i : Fin 4 => if i = 1 then 1 else 0]
#guard closeTab 1e-5 [List.ofFn (shapeQuad4 (K := ℚ) (1.0) (1.0)).1] [List.ofFn fun i : Fin 4 => if i = 2 then 1 else 0]
#guard closeTab 1e-5 [List.ofFn (shapeQuad4 (K := ℚ) (-1.0) (1.0)).1] [List.ofFn fun i : Fin 4 => if i = 3 then 1 else 0]

-- `test_shape_quad9_N`
#guard closeTab 1e-5 [List.ofFn (shapeQuad9 (K := ℚ) (-1.0) (-1.0)).1] [List.ofFn fun i : Fin 9 => if i = 0 then 1 else 0]
#guard closeTab 1e-5 [List.ofFn (shapeQuad9 (K := ℚ) (1.0) (-1.0)).1] [List.ofFn fun i : Fin 9 => if i = 1 then 1 else 0]
#guard closeTab 1e-5 [List.ofFn (shapeQuad9 (K := ℚ) (1.0) (1.0)).1] [List.ofFn fun i : Fin 9 => if i = 2 then 1 else 0]
#guard closeTab 1e-5 [List.ofFn (shapeQuad9 (K := ℚ) (-1.0) (1.0)).1] [List.ofFn fun i : Fin 9 => if i = 3 then 1 else 0]
#guard closeTab 1e-5 [List.ofFn (shapeQuad9 (K := ℚ) (0.0) (-1.0)).1] [List.ofFn fun i : Fin 9 => if i = 4 then 1 else 0]
#guard closeTab 1e-5 [List.ofFn (shapeQuad9 (K := ℚ) (1.0) (0.0)).1] [List.ofFn fun i : Fin 9 => if i = 5 then 1 else 0]
#guard closeTab 1e-5 [List.ofFn (shapeQuad9 (K := ℚ) (0.0) (1.0)).1] [List.ofFn fun i : Fin 9 => if i = 6 then 1 else 0]
#guard closeTab 1e-5 [List.ofFn (shapeQuad9 (K := ℚ) (-1.0) (0.0)).1] [List.ofFn fun i : Fin 9 => if i = 7 then 1 else 0]
#guard closeTab 1e-5 [List.ofFn (shapeQuad9 (K := ℚ) (0.0) (0.0)).1] [List.ofFn fun i : Fin 9 => if i = 8 then 1 else 0]

-- `test_shape_quad8`
#guard closeTab 1e-5 [List.ofFn (shapeQuad8 (K := ℚ) (-1.0) (-1.0)).1] [List.ofFn fun i : Fin 8 => if i = 0 then 1 else 0]
#guard closeTab 1e-5 [List.ofFn (shapeQuad8 (K := ℚ) (1.0) (-1.0)).1] [List.ofFn fun i : Fin 8 => if i = 1 then 1 else 0]
#guard closeTab 1e-5 [List.ofFn (shapeQuad8 (K := ℚ) (1.0) (1.0)).1] [List.ofFn fun i : Fin 8 => if i = 2 then 1 else 0]
#guard closeTab 1e-5 [List.ofFn (shapeQuad8 (K := ℚ) (-1.0) (1.0)).1] [List.ofFn fun i : Fin 8 => if i = 3 then 1 else 0]
#guard closeTab 1e-5 [List.ofFn (shapeQuad8 (K := ℚ) (0.0) (-1.0)).1] [List.ofFn fun i : Fin 8 => if i = 4 then 1 else 0]
#guard closeTab 1e-5 [List.ofFn (shapeQuad8 (K := ℚ) (1.0) (0.0)).1] [List.ofFn fun i : Fin 8 => if i = 5 then 1 else 0]
#guard closeTab 1e-5 [List.ofFn (shapeQuad8 (K := ℚ) (0.0) (1.0)).1] [List.ofFn fun i : Fin 8 => if i = 6 then 1 else 0]
#guard closeTab 1e-5 [List.ofFn (shapeQuad8 (K := ℚ) (-1.0) (0.0)).1] [List.ofFn fun i : Fin 8 => if i = 7 then 1 else 0]

-- `test_shape_tet4`
#guard closeTab 1e-5 [List.ofFn (shapeTet4 (K := ℚ) (0.0) (0.0) (0.0)).1] [List.ofFn fun i : Fin 4 => if i = 0 then 1 else 0]
#guard closeTab 1e-5 [List.ofFn (shapeTet4 (K := ℚ) (1.0) (0.0) (0.0)).1] [List.ofFn fun i : Fin 4 => if i = 1 then 1 else 0]
#guard closeTab 1e-5 [List.ofFn (shapeTet4 (K := ℚ) (0.0) (1.0) (0.0)).1] [List.ofFn fun i : Fin 4 => if i = 2 then 1 else 0]
#guard closeTab 1e-5 [List.ofFn (shapeTet4 (K := ℚ) (0.0) (0.0) (1.0)).1] [List.ofFn fun i : Fin 4 => if i = 3 then 1 else 0]

-- `test_shape_hex`
#guard closeTab 1e-5 [List.ofFn (shapeHex8 (K := ℚ) (-1.0) (-1.0) (-1.0)).1] [List.ofFn fun i : Fin 8 => if i = 0 then 1 else 0]
#guard closeTab 1e-5 [List.ofFn (shapeHex8 (K := ℚ) (1.0) (-1.0) (-1.0)).1] [List.ofFn fun i : Fin 8 => if i = 1 then 1 else 0]
#guard closeTab 1e-5 [List.ofFn (shapeHex8 (K := ℚ) (1.0) (1.0) (-1.0)).1] [List.ofFn fun i : Fin 8 => if i = 2 then 1 else 0]
#guard closeTab 1e-5 [List.ofFn (shapeHex8 (K := ℚ) (-1.0) (1.0) (-1.0)).1] [List.ofFn fun i : Fin 8 => if i = 3 then 1 else 0]
#guard closeTab 1e-5 [List.ofFn (shapeHex8 (K := ℚ) (-1.0) (-1.0) (1.0)).1] [List.ofFn fun i : Fin 8 => if i = 4 then 1 else 0]
#guard closeTab 1e-5 [List.ofFn (shapeHex8 (K := ℚ) (1.0) (-1.0) (1.0)).1] [List.ofFn fun i : Fin 8 => if i = 5 then 1 else 0]
#guard closeTab 1e-5 [List.ofFn (shapeHex8 (K := ℚ) (1.0) (1.0) (1.0)).1] [List.ofFn fun i : Fin 8 => if i = 6 then 1 else 0]
#guard closeTab 1e-5 [List.ofFn (shapeHex8 (K := ℚ) (-1.0) (1.0) (1.0)).1] [List.ofFn fun i : Fin 8 => if i = 7 then 1 else 0]

-- `test_shape_tri6_dNdr`
#guard closeTab 1e-5 [List.ofFn (shapeTri6 (K := ℚ) (1 / 3) (1 / 3)).1] (scale (1 / 9) [[-1.0, -1.0, -1.0, 4.0, 4.0, 4.0]])
#guard closeTab 1e-5 (matTab (shapeTri6 (K := ℚ) (1 / 3) (1 / 3)).2) (scale (1 / 3) [[-1.0, 1.0, 0.0, 0.0, 4.0, -4.0], [-1.0, 0.0, 1.0, -4.0, 4.0, 0.0]])

-- `test_shape_quad4_dNdr`
#guard closeTab 1e-5 [List.ofFn (shapeQuad4 (K := ℚ) 0 0).1] (scale 0.25 [[1, 1, 1, 1]])

-- `test_shape_quad9_dNdr`
#guard closeTab 1e-5 [List.ofFn (shapeQuad9 (K := ℚ) 0.25 0.25).1]
  [[0.00878906, -0.01464844, 0.02441406, -0.01464844, -0.08789062, 0.14648438, 0.14648438, -0.08789062, 0.87890625]]
#guard closeTab 1e-5 (matTab (shapeQuad9 (K := ℚ) 0.25 0.25).2)
  [[0.0234375, -0.0703125, 0.1171875, -0.0390625, 0.046875, 0.703125, -0.078125, -0.234375, -0.46875],
  [0.0234375, -0.0390625, 0.1171875, -0.0703125, -0.234375, -0.078125, 0.703125, 0.046875, -0.46875]]

-- `test_jacoper`
/-- `jacoper` returns this determinant and inverse, up to the tolerance. -/
def jac {n : ℕ} (dh : Matrix (Fin 2) (Fin n) ℚ) (coord : Matrix (Fin n) (Fin 2) ℚ) (det : ℚ) (inv : Table ℚ) : Bool :=
  match jacoper dh coord with
  | .ok (d, J) => isclose d det && closeTab 1e-5 (matTab J) inv
  | .error _ => false

/-- `jacoper` raises a `ValueError`. -/
def jacBad {n : ℕ} (dh : Matrix (Fin 2) (Fin n) ℚ) (coord : Matrix (Fin n) (Fin 2) ℚ) : Bool :=
  match jacoper dh coord with
  | .ok _ => false
  | .error e => e == .valueError

#guard jac (fun i j => 0.25 * (![![-1, 1, 1, -1], ![-1, -1, 1, 1]] : Fin 2 → Fin 4 → ℚ) i j) ![![-1, -1], ![1, -1], ![1, 1], ![-1, 1]] 1 [[1, 0], [0, 1]]
#guard jac (fun i j => 0.25 * (![![-1, 1, 1, -1], ![-1, -1, 1, 1]] : Fin 2 → Fin 4 → ℚ) i j) ![![-1.5, -1], ![0.5, -1], ![1.5, 1], ![-0.5, 1]] 1 [[1, 0], [-0.5, 1]]
#guard jacBad ![![-1, 1, 0], ![-1, 0, 1]] ![![0, 0], ![0, 0], ![0, 1]]
#guard jacBad ![![-1, 1, 0], ![-1, 0, 1]] ![![0, 0], ![0, 1], ![1, 0]]
#guard jacBad (fun i j => 0.25 * (![![-1, 1, 1, -1], ![-1, -1, 1, 1]] : Fin 2 → Fin 4 → ℚ) i j) ![![-1, 1], ![1, 1], ![1, -1], ![-1, -1]]
#guard jacBad (fun i j => 0.25 * (![![-1, 1, 1, -1], ![-1, -1, 1, 1]] : Fin 2 → Fin 4 → ℚ) i j) ![![1, -1], ![1, -1], ![1, -1], ![-1, 1]]

/-! ## `tests/test_assemutil.py` -/

/-- The assembled matrix is this one, up to the tolerance. -/
def assembles {n : ℕ} (r : Py (Matrix (Fin n) (Fin n) ℚ × Matrix (Fin n) (Fin n) ℚ)) (k : Table ℚ) : Bool :=
  match r with
  | .ok (K, _) => closeTab 1e-5 (matTab K) k
  | .error _ => false

def nodes22 : Table ℚ :=
  [[0, -1, -1], [1, 0, -1], [2, 1, -1], [3, -1, 0], [4, 0, 0], [5, 1, 0], [6, -1, 1], [7, 0, 1], [8, 1, 1]]

def els22 : List (List ℤ) :=
  [[0, 1, 0, 0, 1, 4, 3], [1, 1, 0, 1, 2, 5, 4], [2, 1, 0, 3, 4, 7, 6], [3, 1, 0, 4, 5, 8, 7]]

def op22 : List (List ℤ) :=
  [[0, 1, 2, 3, 8, 9, 6, 7], [2, 3, 4, 5, 10, 11, 8, 9], [6, 7, 8, 9, 14, 15, 12, 13],
  [8, 9, 10, 11, 16, 17, 14, 15]]

def exact22 : Table ℚ :=
  [[8, 3, -5, 0, 0, 0, 1, 0, -4, -3, 0, 0, 0, 0, 0, 0, 0, 0],
  [3, 8, 0, 1, 0, 0, 0, -5, -3, -4, 0, 0, 0, 0, 0, 0, 0, 0],
  [-5, 0, 16, 0, -5, 0, -4, 3, 2, 0, -4, -3, 0, 0, 0, 0, 0, 0],
  [0, 1, 0, 16, 0, 1, 3, -4, 0, -10, -3, -4, 0, 0, 0, 0, 0, 0],
  [0, 0, -5, 0, 8, -3, 0, 0, -4, 3, 1, 0, 0, 0, 0, 0, 0, 0],
  [0, 0, 0, 1, -3, 8, 0, 0, 3, -4, 0, -5, 0, 0, 0, 0, 0, 0],
  [1, 0, -4, 3, 0, 0, 16, 0, -10, 0, 0, 0, 1, 0, -4, -3, 0, 0],
  [0, -5, 3, -4, 0, 0, 0, 16, 0, 2, 0, 0, 0, -5, -3, -4, 0, 0],
  [-4, -3, 2, 0, -4, 3, -10, 0, 32, 0, -10, 0, -4, 3, 2, 0, -4, -3],
  [-3, -4, 0, -10, 3, -4, 0, 2, 0, 32, 0, 2, 3, -4, 0, -10, -3, -4],
  [0, 0, -4, -3, 1, 0, 0, 0, -10, 0, 16, 0, 0, 0, -4, 3, 1, 0],
  [0, 0, -3, -4, 0, -5, 0, 0, 0, 2, 0, 16, 0, 0, 3, -4, 0, -5],
  [0, 0, 0, 0, 0, 0, 1, 0, -4, 3, 0, 0, 8, -3, -5, 0, 0, 0],
  [0, 0, 0, 0, 0, 0, 0, -5, 3, -4, 0, 0, -3, 8, 0, 1, 0, 0],
  [0, 0, 0, 0, 0, 0, -4, -3, 2, 0, -4, 3, -5, 0, 16, 0, -5, 0],
  [0, 0, 0, 0, 0, 0, -3, -4, 0, -10, 3, -4, 0, 1, 0, 16, 0, 1],
  [0, 0, 0, 0, 0, 0, 0, 0, -4, -3, 1, 0, 0, 0, -5, 0, 8, 3],
  [0, 0, 0, 0, 0, 0, 0, 0, -3, -4, 0, -5, 0, 0, 0, 1, 3, 8]]

-- `test_sparse_assem`
#guard assembles (sparseAssem (eleFun sqrtQ) els22 [[16, 1 / 3]] nodes22 18 op22 none) exact22

-- `test_dense_assem`
#guard assembles (denseAssem (eleFun sqrtQ) els22 [[16, 1 / 3]] nodes22 18 op22 none) exact22

/-- `uel_ones`. -/
def uelOnes : Uel ℚ := fun _ _ => .ok (.mat 8 8 fun _ _ => 1, .mat 8 8 fun _ _ => 1)

-- The same with `uel=uel_ones`.
#guard assembles (denseAssem (eleFun sqrtQ) els22 [[1, 0.3]] nodes22 18 op22 (some uelOnes))
  [[1, 1, 1, 1, 0, 0, 1, 1, 1, 1, 0, 0, 0, 0, 0, 0, 0, 0], [1, 1, 1, 1, 0, 0, 1, 1, 1, 1, 0, 0, 0, 0, 0, 0, 0, 0],
  [1, 1, 2, 2, 1, 1, 1, 1, 2, 2, 1, 1, 0, 0, 0, 0, 0, 0], [1, 1, 2, 2, 1, 1, 1, 1, 2, 2, 1, 1, 0, 0, 0, 0, 0, 0],
  [0, 0, 1, 1, 1, 1, 0, 0, 1, 1, 1, 1, 0, 0, 0, 0, 0, 0], [0, 0, 1, 1, 1, 1, 0, 0, 1, 1, 1, 1, 0, 0, 0, 0, 0, 0],
  [1, 1, 1, 1, 0, 0, 2, 2, 2, 2, 0, 0, 1, 1, 1, 1, 0, 0], [1, 1, 1, 1, 0, 0, 2, 2, 2, 2, 0, 0, 1, 1, 1, 1, 0, 0],
  [1, 1, 2, 2, 1, 1, 2, 2, 4, 4, 2, 2, 1, 1, 2, 2, 1, 1], [1, 1, 2, 2, 1, 1, 2, 2, 4, 4, 2, 2, 1, 1, 2, 2, 1, 1],
  [0, 0, 1, 1, 1, 1, 0, 0, 2, 2, 2, 2, 0, 0, 1, 1, 1, 1], [0, 0, 1, 1, 1, 1, 0, 0, 2, 2, 2, 2, 0, 0, 1, 1, 1, 1],
  [0, 0, 0, 0, 0, 0, 1, 1, 1, 1, 0, 0, 1, 1, 1, 1, 0, 0], [0, 0, 0, 0, 0, 0, 1, 1, 1, 1, 0, 0, 1, 1, 1, 1, 0, 0],
  [0, 0, 0, 0, 0, 0, 1, 1, 2, 2, 1, 1, 1, 1, 2, 2, 1, 1], [0, 0, 0, 0, 0, 0, 1, 1, 2, 2, 1, 1, 1, 1, 2, 2, 1, 1],
  [0, 0, 0, 0, 0, 0, 0, 0, 1, 1, 1, 1, 0, 0, 1, 1, 1, 1], [0, 0, 0, 0, 0, 0, 0, 0, 1, 1, 1, 1, 0, 0, 1, 1, 1, 1]]

-- The truss.
#guard assembles (denseAssem (eleFun sqrtQ) [[0, 6, 0, 2, 0], [1, 6, 0, 1, 0], [2, 6, 0, 1, 2]] [[1e6, 0.01]]
  [[0.0, 5 * sqrtQ 3, 0.0], [1.0, 0.0, 5.0], [2.0, 0.0, 0.0]] 3 [[-1, -1, 0, 1], [0, 1, -1, 2], [-1, 2, -1, -1]] none)
  (scale 250 [[8 / sqrtQ 3 + 3, -sqrtQ 3, sqrtQ 3], [-sqrtQ 3, 1, -1], [sqrtQ 3, -1, 9]])

/-! ## `tests/test_integration.py` -/

/-- The displacements of `solids_auto` are these, up to the tolerance, and there is no warning. -/
def solves (d : Gui.Data ℚ) (u : Table ℚ) : Bool :=
  match Gui.solidsAuto sqrtQ gaussSolver gaussSolver d false with
  | .ok r => closeTab 1e-5 r.disp u && !r.warned
  | .error _ => false

-- `test_4_elements`
#guard solves ⟨[[0, 0, 0], [1, 2, 0], [2, 2, 2], [3, 0, 2], [4, 1, 0], [5, 2, 1], [6, 1, 2], [7, 0, 1], [8, 1, 1]],
  [[0, -1], [0, -1], [0, 0], [0, 0], [-1, -1], [0, 0], [0, 0], [0, 0], [0, 0]],
  [[0, 1, 0, 0, 4, 8, 7], [1, 1, 0, 4, 1, 5, 8], [2, 1, 0, 7, 8, 6, 3], [3, 1, 0, 8, 5, 2, 6]],
  [[1.0, 0.3]], [[3, 0, 1], [6, 0, 2], [2, 0, 1]]⟩
  [[0.6, 0.0], [-0.6, 0.0], [-0.6, 4.0], [0.6, 4.0], [0.0, 0.0], [-0.6, 2.0], [0.0, 4.0], [0.6, 2.0], [0.0, 2.0]]

-- `test_2_elements`
#guard solves ⟨[[0, 0, 0], [1, 1, 0], [2, 2, 0], [3, 0, 1], [4, 1, 1], [5, 2, 1]],
  [[-1, -1], [0, 0], [0, 0], [-1, -1], [0, 0], [0, 0]],
  [[0, 1, 0, 0, 1, 4, 3], [1, 1, 0, 1, 2, 5, 4]],
  [[1.0, 0.3]], [[2, 0, -0.5], [5, 0, -0.5]]⟩
  (scale (1 / 45) [[0, 0], [-273, -390], [-364, -1144], [0, 0], [273, -390], [364, -1144]])

-- `test_beams`
#guard match dme (K := ℚ) [[-1, -1, -1], [0, 0, 0], [-1, -1, -1]] [[0, 8, 0, 0, 1], [1, 8, 0, 1, 2]] (ndofNode := 3) with
  | .error _ => false
  | .ok (op, bc, neq) =>
    match denseAssem (eleFun sqrtQ) [[0, 8, 0, 0, 1], [1, 8, 0, 1, 2]] [[200e9, 1.33e-4, 0.04]]
      [[0, 0.0, 0.0], [1, 0.0, 6.0], [2, 4.0, 6.0]] neq op none, loadasem (K := ℚ) [[1, -12000, -24000, -6000]] bc neq 3 with
    | .ok (K, _), .ok b =>
      match Sol.staticSol gaussSolver gaussSolver .ndarray K b with
      | .ok u => closeTab 1e-1 [List.ofFn u] [[-6.29e-6, -1.695e-5, -0.13e-3]]
      | .error _ => false
    | _, _ => false

/-! ## `tests/test_postprocesor.py` -/

-- `test_strain_nodes`
#guard match Post.strainNodes [[0, -1, -1], [1, 0, -1], [2, 1, -1], [3, -1, 0], [4, 0, 0], [5, 1, 0], [6,-1, 1], [7, 0, 1], [8, 1, 1]]
    [[0, 1, 0, 0, 1, 4, 3], [1, 1, 0, 1, 2, 5, 4], [2, 1, 0, 3, 4, 7, 6], [3, 1, 0, 4, 5, 8, 7]] [[8 / 3, 1 / 3]] [[0, 0], [0, 0], [0, 0], [0, 1], [0, 1], [0, 1], [0, 2], [0, 2], [0, 2]] with
  | .ok (e, s) => (List.ofFn fun i => List.ofFn fun j => (e i j)) == List.replicate 9 [some 0, some 1, some 0] &&
      (List.ofFn fun i => List.ofFn fun j => (s i j)) == List.replicate 9 [some (1 : ℚ), some 3, some 0]
  | .error _ => false

/-! ## `tests/test_preprocesor.py` -/

-- `test_rect_grid`
#guard rectGrid (K := ℚ) 2 2 2 2 == ([-1, 0, 1, -1, 0, 1, -1, 0, 1], [-1, -1, -1, 0, 0, 0, 1, 1, 1],
  [[0, 1, 0, 0, 1, 4, 3], [1, 1, 0, 1, 2, 5, 4], [2, 1, 0, 3, 4, 7, 6], [3, 1, 0, 4, 5, 8, 7]])

/-! ## `tests/test_solutil.py` -/

-- `test_static_solve`, the first part.
#guard [Sol.MatKind.csr, .ndarray].all fun k =>
  match Sol.staticSol gaussSolver gaussSolver k (n := 3) (fun i j => if i = j then 1 else 0) ![1, 2, 3] with
  | .ok u => closeTab 1e-5 [List.ofFn u] [[1, 2, 3]]
  | .error _ => false

/-! ## `tests/test_gaussutil.py` -/

/-- Sum of weight times value over a rule in the plane. -/
def quad2 (r : Py (List (List ℚ) × List ℚ)) (f : ℚ → ℚ → ℚ) : Option ℚ :=
  match r with
  | .ok (p, w) => some ((p.zip w).map fun (x, c) => c * f (x.getD 0 0) (x.getD 1 0)).sum
  | .error _ => none

-- `test_gauss_nd`, the first part.
#guard quad2 (gaussNd 4) (fun x y => 3 * x * y ^ 2 - x ^ 3) |>.any fun v => isclose v 0

/-- Sum of weight times value over a rule in the triangle. -/
def tri (order : ℤ) (f : ℚ → ℚ → ℚ) : Option ℚ :=
  match gaussTri order with
  | .ok (p, w) => some ((p.zip w).map fun (x, c) => 0.5 * c * f x.1 x.2).sum
  | .error _ => none

-- `test_gauss_tri` (one choice of the coefficients).
#guard tri 1 (fun _ _ => 1) |>.any fun v => isclose v 0.5
#guard tri 1 (fun x y => 0.3 * x + 0.7 * y) |>.any fun v => isclose v (1 / 6)
#guard [2, 3].all fun o => tri o (fun x y => 0.1 * x ^ 2 + 0.2 * y ^ 2 + 0.3 * x * y + 0.4 * x + 0.5 * y + 0.6) |>.any
  fun v => isclose v ((2 * 0.1 + 2 * 0.2 + 0.3 + 4 * 0.4 + 4 * 0.5 + 12 * 0.6) / 24)

/-- Sum of weight times value over a rule in the tetrahedron. -/
def tet (order : ℤ) (f : ℚ → ℚ → ℚ → ℚ) : Option ℚ :=
  match gaussTet order with
  | .ok (p, w) => some ((p.zip w).map fun (x, c) => c * f x.1 x.2.1 x.2.2 / 6).sum
  | .error _ => none

-- `test_gauss_tet` (one choice of the coefficients).
#guard tet 1 (fun _ _ _ => 1) |>.any fun v => isclose v (1 / 6)
#guard tet 1 (fun x y z => 0.1 * x + 0.2 * y + 0.3 * z) |>.any fun v => isclose v (0.6 / 24)
#guard tet 2 (fun x y z => 0.1 * x ^ 2 + 0.2 * y ^ 2 + 0.3 * z ^ 2 + 0.4 * x * y + 0.5 * y * z + 0.6 * z * x) |>.any
  fun v => isclose v ((2 * 0.1 + 2 * 0.2 + 2 * 0.3 + 0.4 + 0.5 + 0.6) / 120)
#guard tet 3 (fun x y z => 0.1 * x ^ 3 + 0.2 * y ^ 3 + 0.3 * z ^ 3 + 0.4 * x * y * z) |>.any
  fun v => isclose v ((6 * 0.1 + 6 * 0.2 + 6 * 0.3 + 0.4) / 720)

end Upstream
end SolidsPy
