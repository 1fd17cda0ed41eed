import Verif.Model.Gui

/-!
# Arithmetic that rounds: `truss2D`, the sparse assembly and a run of `solids_auto`

The other model files compute with exact numbers.  Here the operations of the element routine for bars and of the sparse assembly are
parameters, so that they may round as floating point numbers do.  Numbering, gathering of coordinates, the loops that collect the
entries, the load vector and the completion of the displacements do no arithmetic on floats and are the definitions of the other files.
-/

namespace SolidsPy
namespace Rounded

/-- The floating point operations.  `sum` adds up a list of numbers in whatever order the library chooses (matrix products, norms,
duplicate entries of a sparse matrix). -/
structure Arith (K : Type) where
  sub : K → K → K
  mul : K → K → K
  div : K → K → K
  sqrt : K → K
  sum : List K → K

section
variable {K : Type} [Field K] [DecidableEq K]

/-- Exact operations, with the square root `sq`. -/
def Arith.exact (sq : K → K) : Arith K := ⟨(· - ·), (· * ·), (· / ·), sq, List.sum⟩

/-- A division; by zero it leaves the finite numbers. -/
def div (ar : Arith K) (a b : K) : Py K :=
  if b = 0 then .error .nonFinite else .ok (ar.div a b)

/-- `coord[1, :] - coord[0, :]`, its norm and direction.  `/repo/solidspy/uelutil.py:487-490`. -/
def barGeom (ar : Arith K) (coord : Table K) : Py (K × K × K) := do
  let b ← pyGet coord 1
  let a ← pyGet coord 0
  let vec := List.zipWith ar.sub b a
  let length := ar.sqrt (ar.sum (vec.map fun x => ar.mul x x))
  let v0 ← pyGet vec 0
  let nx ← div ar v0 length
  let v1 ← pyGet vec 1
  let ny ← div ar v1 length
  pure (nx, ny, length)

/-- `A @ B`: products of entries, added up. -/
def matmul (ar : Arith K) {l m n : ℕ} (A : Matrix (Fin l) (Fin m) K) (B : Matrix (Fin m) (Fin n) K) : Matrix (Fin l) (Fin n) K :=
  Matrix.of fun i k => ar.sum ((List.finRange m).map fun j => ar.mul (A i j) (B j k))

/-- `stiff * np.array([[1, -1], [-1, 1]])` and `Q.T @ stiff_mat @ Q`.  `/repo/solidspy/uelutil.py:496-499`. -/
def trussStiff (ar : Arith K) (nx ny stiff : K) : Matrix (Fin 4) (Fin 4) K :=
  let S : Matrix (Fin 2) (Fin 2) K := (!![1, -1; -1, 1] : Matrix (Fin 2) (Fin 2) K).map (ar.mul stiff)
  matmul ar (matmul ar (Uel.barQ nx ny).transpose S) (Uel.barQ nx ny)

/-- `mass/6*np.array(...)`.  `/repo/solidspy/uelutil.py:504-509`. -/
def trussMass (ar : Arith K) (mass : K) : Matrix (Fin 4) (Fin 4) K :=
  (!![2, 0, 1, 0;
      0, 2, 0, 1;
      1, 0, 2, 0;
      0, 1, 0, 2] : Matrix (Fin 4) (Fin 4) K).map (ar.mul (ar.div mass 6))

/-- `truss2D(coord, params)`.  `/repo/solidspy/uelutil.py:448-512`. -/
def truss2D (ar : Arith K) : Uel K := fun coord params => do
  let (nx, ny, length) ← barGeom ar coord
  match params.take 2 with
  | [young, area] => do
    let stiff ← div ar (ar.mul area young) length
    let dens ← if params.length = 2 then pure 1.0 else pyGet params (-1)
    let mass := ar.mul (ar.mul area length) dens
    pure (NdArr.mat 4 4 (trussStiff ar nx ny stiff), NdArr.mat 4 4 (trussMass ar mass))
  | _ => .error .valueError

/-- `ele_fun` with the rounded routine for bars; the other routines are given.  `/repo/solidspy/assemutil.py:91-116`. -/
def eleFun (ar : Arith K) (others : ℤ → Py (Uel K)) (ty : ℤ) : Py (Uel K) :=
  if ty = 6 then .ok (truss2D ar) else others ty

/-- `coo_matrix((vals, (rows, cols)), shape=(m, n)).tocsr()`: the entries at one place are added up.
`/repo/solidspy/assemutil.py:292-293`. -/
def cooMatrix (sum : List K → K) (m n : ℕ) (ts : List (ℤ × ℤ × K)) : Py (Matrix (Fin m) (Fin n) K) :=
  if ts.all (fun t => decide (0 ≤ t.1 ∧ t.1 < m ∧ 0 ≤ t.2.1 ∧ t.2.1 < n)) then
    .ok (Matrix.of fun i j => sum ((ts.filter fun t => decide (t.1 = (i.val : ℤ) ∧ t.2.1 = (j.val : ℤ))).map fun t => t.2.2))
  else .error .valueError

/-- `sparse_assem`.  `/repo/solidspy/assemutil.py:236-295`. -/
def sparseAssem (sum : List K → K) (eleFun : ℤ → Py (Uel K)) (elements : List (List ℤ)) (mats nodes : Table K)
    (neq : ℕ) (assemOp : List (List ℤ)) : Py (Assem.Acc K neq) := do
  let ts ← (List.range elements.length).foldlM (fun acc ele => do
    let (kloc, mloc) ← Assem.retriever eleFun elements mats nodes ele none
    let op ← pyGet assemOp ele
    Assem.sparseElem op kloc mloc acc) []
  let k ← cooMatrix sum neq neq (ts.map fun t => (t.row, t.col, t.stiff))
  let m ← cooMatrix sum neq neq (ts.map fun t => (t.row, t.col, t.mass))
  pure (k, m)

end

/-- The displacements of `solids_auto(data)`, without the equilibrium check and the plots, which do not change them.
`/repo/solidspy/solids_GUI.py:124-147`. -/
def displacements {K : Type} [Field K] [LinearOrder K] [FloorRing K] (sum : List K → K) (eleFun : ℤ → Py (Uel K))
    (spsolve : Sol.Solver K) (d : Gui.Data K) : Py (Table K) := do
  let (op, bc, neq) ← Assem.dme d.cons d.elements
  let (stiff, _) ← sparseAssem sum eleFun d.elements d.mats d.nodes neq op
  let rhs ← Assem.loadasem d.loads bc neq
  let disp ← spsolve neq stiff rhs
  Post.completeDisp bc d.nodes.length disp

end Rounded
end SolidsPy
