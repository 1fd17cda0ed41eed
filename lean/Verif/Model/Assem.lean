import Verif.Basic

/-!
# Model of `solidspy/assemutil.py` (numbering, operator, assembly loops, loads)

The element routines selected by `ele_fun` live in `Verif.Model.Uel`; here the routine is a parameter.
-/

namespace SolidsPy
namespace Assem

section numbering
variable {K : Type} [Field K] [LinearOrder K] [FloorRing K]

/-- The inner loop of `eqcounter` on one row: visit the first `nd` columns, replace a 0 by the
counter.  `/repo/solidspy/assemutil.py:39-42`.  Columns past `nd` are not visited; a missing column
is an `IndexError`. -/
def numberRow : ℕ → List ℤ → ℕ → Py (List ℤ × ℕ)
  | 0, row, neq => .ok (row, neq)
  | _ + 1, [], _ => .error .indexError
  | nd + 1, x :: xs, neq =>
    if x = 0 then do
      let (ys, neq') ← numberRow nd xs (neq + 1)
      pure ((neq : ℤ) :: ys, neq')
    else do
      let (ys, neq') ← numberRow nd xs neq
      pure (x :: ys, neq')

/-- The outer loop of `eqcounter`.  `/repo/solidspy/assemutil.py:38-42`. -/
def numberRows (nd : ℕ) : List (List ℤ) → ℕ → Py (List (List ℤ) × ℕ)
  | [], neq => .ok ([], neq)
  | row :: rows, neq => do
    let (row', neq') ← numberRow nd row neq
    let (rows', neq'') ← numberRows nd rows neq'
    pure (row' :: rows', neq'')

/-- `eqcounter(cons, ndof_node)`.  `/repo/solidspy/assemutil.py:16-44`.
Returns `(neq, bc_array)`. -/
def eqcounter (cons : Table K) (ndofNode : ℕ := 2) : Py (ℕ × List (List ℤ)) := do
  let bc := cons.map (List.map pyTrunc)
  let (bc', neq) ← numberRows ndofNode bc 0
  pure (neq, bc')

end numbering

/-- `fem.eletype`: `(ndof, nnodes, ngpts)` for a type code.  `/repo/solidspy/femutil.py:27-67`. -/
def eletype (iet : ℤ) : Py (ℕ × ℕ × ℕ) :=
  match iet with
  | 1 => .ok (8, 4, 4)
  | 2 => .ok (12, 6, 7)
  | 3 => .ok (6, 3, 3)
  | 4 => .ok (18, 9, 9)
  | 5 => .ok (4, 2, 3)
  | 6 => .ok (4, 2, 3)
  | 7 => .ok (6, 2, 3)
  | 8 => .ok (6, 2, 3)
  | _ => .error .valueError

/-- `row[:ndof] = vals` on a zero row of width `w` (NumPy slice assignment): the slice is clamped to
the row, sizes must match unless a single value is broadcast.
`/repo/solidspy/assemutil.py:87` (left hand side). -/
def assignSlice (w ndof : ℕ) (vals : List ℤ) : Py (List ℤ) :=
  let s := min ndof w
  if vals.length = s then .ok (vals ++ List.replicate (w - s) 0)
  else match vals with
    | [v] => .ok (List.replicate s v ++ List.replicate (w - s) 0)
    | _ => .error .valueError

/-- One iteration of the loop of `DME`.  `/repo/solidspy/assemutil.py:81-87`.
`ndofEl = none` is the default (use `eletype`). -/
def dmeRow (bc : List (List ℤ)) (ndofElMax : ℕ) (ndofEl : Option (ℤ → Py ℕ)) (el : List ℤ) :
    Py (List ℤ) := do
  let iet ← pyGet el 1
  let ndof ← match ndofEl with
    | none => do
      let t ← eletype iet
      pure t.1
    | some f => f iet
  let rows ← pyGetMany bc (el.drop 3)
  assignSlice ndofElMax ndof rows.flatten

/-- `DME(cons, elements, ndof_node, ndof_el_max, ndof_el)`.  `/repo/solidspy/assemutil.py:47-88`.
Returns `(assem_op, bc_array, neq)`. -/
def dme {K : Type} [Field K] [LinearOrder K] [FloorRing K] (cons : Table K)
    (elements : List (List ℤ)) (ndofNode : ℕ := 2) (ndofElMax : ℕ := 18)
    (ndofEl : Option (ℤ → Py ℕ) := none) : Py (List (List ℤ) × List (List ℤ) × ℕ) := do
  let (neq, bc) ← eqcounter cons ndofNode
  let op ← elements.mapM (dmeRow bc ndofElMax ndofEl)
  pure (op, bc, neq)

section assembly
variable {K : Type} [Field K]

/-- `retriever(elements, mats, nodes, ele, uel)`.  `/repo/solidspy/assemutil.py:119-146`.
`eleFun` is the table of built-in routines (used when `uel` is `none`); a user routine replaces it
whatever the type code is.  `nodes[..., 1:]` drops the node id only. -/
def retriever (eleFun : ℤ → Py (Uel K)) (elements : List (List ℤ)) (mats nodes : Table K) (ele : ℕ)
    (uel : Option (Uel K)) : Py (NdArr K × NdArr K) := do
  let el ← pyGet elements ele
  let ty ← pyGet el 1
  let mi ← pyGet el 2
  let params ← pyGet mats mi
  let rows ← pyGetMany nodes (el.drop 3)
  let elcoor := rows.map (List.drop 1)
  let f ← match uel with
    | none => eleFun ty
    | some f => pure f
  f elcoor params

/-- `kglob[i, j] += x` on a dense `neq x neq` array. `/repo/solidspy/assemutil.py:230-231`. -/
def addAt {neq : ℕ} (M : Matrix (Fin neq) (Fin neq) K) (i j : ℤ) (x : K) :
    Py (Matrix (Fin neq) (Fin neq) K) := do
  let a ← pyFin neq i
  let b ← pyFin neq j
  pure (Matrix.of fun r c => if r = a ∧ c = b then M r c + x else M r c)

/-- The global stiffness and mass under construction. -/
abbrev Acc (K : Type) (neq : ℕ) := Matrix (Fin neq) (Fin neq) K × Matrix (Fin neq) (Fin neq) K

/-- Innermost statement pair of `dense_assem`.  `/repo/solidspy/assemutil.py:227-231`. -/
def denseCell {neq : ℕ} (dme : List ℤ) (kloc mloc : NdArr K) (row : ℕ) (gr : ℤ) (acc : Acc K neq)
    (col : ℕ) : Py (Acc K neq) := do
  let gc ← pyGet dme col
  if gc ≠ -1 then do
    let kx ← kloc.get2 row col
    let k' ← addAt acc.1 gr gc kx
    let mx ← mloc.get2 row col
    let m' ← addAt acc.2 gr gc mx
    pure (k', m')
  else pure acc

/-- The `row` loop body of `dense_assem`.  `/repo/solidspy/assemutil.py:224-231`. -/
def denseRow {neq : ℕ} (dme : List ℤ) (kloc mloc : NdArr K) (ndof : ℕ) (acc : Acc K neq)
    (row : ℕ) : Py (Acc K neq) := do
  let gr ← pyGet dme row
  if gr ≠ -1 then (List.range ndof).foldlM (denseCell dme kloc mloc row gr) acc
  else pure acc

/-- The body of the element loop of `dense_assem` after `retriever`.
`/repo/solidspy/assemutil.py:221-231`. -/
def denseElem {neq : ℕ} (op : List ℤ) (kloc mloc : NdArr K) (acc : Acc K neq) : Py (Acc K neq) :=
  let ndof := kloc.shape0
  let dme := op.take ndof
  (List.range ndof).foldlM (denseRow dme kloc mloc ndof) acc

/-- `dense_assem(elements, mats, nodes, neq, assem_op, uel)`.
`/repo/solidspy/assemutil.py:190-233`. -/
def denseAssem (eleFun : ℤ → Py (Uel K)) (elements : List (List ℤ)) (mats nodes : Table K)
    (neq : ℕ) (assemOp : List (List ℤ)) (uel : Option (Uel K)) : Py (Acc K neq) :=
  (List.range elements.length).foldlM (fun acc ele => do
    let (kloc, mloc) ← retriever eleFun elements mats nodes ele uel
    let op ← pyGet assemOp ele
    denseElem op kloc mloc acc) (0, 0)

/-- One appended entry of the four parallel lists `rows, cols, stiff_vals, mass_vals` of
`sparse_assem` (simplification: one list of records instead of four lists of equal length). -/
structure Triplet (K : Type) where
  row : ℤ
  col : ℤ
  stiff : K
  mass : K

/-- Innermost statements of `sparse_assem`.  `/repo/solidspy/assemutil.py:285-290`. -/
def sparseCell (dme : List ℤ) (kloc mloc : NdArr K) (row : ℕ) (gr : ℤ) (acc : List (Triplet K))
    (col : ℕ) : Py (List (Triplet K)) := do
  let gc ← pyGet dme col
  if gc ≠ -1 then do
    let kx ← kloc.get2 row col
    let mx ← mloc.get2 row col
    pure (acc ++ [⟨gr, gc, kx, mx⟩])
  else pure acc

/-- The `row` loop body of `sparse_assem`.  `/repo/solidspy/assemutil.py:281-290`. -/
def sparseRow (dme : List ℤ) (kloc mloc : NdArr K) (ndof : ℕ) (acc : List (Triplet K))
    (row : ℕ) : Py (List (Triplet K)) := do
  let gr ← pyGet dme row
  if gr ≠ -1 then (List.range ndof).foldlM (sparseCell dme kloc mloc row gr) acc
  else pure acc

/-- The body of the element loop of `sparse_assem` after `retriever`.
`/repo/solidspy/assemutil.py:279-290`. -/
def sparseElem (op : List ℤ) (kloc mloc : NdArr K) (acc : List (Triplet K)) :
    Py (List (Triplet K)) :=
  let ndof := kloc.shape0
  let dme := op.take ndof
  (List.range ndof).foldlM (sparseRow dme kloc mloc ndof) acc

/-- `coo_matrix((vals, (rows, cols)), shape=(m, n)).tocsr()` from SciPy: any index outside the shape
(negative ones included) is a `ValueError`; duplicates are summed.
`/repo/solidspy/assemutil.py:292-293`. -/
def cooMatrix {R : Type} [AddMonoid R] (m n : ℕ) (ts : List (ℤ × ℤ × R)) :
    Py (Matrix (Fin m) (Fin n) R) :=
  if ts.all (fun t => decide (0 ≤ t.1 ∧ t.1 < m ∧ 0 ≤ t.2.1 ∧ t.2.1 < n)) then
    .ok (Matrix.of fun i j => (ts.map fun t =>
      if t.1 = (i.val : ℤ) ∧ t.2.1 = (j.val : ℤ) then t.2.2 else 0).sum)
  else .error .valueError

/-- `sparse_assem(elements, mats, nodes, neq, assem_op, uel)`.
`/repo/solidspy/assemutil.py:236-295`. -/
def sparseAssem (eleFun : ℤ → Py (Uel K)) (elements : List (List ℤ)) (mats nodes : Table K)
    (neq : ℕ) (assemOp : List (List ℤ)) (uel : Option (Uel K)) : Py (Acc K neq) := do
  let ts ← (List.range elements.length).foldlM (fun acc ele => do
    let (kloc, mloc) ← retriever eleFun elements mats nodes ele uel
    let op ← pyGet assemOp ele
    sparseElem op kloc mloc acc) []
  let k ← cooMatrix neq neq (ts.map fun t => (t.row, t.col, t.stiff))
  let m ← cooMatrix neq neq (ts.map fun t => (t.row, t.col, t.mass))
  pure (k, m)

/-- `assembler(elements, mats, nodes, neq, assem_op, sparse, uel)`.
`/repo/solidspy/assemutil.py:149-187`. -/
def assembler (eleFun : ℤ → Py (Uel K)) (elements : List (List ℤ)) (mats nodes : Table K)
    (neq : ℕ) (assemOp : List (List ℤ)) (sparse : Bool := true) (uel : Option (Uel K) := none) :
    Py (Acc K neq) :=
  if sparse then sparseAssem eleFun elements mats nodes neq assemOp uel
  else denseAssem eleFun elements mats nodes neq assemOp uel

end assembly

section loads
variable {K : Type} [Field K] [LinearOrder K] [FloorRing K]

/-- `rhs_vec[i] = x`.  `/repo/solidspy/assemutil.py:324`. -/
def setAt {neq : ℕ} (v : Fin neq → K) (i : ℤ) (x : K) : Py (Fin neq → K) := do
  let a ← pyFin neq i
  pure (fun r => if r = a then x else v r)

/-- Body of the `dof` loop of `loadasem`.  `/repo/solidspy/assemutil.py:321-324`. -/
def loadDof {neq : ℕ} (bcRow : List ℤ) (load : List K) (v : Fin neq → K) (dof : ℕ) :
    Py (Fin neq → K) := do
  let id ← pyGet bcRow dof
  if id ≠ -1 then do
    let x ← pyGet load ((dof : ℤ) + 1)
    setAt v id x
  else pure v

/-- Body of the load loop of `loadasem`.  `/repo/solidspy/assemutil.py:319-324`.
(With `ndof_node = 0` Python would not read the row of `bc_array`; that case is not used.) -/
def loadRow {neq : ℕ} (bc : List (List ℤ)) (ndofNode : ℕ) (v : Fin neq → K) (load : List K) :
    Py (Fin neq → K) := do
  let nd ← pyGet load 0
  let row ← pyGet bc (pyTrunc nd)
  (List.range ndofNode).foldlM (loadDof row load) v

/-- `loadasem(loads, bc_array, neq, ndof_node)`.  `/repo/solidspy/assemutil.py:298-325`. -/
def loadasem (loads : Table K) (bc : List (List ℤ)) (neq : ℕ) (ndofNode : ℕ := 2) :
    Py (Fin neq → K) :=
  loads.foldlM (loadRow bc ndofNode) (fun _ => 0)

end loads

end Assem
end SolidsPy
