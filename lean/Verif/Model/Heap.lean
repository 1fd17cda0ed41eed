import Verif.Model.Gui
import Verif.Model.Pre

/-!
# Arrays in memory

The other model files return new tables; here arrays live in a memory and functions get references, so that in-place writes and
shared arrays can be seen.  Only the functions that write into an array reached from an argument, or protect one by a copy, are
written out with their writes: `eqcounter` and `boundary_conditions`.  All other functions of the library write into arrays they have just made
(`np.zeros`, `np.ones`, fancy indexing), so they enter as functions of the contents.
-/

namespace SolidsPy
namespace Heap

/-- An array. -/
inductive Arr (K : Type)
  | float (t : Table K)
  | int (t : List (List ℤ))

/-- The memory: arrays by reference, and the first unused reference. -/
structure Store (K : Type) where
  arr : ℕ → Arr K
  next : ℕ

/-- A computation with memory.  An exception leaves the memory as it was when it was raised. -/
def Act (K : Type) (α : Type) : Type := Store K → Py α × Store K

instance {K : Type} : Monad (Act K) where
  pure a := fun s => (.ok a, s)
  bind x f := fun s => match x s with
    | (.ok a, s') => f a s'
    | (.error e, s') => (.error e, s')

section
variable {K : Type}

/-- A computation that does not touch the memory. -/
def lift {α : Type} (x : Py α) : Act K α := fun s => (x, s)

/-- A new array. -/
def alloc (a : Arr K) : Act K ℕ := fun s => (.ok s.next, ⟨Function.update s.arr s.next a, s.next + 1⟩)

/-- The contents of an array. -/
def read (r : ℕ) : Act K (Arr K) := fun s => (.ok (s.arr r), s)

/-- Overwrite the contents of an array. -/
def write (r : ℕ) (a : Arr K) : Act K Unit := fun s => (.ok (), ⟨Function.update s.arr r a, s.next⟩)

/-- The contents of an array of floats. -/
def readFloat (r : ℕ) : Act K (Table K) := do
  match ← read r with
  | .float t => pure t
  | .int _ => lift (.error .typeError)

/-- The contents of an array of integers. -/
def readInt (r : ℕ) : Act K (List (List ℤ)) := do
  match ← read r with
  | .int t => pure t
  | .float _ => lift (.error .typeError)

/-- A basic slice of the columns of an array is a view: it shares memory with it. -/
inductive Cols
  | all
  | first (k : ℕ)
  | last (k : ℕ)

/-- The entries of a row seen through a view. -/
def Cols.cut {α : Type} : Cols → List α → List α
  | .all, row => row
  | .first k, row => row.take k
  | .last k, row => row.drop (row.length - k)

/-- `arr[i, j]`. -/
def getInt (r : ℕ) (i j : ℕ) : Act K ℤ := do
  let t ← readInt r
  let row ← lift (pyGet t i)
  lift (pyGet row j)

/-- `arr[i, j] = v`. -/
def setInt (r : ℕ) (i j : ℕ) (v : ℤ) : Act K Unit := do
  let t ← readInt r
  let row ← lift (pyGet t i)
  write r (.int (t.set i (row.set j v)))

section
variable [Field K] [LinearOrder K] [FloorRing K]

/-- The body of the loops of `eqcounter`.  `/repo/solidspy/assemutil.py:40-42`. -/
def numberCell (bc : ℕ) (i j : ℕ) (neq : ℕ) : Act K ℕ := do
  let x ← getInt bc i j
  if x = 0 then do
    setInt bc i j neq
    pure (neq + 1)
  else pure neq

/-- `eqcounter(cons, ndof_node)` with `cons` a view: `cons.copy()` and `.astype(int)` make new arrays, the loops write into the
second one.  `/repo/solidspy/assemutil.py:16-44`. -/
def eqcounter (cons : ℕ) (cols : Cols) (ndofNode : ℕ) : Act K (ℕ × ℕ) := do
  let t ← readFloat cons
  let _ ← alloc (.float (t.map cols.cut))
  let bc ← alloc (.int ((t.map cols.cut).map (List.map pyTrunc)))
  let neq ← (List.range t.length).foldlM
    (fun neq i => (List.range ndofNode).foldlM (fun neq j => numberCell bc i j neq) neq) 0
  pure (neq, bc)

/-- `DME(cons, elements)`.  `/repo/solidspy/assemutil.py:47-88`. -/
def dme (cons : ℕ) (cols : Cols) (elements : ℕ) : Act K (ℕ × ℕ × ℕ) := do
  let (neq, bc) ← eqcounter cons cols 2
  let bcT ← readInt bc
  let els ← readInt elements
  let op ← lift (els.mapM (Assem.dmeRow bcT 18 none))
  let op ← alloc (.int op)
  pure (op, bc, neq)

/-- The references in the `data` dictionary of `solids_auto`. -/
structure Refs where
  nodes : ℕ
  cons : ℕ
  elements : ℕ
  mats : ℕ
  loads : ℕ

/-- `solids_auto(data, plot_contours, compute_strains=False)`; returns what the run prints and plots and the reference of the
displacements.  `/repo/solidspy/solids_GUI.py:96-165`. -/
def solidsAuto (sq : K → K) (spsolve solve : Sol.Solver K) (d : Refs) (plotContours : Bool) : Act K (Gui.Result K × ℕ) := do
  let (op, bc, neq) ← dme d.cons .all d.elements
  let els ← readInt d.elements
  let mats ← readFloat d.mats
  let nodes ← readFloat d.nodes
  let opT ← readInt op
  let (stiff, _) ← lift (Assem.assembler (Uel.eleFun sq) els mats nodes neq opT)
  let loads ← readFloat d.loads
  let bcT ← readInt bc
  let rhs ← lift (Assem.loadasem loads bcT neq)
  let disp ← lift (Sol.staticSol spsolve solve .csr stiff rhs)
  let ok ← lift (Gui.balanced stiff disp rhs)
  let full ← lift (Post.completeDisp bcT nodes.length disp)
  let out ← alloc (.float full)
  let plots ← lift (if plotContours then Post.fieldsPlot els nodes.length false false else pure [])
  pure (⟨full, neq, !ok, plots⟩, out)

/-- `solids_GUI` after the files are read: the constraints are the view `nodes[:, -2:]`, the assembler gets the view `nodes[:, :3]`.
`/repo/solidspy/solids_GUI.py:24-92`. -/
def solidsGUI (sq : K → K) (spsolve solve : Sol.Solver K) (nodes mats elements loads : ℕ) (plotContours : Bool) :
    Act K (Gui.Result K × ℕ) := do
  let (op, bc, neq) ← dme nodes (.last 2) elements
  let els ← readInt elements
  let matsT ← readFloat mats
  let nodesT ← readFloat nodes
  let opT ← readInt op
  let (stiff, _) ← lift (Assem.assembler (Uel.eleFun sq) els matsT (nodesT.map (Cols.first 3).cut) neq opT)
  let loadsT ← readFloat loads
  let bcT ← readInt bc
  let rhs ← lift (Assem.loadasem loadsT bcT neq)
  let disp ← lift (Sol.staticSol spsolve solve .csr stiff rhs)
  let ok ← lift (Gui.balanced stiff disp rhs)
  let full ← lift (Post.completeDisp bcT nodesT.length disp)
  let out ← alloc (.float full)
  let plots ← lift (if plotContours then Post.fieldsPlot els nodesT.length false false else pure [])
  pure (⟨full, neq, !ok, plots⟩, out)

/-- `boundary_conditions(cells, cell_data, phy_lin, nodes_array, bc_x, bc_y)`: writes into the array it is given and returns its
reference.  `/repo/solidspy/preprocesor.py:136-171`. -/
def boundaryConditions (setList : List ℤ → List ℤ) (cells : String → Option (List (List ℤ)))
    (cellData : String → Option (List ℤ)) (phyLin : ℤ) (nodes : ℕ) (bcX bcY : K) : Act K ℕ := do
  let flat ← lift (Pre.taggedNodes cells cellData phyLin)
  let ids := setList flat
  let t ← readFloat nodes
  let t ← lift (Pre.setCol t ids 3 bcX)
  write nodes (.float t)
  let t ← readFloat nodes
  let t ← lift (Pre.setCol t ids 4 bcY)
  write nodes (.float t)
  pure nodes

end
end
end Heap
end SolidsPy
