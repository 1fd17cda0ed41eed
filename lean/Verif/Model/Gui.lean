import Verif.Model.Assem
import Verif.Model.Uel
import Verif.Model.Post

/-!
# Model of `solidspy/solutil.py` and `solidspy/solids_GUI.py`
-/

namespace SolidsPy
namespace Sol

/-- The class of the `mat` argument of `static_sol`. -/
inductive MatKind
  | csr
  | ndarray
  | other
  deriving DecidableEq, Repr

/-- A linear solver: `spsolve(mat, rhs)` or `solve(mat, rhs)`. -/
abbrev Solver (K : Type) := (n : ℕ) → Matrix (Fin n) (Fin n) K → (Fin n → K) → Py (Fin n → K)

/-- `static_sol(mat, rhs)`.  `/repo/solidspy/solutil.py:14-41`. -/
def staticSol {K : Type} (spsolve solve : Solver K) (kind : MatKind) {n : ℕ}
    (mat : Matrix (Fin n) (Fin n) K) (rhs : Fin n → K) : Py (Fin n → K) :=
  match kind with
  | .csr => spsolve n mat rhs
  | .ndarray => solve n mat rhs
  | .other => .error .typeError

end Sol

namespace Gui

section
variable {K : Type} [Field K] [LinearOrder K] [FloorRing K]

/-- The `data` dictionary of `solids_auto`. -/
structure Data (K : Type) where
  nodes : Table K
  cons : Table K
  elements : List (List ℤ)
  mats : Table K
  loads : Table K

/-- `stiff_mat.max()`: the largest entry (implicit zeros included); a `ValueError` for a `0 x 0`
matrix. -/
def matMax {n : ℕ} (M : Matrix (Fin n) (Fin n) K) : Py K :=
  Post.listMax ((List.finRange n).flatMap fun i => (List.finRange n).map fun j => M i j)

/-- `np.allclose(a, b)` with the default tolerances. -/
def allclose {n : ℕ} (a b : Fin n → K) : Bool :=
  (List.finRange n).all fun i => Fem.isclose (a i) (b i)

/-- The test guarding the message "The system is not in equilibrium!".  Division by a zero maximum
gives NaN, for which `allclose` is false.  `/repo/solidspy/solids_GUI.py:141-143`. -/
def balanced {n : ℕ} (stiff : Matrix (Fin n) (Fin n) K) (disp rhs : Fin n → K) : Py Bool := do
  let mx ← matMax stiff
  if mx = 0 then pure false
  else pure (allclose (fun i => stiff.mulVec disp i / mx) (fun i => rhs i / mx))

/-- What a run leaves behind: the returned arrays, the numbers printed, the plots. -/
structure Result (K : Type) where
  disp : Table K
  neq : ℕ
  warned : Bool
  plots : List Post.PlotAction

/-- `solids_auto(data, plot_contours, compute_strains=False)`.
`/repo/solidspy/solids_GUI.py:96-165`.  `sq` is the square root, `spsolve`, `solve` the solvers. -/
def solidsAuto (sq : K → K) (spsolve solve : Sol.Solver K) (d : Data K) (plotContours : Bool) :
    Py (Result K) := do
  let (op, bc, neq) ← Assem.dme d.cons d.elements
  let (stiff, _) ← Assem.assembler (Uel.eleFun sq) d.elements d.mats d.nodes neq op
  let rhs ← Assem.loadasem d.loads bc neq
  let disp ← Sol.staticSol spsolve solve .csr stiff rhs
  let ok ← balanced stiff disp rhs
  let full ← Post.completeDisp bc d.nodes.length disp
  let plots ← if plotContours then Post.fieldsPlot d.elements d.nodes.length false false else pure []
  pure ⟨full, neq, !ok, plots⟩

/-- `solids_auto(data, plot_contours, compute_strains=True)`: as above plus `strain_nodes`.
`/repo/solidspy/solids_GUI.py:96-165`. -/
def solidsAutoStrains (sq : K → K) (spsolve solve : Sol.Solver K) (d : Data K)
    (plotContours : Bool) : Py (Result K ×
      (Fin d.nodes.length → Fin 3 → Option K) × (Fin d.nodes.length → Fin 3 → Option K)) := do
  let (op, bc, neq) ← Assem.dme d.cons d.elements
  let (stiff, _) ← Assem.assembler (Uel.eleFun sq) d.elements d.mats d.nodes neq op
  let rhs ← Assem.loadasem d.loads bc neq
  let disp ← Sol.staticSol spsolve solve .csr stiff rhs
  let ok ← balanced stiff disp rhs
  let full ← Post.completeDisp bc d.nodes.length disp
  let (e, s) ← Post.strainNodes d.nodes d.elements d.mats full
  let plots ← if plotContours then Post.fieldsPlot d.elements d.nodes.length true true else pure []
  pure (⟨full, neq, !ok, plots⟩, e, s)

/-- `solids_GUI(plot_contours, compute_strains=False, folder)` after the files are read: constraints
are the last two columns of `nodes`, the assembler gets the first three.
`/repo/solidspy/solids_GUI.py:24-92`. -/
def solidsGUI (sq : K → K) (spsolve solve : Sol.Solver K) (nodes mats : Table K)
    (elements : List (List ℤ)) (loads : Table K) (plotContours : Bool) : Py (Result K) := do
  let (op, bc, neq) ← Assem.dme (nodes.map fun r => r.drop (r.length - 2)) elements
  let (stiff, _) ← Assem.assembler (Uel.eleFun sq) elements mats (nodes.map (List.take 3)) neq op
  let rhs ← Assem.loadasem loads bc neq
  let disp ← Sol.staticSol spsolve solve .csr stiff rhs
  let ok ← balanced stiff disp rhs
  let full ← Post.completeDisp bc nodes.length disp
  let plots ← if plotContours then Post.fieldsPlot elements nodes.length false false else pure []
  pure ⟨full, neq, !ok, plots⟩

/-- `solids_GUI(plot_contours, compute_strains=True, folder)`: `strain_nodes` gets all columns of `nodes`.
`/repo/solidspy/solids_GUI.py:24-92`. -/
def solidsGUIStrains (sq : K → K) (spsolve solve : Sol.Solver K) (nodes mats : Table K)
    (elements : List (List ℤ)) (loads : Table K) (plotContours : Bool) : Py (Result K ×
      (Fin nodes.length → Fin 3 → Option K) × (Fin nodes.length → Fin 3 → Option K)) := do
  let (op, bc, neq) ← Assem.dme (nodes.map fun r => r.drop (r.length - 2)) elements
  let (stiff, _) ← Assem.assembler (Uel.eleFun sq) elements mats (nodes.map (List.take 3)) neq op
  let rhs ← Assem.loadasem loads bc neq
  let disp ← Sol.staticSol spsolve solve .csr stiff rhs
  let ok ← balanced stiff disp rhs
  let full ← Post.completeDisp bc nodes.length disp
  let (e, s) ← Post.strainNodes nodes elements mats full
  let plots ← if plotContours then Post.fieldsPlot elements nodes.length true true else pure []
  pure (⟨full, neq, !ok, plots⟩, e, s)

end

end Gui
end SolidsPy
