import Verif.Model.Files
import Verif.Model.Gui

/-! # `solids_GUI` on a folder of files -/

namespace SolidsPy
namespace Pre

/-- What the dialog for the folder does: a folder is chosen, the dialog is cancelled (`diropenbox` returns `None`, to which
`"/"` cannot be added), or `easygui` cannot be imported or started. -/
inductive Dialog
  | chosen (dir : Files.Text)
  | cancelled
  | unavailable
  deriving DecidableEq, Repr

/-- `initial_params()` in Python `version`; `typed` is what the user types if asked.  The bare `except` takes both failures of the
dialog to the prompt.  `/repo/solidspy/preprocesor.py:32-58`. -/
def initialParams (version : ℕ) (dlg : Dialog) (typed : Files.Text) : Py Files.Text :=
  if version = 3 ∨ version = 2 then
    match dlg with
    | .chosen dir => .ok (dir ++ "/".toList)
    | .cancelled => .ok typed
    | .unavailable => .ok typed
  else .error .valueError

end Pre

namespace Gui

section
variable {K : Type} [Field K] [LinearOrder K] [FloorRing K]

/-- `solids_GUI(plot_contours, compute_strains=False, folder)` from the files on; `echo` is `False` in the source.
`/repo/solidspy/solids_GUI.py:24-92`. -/
def solidsGUIFiles (sq : K → K) (spsolve solve : Sol.Solver K) (fs : Files.Fs) (folder : Files.Text)
    (plotContours : Bool) : Py (Result K) := do
  let (nodes, mats, elements, loads) ← Files.readin fs folder
  solidsGUI sq spsolve solve nodes mats elements loads plotContours

/-- `solids_GUI(plot_contours, compute_strains=True, folder)` from the files on; the number of nodes comes with the fields.
`/repo/solidspy/solids_GUI.py:24-92`. -/
def solidsGUIStrainsFiles (sq : K → K) (spsolve solve : Sol.Solver K) (fs : Files.Fs) (folder : Files.Text)
    (plotContours : Bool) : Py (Σ n : ℕ, Result K × (Fin n → Fin 3 → Option K) × (Fin n → Fin 3 → Option K)) := do
  let (nodes, mats, elements, loads) ← Files.readin fs folder
  let r ← solidsGUIStrains sq spsolve solve nodes mats elements loads plotContours
  pure ⟨nodes.length, r⟩

/-- `folder`, or what `initial_params` gives when it is `None`.  `/repo/solidspy/solids_GUI.py:49-50`. -/
def askFolder (version : ℕ) (dlg : Pre.Dialog) (typed : Files.Text) : Option Files.Text → Py Files.Text
  | some folder => .ok folder
  | none => Pre.initialParams version dlg typed

/-- `solids_GUI(plot_contours, folder=folder)` as a user calls it.  `/repo/solidspy/solids_GUI.py:24-92`. -/
def solidsGUICall (sq : K → K) (spsolve solve : Sol.Solver K) (version : ℕ) (dlg : Pre.Dialog) (typed : Files.Text)
    (fs : Files.Fs) (folder : Option Files.Text) (plotContours : Bool) : Py (Result K) := do
  let folder ← askFolder version dlg typed folder
  solidsGUIFiles sq spsolve solve fs folder plotContours

/-- `solids_GUI(plot_contours, compute_strains=True, folder=folder)` as a user calls it.
`/repo/solidspy/solids_GUI.py:24-92`. -/
def solidsGUIStrainsCall (sq : K → K) (spsolve solve : Sol.Solver K) (version : ℕ) (dlg : Pre.Dialog) (typed : Files.Text)
    (fs : Files.Fs) (folder : Option Files.Text) (plotContours : Bool) :
    Py (Σ n : ℕ, Result K × (Fin n → Fin 3 → Option K) × (Fin n → Fin 3 → Option K)) := do
  let folder ← askFolder version dlg typed folder
  solidsGUIStrainsFiles sq spsolve solve fs folder plotContours

end

end Gui
end SolidsPy
