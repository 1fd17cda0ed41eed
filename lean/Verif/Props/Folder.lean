import Verif.Props.Run

/-! # C111: which files a run reads -/

set_option linter.unusedSectionVars false

namespace SolidsPy
open Spec Files Matrix

section
variable {K : Type} [Field K] [LinearOrder K] [IsStrictOrderedRing K] [FloorRing K]
variable {sq : K → K} {sp de : Sol.Solver K} {fs fs' : Fs} {version : ℕ} {dlg : Pre.Dialog} {typed dir folder : Text} {plot : Bool}
variable {nodes mats loads : Table K} {els : List (List ℤ)}

/-- The folder of a call: the one given; else the one chosen in the dialog, with a slash; else what is typed, as it is. -/
def Spec.Prefix (dlg : Pre.Dialog) (typed : Text) : Option Text → Text
  | some folder => folder
  | none => match dlg with
    | .chosen dir => dir ++ ['/']
    | _ => typed

/-- The run reads the files with these four names. -/
theorem C111_reads (hv : version = 2 ∨ version = 3) (given : Option Text) :
    Gui.solidsGUICall sq sp de version dlg typed fs given plot = Gui.solidsGUIFiles sq sp de fs (Prefix dlg typed given) plot ∧
    Gui.solidsGUIStrainsCall sq sp de version dlg typed fs given plot =
      Gui.solidsGUIStrainsFiles sq sp de fs (Prefix dlg typed given) plot := by
  have : Gui.askFolder version dlg typed given = .ok (Prefix dlg typed given) := by
    cases given with
    | some f => rfl
    | none =>
      unfold Gui.askFolder Pre.initialParams
      rw [if_pos hv.symm]
      cases dlg <;> rfl
  unfold Gui.solidsGUICall Gui.solidsGUIStrainsCall
  rw [this]
  exact ⟨rfl, rfl⟩

/-- Given a folder, the interpreter and the user are not asked. -/
theorem C111_given (folder : Text) : Gui.solidsGUICall sq sp de version dlg typed fs (some folder) plot =
    Gui.solidsGUIFiles sq sp de fs folder plot := rfl

/-- Any other version of Python is refused. -/
theorem C111_version (hv : version ≠ 2 ∧ version ≠ 3) :
    Gui.solidsGUICall sq sp de version dlg typed fs none plot = .error .valueError := by
  unfold Gui.solidsGUICall Gui.askFolder Pre.initialParams
  rw [if_neg (by tauto)]
  rfl

/-- Only these four files matter. -/
theorem C111_four_files (h : ∀ n ∈ ["nodes.txt", "mater.txt", "eles.txt", "loads.txt"], fs' (folder ++ n.toList) = fs (folder ++ n.toList)) :
    Gui.solidsGUIFiles sq sp de fs' folder plot = Gui.solidsGUIFiles sq sp de fs folder plot ∧
    Gui.solidsGUIStrainsFiles sq sp de fs' folder plot = Gui.solidsGUIStrainsFiles sq sp de fs folder plot := by
  have : readin (K := K) fs' folder = readin fs folder := by
    unfold readin open_
    rw [h "nodes.txt" (by simp), h "mater.txt" (by simp), h "eles.txt" (by simp), h "loads.txt" (by simp)]
  unfold Gui.solidsGUIFiles Gui.solidsGUIStrainsFiles
  rw [this]
  exact ⟨rfl, rfl⟩

/-- A folder chosen in the dialog: the run is the one on the model laid out in its files. -/
theorem C111_chosen (hv : version = 2 ∨ version = 3) (h : FolderHolds fs (dir ++ ['/']) nodes mats els loads) :
    Gui.solidsGUICall sq sp de version (.chosen dir) typed fs none plot =
      Gui.solidsAuto sq sp de (splitData nodes mats els loads) plot := by
  rw [(C111_reads hv none).1]
  exact C105_same_as_memory h

/-- A folder typed without a final slash is not the one read: nothing in that folder can change the run. -/
theorem C111_typed_needs_slash (hv : version = 2 ∨ version = 3) (hd : ∀ dir, dlg ≠ .chosen dir)
    (h : ∀ name, ¬ (typed ++ ['/']) <+: name → fs' name = fs name) :
    Gui.solidsGUICall sq sp de version dlg typed fs' none plot = Gui.solidsGUICall sq sp de version dlg typed fs none plot := by
  have hp : Prefix dlg typed none = typed := by
    cases dlg with
    | chosen dir => exact absurd rfl (hd dir)
    | cancelled => rfl
    | unavailable => rfl
  rw [(C111_reads hv none).1, (C111_reads hv none).1, hp]
  refine (C111_four_files fun n hn => h _ ?_).1
  rintro ⟨t, ht⟩
  rw [List.append_assoc, List.append_cancel_left_eq] at ht
  simp only [List.mem_cons, List.not_mem_nil, or_false] at hn
  rcases hn with rfl | rfl | rfl | rfl <;> simp at ht

/-- With strains, the run on files is the run on the model in memory. -/
theorem C111_strains (h : FolderHolds fs folder nodes mats els loads) :
    Gui.solidsGUIStrainsFiles sq sp de fs folder plot =
      (Gui.solidsAutoStrains sq sp de (splitData nodes mats els loads) plot).map fun r => ⟨_, r⟩ := by
  unfold Gui.solidsGUIStrainsFiles
  rw [C105_readin.2 h, ok_bind]
  dsimp only
  rw [C89_gui_eq_auto_strains]
  cases Gui.solidsAutoStrains sq sp de (splitData nodes mats els loads) plot with
  | error e => rfl
  | ok r =>
    have key : ∀ (n m : ℕ) (e : n = m) (a : Gui.Result K) (b c : Fin m → Fin 3 → Option K),
        (⟨n, a, fun k => b (k.cast e), fun k => c (k.cast e)⟩ : Σ n : ℕ, Gui.Result K × (Fin n → Fin 3 → Option K) ×
          (Fin n → Fin 3 → Option K)) = ⟨m, a, b, c⟩ := by
      intro n m e a b c
      subst e
      rfl
    exact congrArg Except.ok (key _ _ _ r.1 r.2.1 r.2.2)

end

/-! ## Cases -/

/-- The files of `trussFiles`, moved into the folder `job`. -/
def trussJob : Fs := fun name => if "job/".toList <+: name then trussFiles (name.drop 4) else none

/-- Chosen in the dialog, the folder is found; typed as `job`, it is not; typed as `job/`, it is. -/
example : (∃ t, readin (K := ℚ) trussJob (Prefix (.chosen "job".toList) [] none) = .ok t) ∧
    readin (K := ℚ) trussJob (Prefix .cancelled "job".toList none) = .error .fileNotFound ∧
    ∃ t, readin (K := ℚ) trussJob (Prefix .unavailable "job/".toList none) = .ok t := by
  have h : readin (K := ℚ) trussJob "job/".toList = .ok ([[0, 0, 0, -1, -1], [1, 4, 0, -1, -1], [2, 4, 3, 0, 0]],
    [[125, 1], [9, 1]], [[0, 6, 0, 0, 2], [1, 6, 1, 1, 2]], [[2, 4, -6]]) := by decide +kernel
  exact ⟨⟨_, h⟩, by decide +kernel, ⟨_, h⟩⟩

end SolidsPy
