import Verif.Model.Run
import Verif.Props.Files
import Verif.Props.Drivers
import Verif.Props.Success

/-! # C105: runs from files -/

set_option linter.unusedSectionVars false

namespace SolidsPy
open Spec Files Matrix

/-- The file `name` is a table whose fields denote, in the sense of `P`, the entries of `t`. -/
def FileHolds {α : Type} (P : Text → α → Prop) (fs : Fs) (name : Text) (t : List (List α)) : Prop :=
  (∃ text rows, fs name = some text ∧ Layout rows text ∧ List.Forall₂ (List.Forall₂ P) rows t) ∧
    ∀ r ∈ t, r.length = (t.headD []).length

/-- `cs` is a numeral whose value cut at the decimal point is `z`. -/
def IntNumeral (cs : Text) (z : ℤ) : Prop :=
  ∃ x : ℚ, Numeral cs x ∧ (0 ≤ x → z ≤ x ∧ x < z + 1) ∧ (x < 0 → x ≤ z ∧ (z : ℚ) - 1 < x)

section
variable {K : Type} [Field K] [LinearOrder K] [IsStrictOrderedRing K] [FloorRing K]

/-- The four input files of a model. -/
structure FolderHolds (fs : Fs) (folder : Text) (nodes mats : Table K) (elements : List (List ℤ)) (loads : Table K) :
    Prop where
  nodes : FileHolds Numeral fs (folder ++ "nodes.txt".toList) nodes
  mats : FileHolds Numeral fs (folder ++ "mater.txt".toList) mats
  elements : FileHolds IntNumeral fs (folder ++ "eles.txt".toList) elements
  loads : FileHolds Numeral fs (folder ++ "loads.txt".toList) loads

theorem load_ok {α : Type} {conv : Text → Py α} {P : Text → α → Prop} (hP : ∀ w x, conv w = .ok x ↔ P w x) {fs : Fs}
    {name : Text} {t : List (List α)} :
    (∃ text, open_ fs name = .ok text ∧ loadtxt conv text = .ok t) ↔ FileHolds P fs name t := by
  have hP' : (fun w x => conv w = .ok x) = P := by
    funext w x
    exact propext (hP w x)
  unfold FileHolds open_
  constructor
  · rintro ⟨text, h1, h2⟩
    obtain ⟨⟨rows, h3, h4⟩, h5⟩ := loadtxt_ok.1 h2
    rw [hP'] at h4
    refine ⟨⟨text, rows, ?_, h3, h4⟩, h5⟩
    split at h1
    · rename_i t' ht
      cases h1
      exact ht
    · cases h1
  · rintro ⟨⟨text, rows, h1, h2, h3⟩, h4⟩
    refine ⟨text, by rw [h1], loadtxt_ok.2 ⟨⟨rows, h2, by rwa [hP']⟩, h4⟩⟩

/-- C105.  `readin` returns the tables laid out in the four files, and nothing else. -/
theorem C105_readin {fs : Fs} {folder : Text} {nodes mats loads : Table K} {els : List (List ℤ)} :
    readin fs folder = .ok (nodes, mats, els, loads) ↔ FolderHolds fs folder nodes mats els loads := by
  have hf := @load_ok K floatTok Numeral (fun _ _ => C102_float) fs
  have hi := @load_ok ℤ intTok IntNumeral (fun _ _ => C102_integer) fs
  unfold readin
  constructor
  · intro h
    obtain ⟨t1, a1, h⟩ := bind_ok.1 h
    obtain ⟨n, b1, h⟩ := bind_ok.1 h
    obtain ⟨t2, a2, h⟩ := bind_ok.1 h
    obtain ⟨m, b2, h⟩ := bind_ok.1 h
    obtain ⟨t3, a3, h⟩ := bind_ok.1 h
    obtain ⟨e, b3, h⟩ := bind_ok.1 h
    obtain ⟨t4, a4, h⟩ := bind_ok.1 h
    obtain ⟨l, b4, h⟩ := bind_ok.1 h
    have h := pure_ok.1 h
    simp only [Prod.mk.injEq] at h
    obtain ⟨rfl, rfl, rfl, rfl⟩ := h
    exact ⟨hf.1 ⟨_, a1, b1⟩, hf.1 ⟨_, a2, b2⟩, hi.1 ⟨_, a3, b3⟩, hf.1 ⟨_, a4, b4⟩⟩
  · rintro ⟨h1, h2, h3, h4⟩
    obtain ⟨t1, a1, b1⟩ := hf.2 h1
    obtain ⟨t2, a2, b2⟩ := hf.2 h2
    obtain ⟨t3, a3, b3⟩ := hi.2 h3
    obtain ⟨t4, a4, b4⟩ := hf.2 h4
    rw [a1, ok_bind, b1, ok_bind, a2, ok_bind, b2, ok_bind, a3, ok_bind, b3, ok_bind, a4, ok_bind, b4, ok_bind]
    rfl

theorem numeral_cast {cs : Text} {x : ℚ} (h : Numeral cs x) : Numeral cs (x : K) := by
  obtain ⟨s, g, a, f, b, e, z, h1, h2, h3, h4, h5, h6, rfl⟩ := h
  refine ⟨s, g, a, f, b, e, z, h1, h2, h3, h4, h5, h6, ?_⟩
  push_cast
  rfl

theorem FolderHolds.cast {fs : Fs} {folder : Text} {nodes mats loads : Table ℚ} {els : List (List ℤ)}
    (h : FolderHolds fs folder nodes mats els loads) :
    FolderHolds fs folder (nodes.map (List.map ((↑) : ℚ → K))) (mats.map (List.map ((↑) : ℚ → K))) els
      (loads.map (List.map ((↑) : ℚ → K))) := by
  have key : ∀ {name : Text} {t : Table ℚ}, FileHolds Numeral fs name t →
      FileHolds Numeral fs name (t.map (List.map ((↑) : ℚ → K))) := by
    rintro name t ⟨⟨text, rows, h1, h2, h3⟩, h4⟩
    refine ⟨⟨text, rows, h1, h2, ?_⟩, ?_⟩
    · rw [List.forall₂_map_right_iff]
      refine h3.imp fun r l hrl => ?_
      rw [List.forall₂_map_right_iff]
      exact hrl.imp fun w x hw => numeral_cast hw
    · intro r hr
      obtain ⟨q, hq, rfl⟩ := List.mem_map.1 hr
      have := h4 q hq
      cases t with
      | nil => simp at hq
      | cons a t => simpa using this
  exact ⟨key h.nodes, key h.mats, h.elements, key h.loads⟩

variable {sq : K → K} {sp de : Sol.Solver K} {plot : Bool} {res : Gui.Result K}

/-- C105.  A run on a folder is the run on the tables in its files. -/
theorem C105_same_as_memory {fs : Fs} {folder : Text} {nodes mats loads : Table K} {els : List (List ℤ)}
    (h : FolderHolds fs folder nodes mats els loads) :
    Gui.solidsGUIFiles sq sp de fs folder plot = Gui.solidsAuto sq sp de (splitData nodes mats els loads) plot := by
  unfold Gui.solidsGUIFiles
  rw [C105_readin.2 h, ok_bind]
  exact C89_gui_eq_auto ..

/-- C105.  A run that returns has read its four files completely, and its displacements are, for a stable structure,
in equilibrium with the loads of `loads.txt`. -/
theorem C105_equilibrium (hsp : SolverOk sp) {fs : Fs} {folder : Text}
    (h : Gui.solidsGUIFiles sq sp de fs folder plot = .ok res) :
    ∃ nodes mats els loads, FolderHolds fs folder nodes mats els loads ∧
      (WellFormed (splitData nodes mats els loads) → ∃ ms, Members sq (splitData nodes mats els loads) ms ∧
        (Stable (splitData nodes mats els loads).cons 2 ms →
          res.disp.length = nodes.length ∧
          Equilibrium (splitData nodes mats els loads).cons 2 loads ms (fieldOf res.disp))) := by
  obtain ⟨⟨nodes, mats, els, loads⟩, h1, h2⟩ := bind_ok.1 h
  have hf := C105_readin.1 h1
  rw [C105_same_as_memory hf] at h
  refine ⟨nodes, mats, els, loads, hf, fun hwf => ?_⟩
  obtain ⟨ms, hms⟩ := C18_members_exist hwf h
  refine ⟨ms, hms, fun hst => ?_⟩
  obtain ⟨⟨hl, -⟩, he⟩ := C18_nodal_equilibrium hwf hsp hms hst h
  exact ⟨by rw [hl]; simp [splitData], he⟩

/-- C105.  Without one of the files there is no run. -/
theorem C105_missing {fs : Fs} {folder : Text} {n : String} (hn : n ∈ ["nodes.txt", "mater.txt", "eles.txt", "loads.txt"])
    (h : fs (folder ++ n.toList) = none) : Gui.solidsGUIFiles sq sp de fs folder plot ≠ .ok res := by
  intro hr
  obtain ⟨⟨nodes, mats, els, loads⟩, h1, -⟩ := bind_ok.1 hr
  obtain ⟨⟨⟨_, _, a1, _⟩, _⟩, ⟨⟨_, _, a2, _⟩, _⟩, ⟨⟨_, _, a3, _⟩, _⟩, ⟨⟨_, _, a4, _⟩, _⟩⟩ := C105_readin.1 h1
  simp only [List.mem_cons, List.not_mem_nil, or_false] at hn
  rcases hn with rfl | rfl | rfl | rfl
  · rw [a1] at h; cases h
  · rw [a2] at h; cases h
  · rw [a3] at h; cases h
  · rw [a4] at h; cases h

end

/-! ## Case -/

/-- Files of the truss of C93. -/
def trussFiles : Fs := fun name =>
  if name = "nodes.txt".toList then some "# bars\n0 0.0 0.0 -1 -1\n1 4.0 0.0 -1 -1\n\n2 4.0 3.0 0 0".toList
  else if name = "mater.txt".toList then some "1.25e2 1\n9.0\t1.0\n".toList
  else if name = "eles.txt".toList then some "0 6 0 0 2\n1 6 1 1 2\n".toList
  else if name = "loads.txt".toList then some "2 4. -6 # tip\n".toList
  else none

theorem truss_folder : FolderHolds trussFiles [] ([[0, 0, 0, -1, -1], [1, 4, 0, -1, -1], [2, 4, 3, 0, 0]] : Table ℚ)
    [[125, 1], [9, 1]] [[0, 6, 0, 0, 2], [1, 6, 1, 1, 2]] [[2, 4, -6]] :=
  C105_readin.1 (by decide +kernel)

/-- Case for C105: the truss is solved from its files. -/
example : ∃ res ms, Gui.solidsGUIFiles Real.sqrt cramerR cramerR trussFiles [] false = .ok res ∧
    Members Real.sqrt trussR ms ∧ Equilibrium trussR.cons 2 trussR.loads ms (fieldOf res.disp) := by
  have hf := truss_folder.cast (K := ℝ)
  have hd : splitData (List.map (List.map ((↑) : ℚ → ℝ)) [[0, 0, 0, -1, -1], [1, 4, 0, -1, -1], [2, 4, 3, 0, 0]])
      (List.map (List.map ((↑) : ℚ → ℝ)) [[125, 1], [9, 1]]) [[0, 6, 0, 0, 2], [1, 6, 1, 1, 2]]
      (List.map (List.map ((↑) : ℚ → ℝ)) [[2, 4, -6]]) = trussR := by
    simp [splitData, trussR]
  have hrun := C105_same_as_memory (sq := Real.sqrt) (sp := cramerR) (de := cramerR) (plot := false) hf
  rw [hd] at hrun
  obtain ⟨ms, hms⟩ := truss_members sqrtFn_real trussR_bars
  have hst := trussR_stable hms
  have hn : Names trussR.nodes.length [2, (4 : ℝ), -6] 2 := (names_nat (by decide) rfl).2 rfl
  obtain ⟨res, hres⟩ := C93_solids_auto_returns (de := cramerR) trussR_plane trussR_wf cramerR_ok hms hst
    ⟨2, 0, trussR_free 0 (by omega)⟩ (by
      intro L hL
      simp only [trussR, List.mem_singleton] at hL
      subst hL
      exact ⟨by simp, 2, hn⟩)
  exact ⟨res, ms, by rw [hrun, hres], hms, (C18_nodal_equilibrium trussR_wf cramerR_ok hms hst hres).2⟩

end SolidsPy
