import Verif.Props.Static

/-! # C89, C90: the two drivers agree; element tables agree with the element routines -/

set_option linter.unusedSectionVars false

namespace SolidsPy
open Spec Assem

section
variable {K : Type} [Field K] [LinearOrder K] [IsStrictOrderedRing K] [FloorRing K]

/-- The data `solids_auto` needs for the problem in the files of `solids_GUI`: coordinates are the first
three columns of the node table, constraints the last two. -/
def splitData (nodes mats : Table K) (elements : List (List ℤ)) (loads : Table K) : Gui.Data K where
  nodes := nodes.map (List.take 3)
  cons := nodes.map fun r => r.drop (r.length - 2)
  elements := elements
  mats := mats
  loads := loads

/-- C89. Without strains: same result or same exception. -/
theorem C89_gui_eq_auto (sq : K → K) (sp de : Sol.Solver K) (nodes mats : Table K)
    (elements : List (List ℤ)) (loads : Table K) (plot : Bool) :
    Gui.solidsGUI sq sp de nodes mats elements loads plot =
      Gui.solidsAuto sq sp de (splitData nodes mats elements loads) plot := by
  unfold Gui.solidsGUI Gui.solidsAuto splitData
  simp only [List.length_map]

theorem pyGet_take3 (r : List K) : pyGet (r.take 3) 1 = pyGet r 1 ∧ pyGet (r.take 3) 2 = pyGet r 2 := by
  match r with
  | [] => exact ⟨rfl, rfl⟩
  | [_] => exact ⟨rfl, rfl⟩
  | [_, _] => exact ⟨rfl, rfl⟩
  | a :: b :: c :: t =>
    have h1 : ∀ l : List K, pyGet (a :: b :: l) 1 = .ok b := fun l => pyGet_one.2 rfl
    have h2 : ∀ l : List K, pyGet (a :: b :: c :: l) 2 = .ok c := fun l => pyGet_two.2 rfl
    exact ⟨by rw [h1, List.take_succ_cons, List.take_succ_cons, h1], by
      rw [h2, List.take_succ_cons, List.take_succ_cons, List.take_succ_cons, h2]⟩

theorem strainElem_take {nn : ℕ} (iet : ℤ) (ndof nne : ℕ) (nodes mats sol : Table K)
    (acc : Post.NodeAcc K nn) (el : List ℤ) :
    Post.strainElem iet ndof nne (nodes.map (List.take 3)) mats sol acc el =
      Post.strainElem iet ndof nne nodes mats sol acc el := by
  have hcoor : ∀ i : ℤ, (do
        let nd ← pyGet (nodes.map (List.take 3)) i
        let x ← pyGet nd 1
        let y ← pyGet nd 2
        pure [x, y] : Py (List K)) = (do
        let nd ← pyGet nodes i
        let x ← pyGet nd 1
        let y ← pyGet nd 2
        pure [x, y]) := by
    intro i
    rw [pyGet_map]
    cases pyGet nodes i with
    | error e => rfl
    | ok r =>
      change (pyGet (r.take 3) 1 >>= fun x => pyGet (r.take 3) 2 >>= fun y => pure [x, y]) =
        (pyGet r 1 >>= fun x => pyGet r 2 >>= fun y => pure [x, y])
      rw [(pyGet_take3 r).1, (pyGet_take3 r).2]
  unfold Post.strainElem
  simp only [hcoor]

/-- C89. With strains. -/
theorem C89_gui_eq_auto_strains (sq : K → K) (sp de : Sol.Solver K) (nodes mats : Table K)
    (elements : List (List ℤ)) (loads : Table K) (plot : Bool) :
    Gui.solidsGUIStrains sq sp de nodes mats elements loads plot =
      (Gui.solidsAutoStrains sq sp de (splitData nodes mats elements loads) plot).map fun r =>
        (r.1, fun k => r.2.1 (k.cast (List.length_map _).symm), fun k => r.2.2 (k.cast (List.length_map _).symm)) := by
  have key : ∀ full : Table K, Post.strainNodes nodes elements mats full =
      (Post.strainNodes (nodes.map (List.take 3)) elements mats full).map fun r =>
        (fun k => r.1 (k.cast (List.length_map _).symm), fun k => r.2 (k.cast (List.length_map _).symm)) := by
    intro full
    unfold Post.strainNodes
    have hfun : ∀ iet ndof nne nn, (Post.strainElem iet ndof nne (nodes.map (List.take 3)) mats full :
        Post.NodeAcc K nn → List ℤ → Py (Post.NodeAcc K nn)) = Post.strainElem iet ndof nne nodes mats full :=
      fun iet ndof nne nn => funext fun acc => funext fun el => strainElem_take _ _ _ _ _ _ acc el
    simp only [hfun]
    cases pyGet elements 0 with
    | error e => rfl
    | ok el0 =>
      simp only [ok_bind]
      cases pyGet el0 1 with
      | error e => rfl
      | ok iet =>
        simp only [ok_bind]
        cases eletype iet with
        | error e => rfl
        | ok t =>
          simp only [ok_bind]
          have gen : ∀ (nn : ℕ) (hn : nn = nodes.length),
              (elements.foldlM (Post.strainElem iet t.1 t.2.1 nodes mats full)
                (⟨fun _ _ => 0, fun _ _ => 0, fun _ => 0⟩ : Post.NodeAcc K nodes.length) >>= fun acc =>
                  pure (fun k c => if acc.cnt k = 0 then none else some (acc.E k c / (acc.cnt k : K)),
                    fun k c => if acc.cnt k = 0 then none else some (acc.S k c / (acc.cnt k : K))) :
                Py ((Fin nodes.length → Fin 3 → Option K) × (Fin nodes.length → Fin 3 → Option K))) =
              (elements.foldlM (Post.strainElem iet t.1 t.2.1 nodes mats full)
                (⟨fun _ _ => 0, fun _ _ => 0, fun _ => 0⟩ : Post.NodeAcc K nn) >>= fun acc =>
                  pure (fun k c => if acc.cnt k = 0 then none else some (acc.E k c / (acc.cnt k : K)),
                    fun k c => if acc.cnt k = 0 then none else some (acc.S k c / (acc.cnt k : K))) :
                Py ((Fin nn → Fin 3 → Option K) × (Fin nn → Fin 3 → Option K))).map fun r =>
                  (fun k => r.1 (k.cast hn.symm), fun k => r.2 (k.cast hn.symm)) := by
            intro nn hn
            subst hn
            generalize (_ >>= _ : Py ((Fin nodes.length → Fin 3 → Option K) × _)) = x
            cases x <;> rfl
          exact gen _ (List.length_map _)
  unfold Gui.solidsGUIStrains Gui.solidsAutoStrains splitData
  simp only [List.length_map]
  cases dme (nodes.map fun r => r.drop (r.length - 2)) elements with
  | error e => rfl
  | ok a =>
    simp only [ok_bind]
    cases assembler (Uel.eleFun sq) elements mats (nodes.map (List.take 3)) a.2.2 a.1 with
    | error e => rfl
    | ok b =>
      simp only [ok_bind]
      cases loadasem loads a.2.1 a.2.2 with
      | error e => rfl
      | ok rhs =>
        simp only [ok_bind]
        cases Sol.staticSol sp de .csr b.1 rhs with
        | error e => rfl
        | ok disp =>
          simp only [ok_bind]
          cases Gui.balanced b.1 disp rhs with
          | error e => rfl
          | ok q =>
            simp only [ok_bind]
            cases Post.completeDisp a.2.1 nodes.length disp with
            | error e => rfl
            | ok full =>
              simp only [ok_bind, key]
              cases Post.strainNodes (nodes.map (List.take 3)) elements mats full with
              | error e => rfl
              | ok es =>
                cases plot with
                | true =>
                  simp only [if_true]
                  cases Post.fieldsPlot elements nodes.length true true <;> rfl
                | false => rfl

/-- C90. The element types of the tables and of the routines are the same eight, and the stiffness matrix
of every type is square with the number of degrees of freedom in the table; so is the mass matrix, except
that of the spring (type 5), which is a vector. -/
theorem C90_routine_matches_table (sq : K → K) (ty : ℤ) :
    ((∃ f, Uel.eleFun sq ty = .ok f) ↔ ∃ t, eletype ty = .ok t) ∧
    ((∃ t, eletype ty = .ok t) ↔ 1 ≤ ty ∧ ty ≤ 8) ∧
    ∀ f ndof nne ngp, Uel.eleFun sq ty = .ok f → eletype ty = .ok (ndof, nne, ngp) →
      ∀ coord params kl ml, f coord params = .ok (kl, ml) →
        (∃ k, kl = .mat ndof ndof k) ∧ (ty ≠ 5 → ∃ m, ml = .mat ndof ndof m) ∧
        (ty = 5 → ml = .vec ndof fun _ => 0) := by
  have plane : ∀ {n : ℕ} {body : Matrix (Fin n) (Fin 2) K → Matrix (Fin 3) (Fin 3) K → K →
      Py (Matrix (Fin n × Fin 2) (Fin n × Fin 2) K × Matrix (Fin n × Fin 2) (Fin n × Fin 2) K)}
      {coord : Table K} {params : List K} {kl ml : NdArr K},
      Uel.planeUel body coord params = .ok (kl, ml) →
      (∃ k, kl = .mat (n * 2) (n * 2) k) ∧ ∃ m, ml = .mat (n * 2) (n * 2) m := by
    intro n body coord params kl ml h
    unfold Uel.planeUel at h
    simp only [bind_ok, pure_ok, Prod.mk.injEq] at h
    obtain ⟨C, _, dens, _, x, _, km, _, rfl, rfl⟩ := h
    exact ⟨⟨_, rfl⟩, ⟨_, rfl⟩⟩
  by_cases hty : 1 ≤ ty ∧ ty ≤ 8
  · have hc : ty = 1 ∨ ty = 2 ∨ ty = 3 ∨ ty = 4 ∨ ty = 5 ∨ ty = 6 ∨ ty = 7 ∨ ty = 8 := by omega
    rcases hc with rfl | rfl | rfl | rfl | rfl | rfl | rfl | rfl
    all_goals
      refine ⟨⟨fun _ => ⟨_, rfl⟩, fun _ => ⟨_, rfl⟩⟩, ⟨fun _ => hty, fun _ => ⟨_, rfl⟩⟩, ?_⟩
      intro f ndof nne ngp hf ht coord params kl ml h
      simp only [Uel.eleFun, eletype, Except.ok.injEq, Prod.mk.injEq] at hf ht
      obtain ⟨rfl, rfl, rfl⟩ := ht
      subst hf
    · exact ⟨(plane h).1, fun _ => (plane h).2, fun h => by omega⟩
    · exact ⟨(plane h).1, fun _ => (plane h).2, fun h => by omega⟩
    · exact ⟨(plane h).1, fun _ => (plane h).2, fun h => by omega⟩
    · exact ⟨(plane h).1, fun _ => (plane h).2, fun h => by omega⟩
    · unfold Uel.spring at h
      simp only [bind_ok, pure_ok, Prod.mk.injEq] at h
      obtain ⟨g, _, S, _, rfl, rfl⟩ := h
      exact ⟨⟨_, rfl⟩, fun h => absurd rfl h, fun _ => rfl⟩
    · unfold Uel.truss2D at h
      rw [bind_ok] at h
      obtain ⟨g, _, h⟩ := h
      dsimp only at h
      split at h
      · rw [bind_ok] at h
        obtain ⟨s, _, h⟩ := h
        split at h
        all_goals
          simp only [bind_ok, pure_ok, Prod.mk.injEq] at h
          obtain ⟨r, _, rfl, rfl⟩ := h
          exact ⟨⟨_, rfl⟩, fun _ => ⟨_, rfl⟩, fun h => by omega⟩
      · simp at h
    · unfold Uel.beam2DU at h
      rw [bind_ok] at h
      obtain ⟨g, _, h⟩ := h
      dsimp only at h
      split at h
      · simp only [bind_ok, pure_ok, Prod.mk.injEq] at h
        obtain ⟨s, _, da, _, rfl, rfl⟩ := h
        exact ⟨⟨_, rfl⟩, fun _ => ⟨_, rfl⟩, fun h => by omega⟩
      · simp at h
    · unfold Uel.beam2D at h
      rw [bind_ok] at h
      obtain ⟨g, _, h⟩ := h
      dsimp only at h
      split at h
      · simp only [bind_ok, pure_ok, Prod.mk.injEq] at h
        obtain ⟨r, _, b, _, M, _, rfl, rfl⟩ := h
        exact ⟨⟨_, rfl⟩, fun _ => ⟨_, rfl⟩, fun h => by omega⟩
      · simp at h
  · have h1 : ∀ f, Uel.eleFun sq ty ≠ .ok f := by
      intro f hf
      unfold Uel.eleFun at hf
      split at hf
      any_goals omega
      simp at hf
    have h2 : ∀ t, eletype ty ≠ .ok t := by
      intro f hf
      unfold eletype at hf
      split at hf
      any_goals omega
      simp at hf
    exact ⟨⟨fun ⟨f, hf⟩ => absurd hf (h1 f), fun ⟨t, ht⟩ => absurd ht (h2 t)⟩,
      ⟨fun ⟨t, ht⟩ => absurd ht (h2 t), fun h => absurd h hty⟩, fun f _ _ _ hf => absurd hf (h1 f)⟩

/-- Case for C89: a tip loaded triangle, read as five column rows. -/
example : (Gui.solidsGUI demoSq cramerSolver cramerSolver
      [[0, 0, 0, -1, -1], [1, 4, 0, -1, -1], [2, 4, 3, 0, 0]] [[125, 1], [9, 1]]
      [[0, 6, 0, 0, 2], [1, 6, 1, 1, 2]] [[2, 4, -6]] false).map (fun r => r.disp) =
    .ok [[0, 0], [0, 0], [5/2, -3]] := by
  rw [C89_gui_eq_auto]
  decide +kernel

/-- Case for C90: the bar of length 5. -/
example : (Uel.eleFun demoSq 6 >>= fun f => f [[0, 0], [4, 3]] [125, 1]).isOk = true ∧
    eletype 6 = .ok (4, 2, 3) := by decide +kernel

end

end SolidsPy
