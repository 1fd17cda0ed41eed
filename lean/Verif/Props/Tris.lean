import Verif.Model.Post
import Verif.Spec.Grid
import Verif.Proofs.Py
import Mathlib.Tactic.Ring
import Mathlib.Tactic.FinCases
import Mathlib.Tactic.Linarith

/-! # C73, C82: triangulation of the mesh and dispatch of the plots -/

set_option linter.unusedSectionVars false

namespace SolidsPy
namespace Spec

/-- Boundary polygon (in node order around the element) of the continuum elements; mid-side nodes lie between
their corners. -/
inductive Outline : ℤ → List ℤ → List ℤ → Prop
  | quad4 (a b c d : ℤ) : Outline 1 [a, b, c, d] [a, b, c, d]
  | tri6 (a b c ab bc ca : ℤ) : Outline 2 [a, b, c, ab, bc, ca] [a, ab, b, bc, c, ca]
  | tri3 (a b c : ℤ) : Outline 3 [a, b, c] [a, b, c]
  | quad9 (a b c d ab bc cd da m : ℤ) :
      Outline 4 [a, b, c, d, ab, bc, cd, da, m] [a, ab, b, bc, c, cd, d, da]

/-- Area of the polygon through the given nodes. -/
def nodeArea {K : Type} [Field K] (x y : ℤ → K) (l : List ℤ) : K := polyArea (l.map fun v => (x v, y v))

end Spec

open Spec Post

section
variable {K : Type} [Field K] [LinearOrder K] [IsStrictOrderedRing K] [FloorRing K]

/-- C73.  An element is split into triangles whose corners are its nodes and whose signed areas add up to the
area of its outline, for any node positions. -/
theorem C73_element {id ty mat : ℤ} {nodes poly : List ℤ} (h : Outline ty nodes poly) :
    ∃ ts, elemTris (id :: ty :: mat :: nodes) = .ok ts ∧ ts ≠ [] ∧
      (∀ t ∈ ts, t.length = 3 ∧ ∀ v ∈ t, v ∈ nodes) ∧
      ∀ x y : ℤ → K, (ts.map (nodeArea x y)).sum = nodeArea x y poly := by
  cases h with
  | quad4 a b c d =>
    refine ⟨[[a, b, c], [c, d, a]], rfl, by simp, by simp, fun x y => ?_⟩
    simp [nodeArea, polyArea, sweep]
    ring
  | tri6 a b c ab bc ca =>
    refine ⟨[[a, ab, ca], [ab, bc, ca], [ab, b, bc], [bc, c, ca]], rfl, by simp, by simp, fun x y => ?_⟩
    simp [nodeArea, polyArea, sweep]
    ring
  | tri3 a b c =>
    refine ⟨[[a, b, c]], rfl, by simp, by simp, fun x y => ?_⟩
    simp
  | quad9 a b c d ab bc cd da m =>
    refine ⟨[[a, ab, m], [ab, b, bc], [a, m, da], [ab, bc, m], [da, m, cd], [m, bc, c], [da, cd, d],
      [m, c, cd]], rfl, by simp, by simp, fun x y => ?_⟩
    simp [nodeArea, polyArea, sweep]
    ring

/-- C73.  Other element types give no triangle. -/
theorem C73_structural {el : List ℤ} {ty : ℤ} (h : el[1]? = some ty) (hs : ty < 1 ∨ 4 < ty) :
    elemTris el = .ok [] := by
  have : pyGet el 1 = .ok ty := pyGet_one.2 h
  unfold elemTris
  rw [this, ok_bind]
  split
  · omega
  · omega
  · omega
  · omega
  · rfl

theorem sum_flatten {α : Type} (f : α → K) (l : List (List α)) :
    (l.flatten.map f).sum = (l.map fun t => (t.map f).sum).sum := by
  induction l with
  | nil => rfl
  | cons a l ih => rw [List.flatten_cons, List.map_append, List.sum_append, ih, List.map_cons, List.sum_cons]

/-- C73.  A mesh of continuum elements with existing nodes is triangulated, and the triangle areas add up to the
areas of all outlines. -/
theorem C73_mesh {n : ℕ} {els : List (List ℤ × ℤ × List ℤ)} (hne : els ≠ [])
    (hel : ∀ e ∈ els, ∃ id mat nodes, e.1 = id :: e.2.1 :: mat :: nodes ∧ Outline e.2.1 nodes e.2.2 ∧
      ∀ v ∈ nodes, 0 ≤ v ∧ v < n) :
    ∃ tris, mesh2tri n (els.map Prod.fst) = .ok tris ∧
      (∀ t ∈ tris, t.length = 3 ∧ ∀ v ∈ t, 0 ≤ v ∧ v < n) ∧
      ∀ x y : ℤ → K, (tris.map (nodeArea x y)).sum = (els.map fun e => nodeArea x y e.2.2).sum := by
  have key : ∃ ts, (els.map Prod.fst).mapM elemTris = .ok ts ∧ (els ≠ [] → ts.flatten ≠ []) ∧
      (∀ t ∈ ts.flatten, t.length = 3 ∧ ∀ v ∈ t, 0 ≤ v ∧ v < n) ∧
      ∀ x y : ℤ → K, (ts.map fun t => (t.map (nodeArea x y)).sum).sum =
        (els.map fun e => nodeArea x y e.2.2).sum := by
    clear hne
    induction els with
    | nil => exact ⟨[], rfl, by simp, by simp, by simp⟩
    | cons e els ih =>
      obtain ⟨ts, h1, h2, h3, h4⟩ := ih fun e he => hel e (by simp [he])
      obtain ⟨id, mat, nodes, he, ho, hr⟩ := hel e (by simp)
      obtain ⟨t, ht, hn, ht2, ht3⟩ := C73_element (K := K) (id := id) (mat := mat) ho
      refine ⟨t :: ts, ?_, ?_, ?_, ?_⟩
      · rw [List.map_cons, List.mapM_cons, h1, he, ht]
        rfl
      · intro _
        simp [hn]
      · intro t' ht'
        rw [List.flatten_cons, List.mem_append] at ht'
        rcases ht' with ht' | ht'
        · exact ⟨(ht2 t' ht').1, fun v hv => hr v ((ht2 t' ht').2 v hv)⟩
        · exact h3 t' ht'
      · intro x y
        rw [List.map_cons, List.map_cons, List.sum_cons, List.sum_cons, h4, ht3]
  obtain ⟨ts, h1, h2, h3, h4⟩ := key
  refine ⟨ts.flatten, ?_, h3, fun x y => ?_⟩
  · unfold mesh2tri triangulation
    rw [h1, ok_bind, if_neg (h2 hne), if_pos]
    rw [List.all_eq_true]
    intro t ht
    obtain ⟨h5, h6⟩ := h3 t ht
    simp only [h5, Bool.and_eq_true, decide_eq_true_eq, List.all_eq_true, true_and]
    exact h6
  · rw [sum_flatten, h4]

/-- A nine-node element. -/
example : mesh2tri 9 [[0, 4, 0, 0, 1, 2, 3, 4, 5, 6, 7, 8]] =
    .ok [[0, 4, 8], [4, 1, 5], [0, 8, 7], [4, 5, 8], [7, 8, 6], [8, 5, 2], [7, 6, 3], [8, 2, 6]] := by
  decide +kernel

/-! ## C82 -/

theorem hasType_iff {els : List (List ℤ)} {k : ℤ} : hasType els k = true ↔ ∃ el ∈ els, el[1]? = some k := by
  simp [hasType]

/-- C82.  The displacements are printed instead of plotted exactly when the mesh has a spring, a truss member or
a beam of type 7. -/
theorem C82_prints_iff (els : List (List ℤ)) (n : ℕ) (e s : Bool) :
    fieldsPlot els n e s = .ok [.printDisp] ↔
      ∃ el ∈ els, el[1]? = some 5 ∨ el[1]? = some 6 ∨ el[1]? = some 7 := by
  have hcond : (hasType els 5 || hasType els 6 || hasType els 7) = true ↔
      ∃ el ∈ els, el[1]? = some 5 ∨ el[1]? = some 6 ∨ el[1]? = some 7 := by
    rw [Bool.or_eq_true, Bool.or_eq_true, hasType_iff, hasType_iff, hasType_iff]
    constructor
    · rintro ((⟨el, h1, h2⟩ | ⟨el, h1, h2⟩) | ⟨el, h1, h2⟩)
      · exact ⟨el, h1, Or.inl h2⟩
      · exact ⟨el, h1, Or.inr (Or.inl h2)⟩
      · exact ⟨el, h1, Or.inr (Or.inr h2)⟩
    · rintro ⟨el, h1, h2 | h2 | h2⟩
      · exact Or.inl (Or.inl ⟨el, h1, h2⟩)
      · exact Or.inl (Or.inr ⟨el, h1, h2⟩)
      · exact Or.inr ⟨el, h1, h2⟩
  rw [← hcond]
  unfold fieldsPlot
  constructor
  · intro h
    by_contra hc
    rw [if_neg hc] at h
    obtain ⟨t, -, h2⟩ := bind_ok.1 h
    have := pure_ok.1 h2
    simp at this
  · intro h
    rw [if_pos h]

/-- C82.  Otherwise one plot of the displacements and one of each field given, all on the triangulation of the
mesh. -/
theorem C82_plots {els : List (List ℤ)} {n : ℕ} {e s : Bool} {acts : List PlotAction}
    (h : fieldsPlot els n e s = .ok acts)
    (hs : ¬ ∃ el ∈ els, el[1]? = some 5 ∨ el[1]? = some 6 ∨ el[1]? = some 7) :
    ∃ t, mesh2tri n els = .ok t ∧ acts = .plotDisp t :: ((if e then [.plotStrain t] else []) ++
      (if s then [.plotStress t] else [])) := by
  have h0 : fieldsPlot els n e s ≠ .ok [.printDisp] := fun h1 => hs ((C82_prints_iff els n e s).1 h1)
  unfold fieldsPlot at h h0
  split at h
  · rename_i hc
    rw [if_pos hc] at h0
    exact absurd rfl h0
  · obtain ⟨t, h1, h2⟩ := bind_ok.1 h
    exact ⟨t, h1, by rw [← pure_ok.1 h2]; simp⟩

/-- C82.  A mesh of beams of type 8 only is not recognised as structural: it is sent to the triangulation with
no triangles, which fails. -/
theorem C82_beam2DU_fails {els : List (List ℤ)} (h : ∀ el ∈ els, el[1]? = some 8) (n : ℕ) (e s : Bool) :
    fieldsPlot els n e s = .error .valueError := by
  have hm : mesh2tri n els = .error .valueError := by
    unfold mesh2tri
    have : els.mapM elemTris = .ok (els.map fun _ => []) := by
      rw [mapM_ok, List.forall₂_map_right_iff, List.forall₂_same]
      intro el hel
      exact C73_structural (h el hel) (by omega)
    rw [this, ok_bind]
    have h0 : (els.map fun _ => ([] : List (List ℤ))).flatten = [] := by simp
    rw [h0]
    rfl
  unfold fieldsPlot
  rw [if_neg, hm]
  · rfl
  · rw [Bool.or_eq_true, Bool.or_eq_true, hasType_iff, hasType_iff, hasType_iff]
    rintro ((⟨el, h1, h2⟩ | ⟨el, h1, h2⟩) | ⟨el, h1, h2⟩) <;> (rw [h el h1] at h2; cases h2)

example : fieldsPlot [[0, 1, 0, 0, 1, 2, 3], [1, 6, 0, 0, 2]] 4 true true = .ok [.printDisp] ∧
    fieldsPlot [[0, 1, 0, 0, 1, 2, 3]] 4 true false =
      .ok [.plotDisp [[0, 1, 2], [2, 3, 0]], .plotStrain [[0, 1, 2], [2, 3, 0]]] ∧
    fieldsPlot [[0, 8, 0, 0, 1]] 2 false false = .error .valueError := by decide +kernel

end
end SolidsPy
