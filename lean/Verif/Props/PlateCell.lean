import Verif.Props.LatticeWaves
import Verif.Props.BlochRange

/-! # C150: a free plate of four-node elements, its assembled matrices as sums over the cells -/

set_option linter.unusedSectionVars false

namespace SolidsPy
open Spec Fem Uel Gauss Pre Assem Matrix

/-- A plate meshed by `rect_grid` whose nodes are all free. -/
structure Spec.FreePlate {K : Type} [Field K] [LinearOrder K] [IsStrictOrderedRing K] [FloorRing K] (d : Gui.Data K) (L H : K)
    (nx ny : ℕ) (E nu ρ : K) : Prop where
  grid : GridModel d L H nx ny E nu [ρ]
  free : d.cons = List.replicate ((nx + 1) * (ny + 1)) [0, 0]

section
variable {K : Type} [Field K] [LinearOrder K] [IsStrictOrderedRing K] [FloorRing K]
variable {sq : K → K} {d : Gui.Data K} {L H E nu ρ : K} {nx ny : ℕ} {ms : List (Member K)}
  {op bc : List (List ℤ)} {neq : ℕ}

theorem Spec.FreePlate.wf (hp : FreePlate d L H nx ny E nu ρ) : WellFormed d where
  codes := by
    intro i j x hj hx
    obtain ⟨row, h1, h2⟩ := entry_some.1 hx
    rw [hp.free] at h1
    obtain rfl := List.eq_of_mem_replicate (List.mem_of_getElem? h1)
    rcases (by omega : j = 0 ∨ j = 1) with rfl | rfl <;> simp at h2 <;> simp [← h2]
  width := by
    intro r hr
    rw [hp.free] at hr
    rw [List.eq_of_mem_replicate hr]
    rfl
  size := by rw [hp.free, List.length_replicate, hp.grid.size]

theorem Spec.FreePlate.free_dof (hp : FreePlate d L H nx ny E nu ρ) {p j : ℕ} (h : p < (nx + 1) * (ny + 1)) (hj : j < 2) :
    Free d.cons 2 p j := by
  refine ⟨hj, 0, entry_some.2 ⟨[0, 0], ?_, ?_⟩, by simp, by simp⟩
  · rw [hp.free, List.getElem?_replicate, if_pos h]
  · rcases (by omega : j = 0 ∨ j = 1) with rfl | rfl <;> rfl

theorem plate_zeros (m : ℕ) : zerosTab 2 (truncTab (List.replicate m [(0 : K), 0])) = 2 * m := by
  induction m with
  | zero => rfl
  | succ m ih =>
    have h0 : pyTrunc (0 : K) = 0 := by simp [pyTrunc]
    rw [List.replicate_succ]
    simp only [truncTab, List.map_cons, List.map_nil, zerosTab_cons, h0] at ih ⊢
    rw [ih]
    have : zeros (List.take 2 [(0 : ℤ), 0]) = 2 := by decide
    omega

/-- Component `j` of node `p` has equation `2 p + j`. -/
theorem Spec.FreePlate.numbering (hp : FreePlate d L H nx ny E nu ρ) (h1 : dme d.cons d.elements = .ok (op, bc, neq)) :
    neq = 2 * ((nx + 1) * (ny + 1)) ∧ ∀ p < (nx + 1) * (ny + 1), ∀ j < 2, DofEq bc neq p j (2 * p + j) := by
  have heq := (dme_ok.1 h1).1
  have hneq : neq = 2 * ((nx + 1) * (ny + 1)) := by
    rw [eqcounter_neq heq, hp.free, plate_zeros]
  refine ⟨hneq, fun p h j hj => ?_⟩
  obtain ⟨c1, c2⟩ := free_entry heq (hp.free_dof h hj)
  have hrank : Assem.rank d.cons 2 p j = 2 * p + j := by
    unfold Assem.rank
    have h0 : pyTrunc (0 : K) = 0 := by simp [pyTrunc]
    have e1 : (truncTab d.cons).take p = truncTab (List.replicate p [(0 : K), 0]) := by
      rw [hp.free]
      unfold truncTab
      rw [List.map_replicate, List.map_replicate, List.take_replicate]
      congr 1
      omega
    rw [e1, plate_zeros]
    congr 1
    rw [hp.free]
    simp only [truncTab, List.map_replicate, List.map_cons, List.map_nil, h0]
    rw [List.getElem?_replicate, if_pos h]
    rcases (by omega : j = 0 ∨ j = 1) with rfl | rfl <;> decide
  rw [hrank] at c1
  exact ⟨_, c1, by omega, by omega, .inl rfl⟩

/-- Values of a vector of the assembled system at row `r` and column `c` of the grid. -/
def gridField {α : Type} [Zero α] (nx ny : ℕ) (v : Fin (2 * ((nx + 1) * (ny + 1))) → α) : ℕ → ℕ → Fin 2 → α := fun r c j =>
  if h : 2 * nodeNo nx r c + j < 2 * ((nx + 1) * (ny + 1)) then v ⟨2 * nodeNo nx r c + j, h⟩ else 0

theorem gridField_at {α : Type} [Zero α] (v : Fin (2 * ((nx + 1) * (ny + 1))) → α) {r c : ℕ} (hr : r ≤ ny) (hc : c ≤ nx) (j : Fin 2) :
    ∃ h, gridField nx ny v r c j = v ⟨2 * nodeNo nx r c + j, h⟩ := by
  have h1 := nodeNo_lt hr hc
  have h : 2 * nodeNo nx r c + (j : ℕ) < 2 * ((nx + 1) * (ny + 1)) := by omega
  exact ⟨h, dif_pos h⟩

theorem cellNodes_at (nx r c : ℕ) (t : Fin 4) : (cellNodes nx r c).getD t 0 = nodeNo nx (r + upOf t) (c + rightOf t) := by
  fin_cases t <;> rfl

theorem upOf_le (t : Fin 4) : upOf t ≤ 1 ∧ rightOf t ≤ 1 := by
  fin_cases t <;> decide

variable {A : Matrix (Fin (2 * ((nx + 1) * (ny + 1)))) (Fin (2 * ((nx + 1) * (ny + 1)))) K}

/-- The form of the assembled matrix is the sum of those of the cells. -/
theorem Spec.FreePlate.sum (hp : FreePlate d L H nx ny E nu ρ) {fn : ℤ → Uel K → Prop}
    (h1 : dme d.cons d.elements = .ok (op, bc, 2 * ((nx + 1) * (ny + 1))))
    (s : Setup fn d.cons d.elements d.mats d.nodes 2 (2 * ((nx + 1) * (ny + 1))) bc A ms)
    {k : Matrix (Fin 4 × Fin 2) (Fin 4 × Fin 2) K}
    (hk : ∀ r < ny, ∀ c < nx, ∀ m ∈ ms, m.nodes = cellNodes nx r c → ∀ V U : ℕ → ℕ → K,
      m.form 2 V U = m.pick 4 V ⬝ᵥ k.mulVec (m.pick 4 U)) (v u : Fin (2 * ((nx + 1) * (ny + 1))) → K) :
    v ⬝ᵥ A.mulVec u = ∑ r ∈ Finset.range ny, ∑ c ∈ Finset.range nx,
      cellOf (gridField nx ny v) r c ⬝ᵥ k.mulVec (cellOf (gridField nx ny u) r c) := by
  obtain ⟨V, hV⟩ := exists_completes (cons := d.cons) bc 2 v
  obtain ⟨U, hU⟩ := exists_completes (cons := d.cons) bc 2 u
  have hpick : ∀ (w : Fin (2 * ((nx + 1) * (ny + 1))) → K) (W : ℕ → ℕ → K), Completes d.cons bc 2 _ w W → ∀ r < ny, ∀ c < nx,
      ∀ m : Member K, m.nodes = cellNodes nx r c → m.pick 4 W = cellOf (gridField nx ny w) r c := by
    intro w W hW r hr c hc m hm
    funext t
    obtain ⟨l1, l2⟩ := upOf_le t.1
    unfold Member.pick cellOf
    rw [hm, cellNodes_at]
    have hlt := nodeNo_lt (nx := nx) (ny := ny) (r := r + upOf t.1) (c := c + rightOf t.1) (by omega) (by omega)
    obtain ⟨hb, he⟩ := gridField_at w (r := r + upOf t.1) (c := c + rightOf t.1) (by omega) (by omega) t.2
    rw [he]
    exact (hW _ (by rw [hp.free, List.length_replicate]; exact hlt) t.2 t.2.2).1 ⟨_, hb⟩ ((hp.numbering h1).2 _ hlt _ t.2.2)
  have hf := reduced_form s hV hU
  rw [show v ⬝ᵥ A.mulVec u = ∑ i, v i * A.mulVec u i from rfl, hf]
  refine hp.grid.sum s.mem _ _ fun r c hr hc m hm hn => ?_
  rw [hk r hr c hc m hm hn, hpick v V hV r hr c hc m hn, hpick u U hU r hr c hc m hn]

/-- The stiffness of a rectangle does not depend on where it is. -/
theorem rect_stiff_moved {a b : K} (ha : a ≠ 0) (hb : b ≠ 0) (x y : K) (C : Matrix (Fin 3) (Fin 3) K) (v u : Fin 4 × Fin 2 → K) :
    v ⬝ᵥ (stiff2 (ruleQuad shapeQuad4 pts1d2 wts1d2) (rectAt x y a b) C).mulVec u =
      v ⬝ᵥ (stiff2 (ruleQuad shapeQuad4 pts1d2 wts1d2) (rectAt 0 0 a b) C).mulVec u := by
  rw [rect_form ha hb, rect_form ha hb]

/-- The mass element of a cell; the law of its material was computed. -/
theorem grid_cell_mass (h : GridModel d L H nx ny E nu [ρ]) (hms : Masses sq d ms) {r c : ℕ} (hr : r < ny) (hc : c < nx) {m : Member K}
    (hm : m ∈ ms) (hn : m.nodes = cellNodes nx r c) :
    (∃ C, umat [E, nu] = .ok C) ∧ Placed d.nodes m (rectAt (-L / 2 + c * (L / nx)) (-H / 2 + r * (H / ny)) (L / nx) (H / ny))
      (mass2 (ruleQuad shapeQuad4 pts1d2 wts1d2) (rectAt (-L / 2 + c * (L / nx)) (-H / 2 + r * (H / ny)) (L / nx) (H / ny)) ρ) := by
  obtain ⟨e, he, hme⟩ := List.mem_iff_getElem.1 hm
  have he' : e < d.elements.length := by rw [hms.length_eq]; exact he
  have hmem : IsMember (MassRoutine sq) d.mats d.nodes d.elements[e] m := by
    have := hms.get (i := e) he' he
    simp only [List.get_eq_getElem] at this
    rw [hme] at this
    exact this
  have hin : ∀ x ∈ d.elements, x ∈ (rectGrid L H nx ny).2.2 := by
    rw [h.elements]
    exact fun _ hx => hx
  obtain ⟨r', c', hr', hc', e1⟩ := mem_grid (hin _ (List.getElem_mem he'))
  have e2 := gridEls_getElem? (nx := nx) hr' hc'
  change (rectGrid L H nx ny).2.2[r' * nx + c']? = _ at e2
  rw [e1, Option.some.injEq] at e2
  obtain ⟨mi, q, params, X, k, mm, a3, a4, a5, a7, a8⟩ := mass_placed_of (ty := 1) hmem (by rw [e2]; rfl) rfl .quad4
  rw [e2] at a3
  simp only [List.getElem?_cons_succ, List.getElem?_cons_zero, Option.some.injEq] at a3
  subst a3
  have hm0 := (List.getElem?_eq_some_iff.1 h.material).1
  have : q = 0 := resolves_unique a4 ⟨hm0, .inl rfl⟩
  subst this
  rw [h.material, Option.some.injEq] at a5
  subst a5
  obtain ⟨C', ρ', hm', ha, -, hk⟩ := (returns_plane_lax (K := K) .quad4 (by decide) _ _ _ _).1 a7
  have hd : ρ = ρ' := ((mat2_cons.1 hm').2.2).symm
  subst hd
  have hX := grid_cell_rect h hr hc a8 hn
  rw [hk, hX] at a8
  exact ⟨⟨_, (mat2_cons.1 hm').2.1⟩, a8⟩

end

end SolidsPy
