import Verif.Props.Static
import Verif.Props.Bars

/-! Elements of a plane structure as matrices over nodes and components. -/

set_option linter.unusedSectionVars false

namespace SolidsPy
open Spec Assem Matrix

section
variable {K : Type} [Field K] [LinearOrder K] [IsStrictOrderedRing K] [FloorRing K] {n : ℕ}

/-- The element `m` has its `n` nodes at `X` and the stiffness `k`. -/
structure Placed (nodes : Table K) (m : Member K) (X : Matrix (Fin n) (Fin 2) K)
    (k : Matrix (Fin n × Fin 2) (Fin n × Fin 2) K) : Prop where
  size : m.nodes.length = n
  coord : ∀ (a : Fin n) (i : Fin 2), entry nodes (m.nodes.getD a 0) (i + 1) = some (X a i)
  stiff : ∀ p q, m.k (2 * p.1 + p.2) (2 * q.1 + q.2) = k p q

/-- Values of a nodal field at the nodes of an element. -/
def Spec.Member.pick (m : Member K) (n : ℕ) (u : ℕ → ℕ → K) : Fin n × Fin 2 → K :=
  fun q => u (m.nodes.getD q.1 0) q.2

theorem Placed.force {nodes : Table K} {m : Member K} {X : Matrix (Fin n) (Fin 2) K} {k}
    (h : Placed nodes m X k) (u : ℕ → ℕ → K) (p : Fin n × Fin 2) :
    m.force 2 u p.1 p.2 = k.mulVec (m.pick n u) p := by
  unfold Member.force Matrix.mulVec dotProduct
  rw [h.size, Finset.sum_range, Fintype.sum_prod_type]
  refine Finset.sum_congr rfl fun b _ => ?_
  rw [Finset.sum_range]
  refine Finset.sum_congr rfl fun c _ => ?_
  dsimp only
  rw [← h.stiff p (b, c)]
  rfl

theorem Placed.form {nodes : Table K} {m : Member K} {X : Matrix (Fin n) (Fin 2) K} {k}
    (h : Placed nodes m X k) (v u : ℕ → ℕ → K) :
    m.form 2 v u = m.pick n v ⬝ᵥ k.mulVec (m.pick n u) := by
  unfold Member.form dotProduct
  rw [h.size, Finset.sum_range, Fintype.sum_prod_type]
  refine Finset.sum_congr rfl fun b _ => ?_
  rw [Finset.sum_range]
  refine Finset.sum_congr rfl fun c _ => ?_
  rw [← h.force u (b, c)]
  rfl

theorem cell_of_holds {A : NdArr K} {k : Matrix (Fin n × Fin 2) (Fin n × Fin 2) K} (h : Holds A k)
    (p q : Fin n × Fin 2) : cell A (2 * p.1 + p.2) (2 * q.1 + q.2) = k p q := by
  obtain ⟨⟨B, rfl⟩, h2⟩ := h
  have := h2 p q
  unfold NdArr.get2 at this
  unfold cell
  dsimp only at this ⊢
  split at this
  · next hb =>
    rw [dif_pos hb]
    simpa using this
  · simp at this

theorem truss_mat {sq : K → K} {coord : Table K} {params : List K} {A B : NdArr K}
    (h : Uel.truss2D sq coord params = .ok (A, B)) :
    (∃ M, A = .mat (2 * 2) (2 * 2) M) ∧ ∃ M, B = .mat (2 * 2) (2 * 2) M := by
  unfold Uel.truss2D at h
  rw [bind_ok] at h
  obtain ⟨g, _, h⟩ := h
  dsimp only at h
  split at h
  · simp only [bind_ok] at h
    obtain ⟨s, _, h⟩ := h
    split at h
    · simp only [bind_ok, pure_ok, Prod.mk.injEq] at h
      obtain ⟨d, _, rfl, rfl⟩ := h
      exact ⟨⟨_, rfl⟩, ⟨_, rfl⟩⟩
    · simp only [bind_ok, pure_ok, Prod.mk.injEq] at h
      obtain ⟨d, _, rfl, rfl⟩ := h
      exact ⟨⟨_, rfl⟩, ⟨_, rfl⟩⟩
  · simp at h

theorem truss_shape {sq : K → K} {X : Matrix (Fin 2) (Fin 2) K} {params : List K} {A B : NdArr K}
    (h : Uel.truss2D sq (matRows X) params = .ok (A, B)) :
    ∃ k m, Holds A k ∧ Holds B m ∧ Returns (Uel.truss2D sq) X params k m := by
  obtain ⟨⟨M, rfl⟩, ⟨N, rfl⟩⟩ := truss_mat h
  exact ⟨_, _, holds_mat.2 rfl, holds_mat.2 rfl, _, _, h, holds_mat.2 rfl, holds_mat.2 rfl⟩

/-- The routines for plane structures: the plane continuum elements and the bar. -/
def Structural (sq : K → K) (n : ℕ) (f : Uel K) : Prop :=
  PlaneElement n f ∨ (n = 2 ∧ f = Uel.truss2D sq)

theorem Structural.symm {sq : K → K} (hs : SqrtFn sq) {f : Uel K} (hf : Structural sq n f)
    {X : Matrix (Fin n) (Fin 2) K} {params : List K} {k m} (h : Returns f X params k m) :
    k.IsSymm ∧ m.IsSymm := by
  rcases hf with hf | ⟨rfl, rfl⟩
  · exact C38_plane_symmetric hf h
  · exact C51_symmetric hs h

theorem Structural.rigid {sq : K → K} (hs : SqrtFn sq) {f : Uel K} (hf : Structural sq n f)
    {X : Matrix (Fin n) (Fin 2) K} {params : List K} {k m} (h : Returns f X params k m) (c : Fin 2 → K)
    {G : Matrix (Fin 2) (Fin 2) K} (hG : Skew G) : k.mulVec (sample X (affine c G)) = 0 := by
  rcases hf with hf | ⟨rfl, rfl⟩
  · exact C40_plane_rigid hf h c hG
  · exact C51_rigid hs h c hG

theorem structural_of_type {sq : K → K} {ty : ℤ} (hty : ty ∈ [(1 : ℤ), 2, 3, 4]) {f : Uel K}
    (h : Uel.eleFun sq ty = .ok f) : ∃ n, PlaneElement n f := by
  simp only [List.mem_cons, List.not_mem_nil, or_false] at hty
  rcases hty with rfl | rfl | rfl | rfl <;>
  · simp only [Uel.eleFun, Except.ok.injEq] at h
    subst h
    exact ⟨_, by constructor⟩

theorem placed_of_rows {nodes : Table K} {m : Member K} {rows : List (List K)}
    {X : Matrix (Fin n) (Fin 2) K} {k : Matrix (Fin n × Fin 2) (Fin n × Fin 2) K} {kl : NdArr K}
    (h1 : List.Forall₂ (fun p row => nodes[p]? = some row) m.nodes rows)
    (h2 : rows.map (List.drop 1) = matRows X) (h3 : m.k = cell kl) (h4 : Holds kl k) :
    Placed nodes m X k := by
  have hl : rows.length = n := by
    have := congrArg List.length h2
    simpa [matRows] using this
  have hm : m.nodes.length = n := h1.length_eq.trans hl
  refine ⟨hm, fun a i => ?_, fun p q => ?_⟩
  · have ha : (a : ℕ) < m.nodes.length := by rw [hm]; exact a.2
    have hb : (a : ℕ) < rows.length := by rw [hl]; exact a.2
    have e1 := h1.get (i := a) ha hb
    simp only [List.get_eq_getElem] at e1
    rw [entry_some]
    refine ⟨rows[(a : ℕ)], ?_, ?_⟩
    · rw [List.getD_eq_getElem?_getD, List.getElem?_eq_getElem ha, Option.getD_some]
      exact e1
    · have e2 : (rows.map (List.drop 1))[(a : ℕ)]? = (matRows X)[(a : ℕ)]? := by rw [h2]
      rw [List.getElem?_map, List.getElem?_eq_getElem hb] at e2
      simp only [matRows, Option.map_some, List.getElem?_ofFn, a.2, dif_pos, Option.some.injEq] at e2
      have e3 := congrArg (fun l => l[(i : ℕ)]?) e2
      simp only [List.getElem?_drop, List.getElem?_ofFn, i.2, dif_pos] at e3
      rw [add_comm]
      exact e3
  · rw [h3]
    exact cell_of_holds h4 p q

/-- The coordinates of the two nodes of a bar. -/
theorem bar_coords {nodes : Table K} {l : List ℕ} {rows : List (List K)} (h3 : ∀ r ∈ nodes, r.length = 3)
    (h : List.Forall₂ (fun p row => nodes[p]? = some row) l rows) (hl : l.length = 2) :
    ∃ X : Matrix (Fin 2) (Fin 2) K, rows.map (List.drop 1) = matRows X := by
  have hl : rows.length = 2 := by rw [← h.length_eq, hl]
  have hw : ∀ r ∈ rows, r.length = 3 := by
    intro r hr
    obtain ⟨i, hi, rfl⟩ := List.mem_iff_getElem.1 hr
    have hi' : i < l.length := by rw [h.length_eq]; exact hi
    have := h.get (i := i) hi' hi
    simp only [List.get_eq_getElem] at this
    exact h3 _ (List.mem_of_getElem? this)
  match rows, hl, hw with
  | [r0, r1], _, hw =>
    have w0 := hw r0 (by simp)
    have w1 := hw r1 (by simp)
    match r0, w0, r1, w1 with
    | [_, x0, y0], _, [_, x1, y1], _ =>
      refine ⟨!![x0, y0; x1, y1], ?_⟩
      rw [matRows_two]
      rfl

/-- A described element of a plane structure, in matrix form. -/
theorem member_placed {sq : K → K} {mats nodes : Table K} {el : List ℤ} {m : Member K}
    (h : IsMember (Routine sq) mats nodes el m) (h3 : ∀ r ∈ nodes, r.length = 3)
    (hty : ∀ ty, el[1]? = some ty → ty ∈ [(1 : ℤ), 2, 3, 4] ∨ (ty = 6 ∧ (el.drop 3).length = 2)) :
    ∃ ty mi, ∃ q : ℕ, ∃ params n f X k mm, el[1]? = some ty ∧ Uel.eleFun sq ty = .ok f ∧
      el[2]? = some mi ∧ Resolves mats.length mi q ∧ mats[q]? = some params ∧ Structural sq n f ∧
      Returns (n := n) (d := 2) f X params k mm ∧ Placed nodes m X k := by
  obtain ⟨ty, mi, params, rows, f, kl, ml, a1, a2, ⟨q, a3, a4⟩, a5, a6, a7, a8, a9⟩ := h
  rcases hty ty a1 with ht | ⟨rfl, ht⟩
  · obtain ⟨n, hf⟩ := structural_of_type ht a7
    obtain ⟨X, k, mm, hX, hk, -, hr⟩ := C38_plane_shape hf a8
    exact ⟨ty, mi, q, params, n, f, X, k, mm, a1, a7, a2, a3, a4, .inl hf, hr,
      placed_of_rows a6 hX a9 hk⟩
  · have hf : f = Uel.truss2D sq := by
      have := a7
      simp only [Routine, Uel.eleFun, Except.ok.injEq] at this
      exact this.symm
    subst hf
    obtain ⟨X, hX⟩ := bar_coords h3 a6 (by rw [← a5.length_eq, ht])
    rw [hX] at a8
    obtain ⟨k, mm, hk, -, hr⟩ := truss_shape a8
    exact ⟨6, mi, q, params, 2, _, X, k, mm, a1, a7, a2, a3, a4, .inr ⟨rfl, rfl⟩, hr,
      placed_of_rows a6 hX a9 hk⟩

end

end SolidsPy
