import Verif.Props.SolidPatch
import Verif.Spec.Convex
import Verif.Spec.Modes

/-! # C152: which elements are accepted -/

set_option linter.unusedSectionVars false

namespace SolidsPy
open Spec Fem Uel Gauss Assem Matrix

section
variable {K : Type} [Field K] [LinearOrder K] [IsStrictOrderedRing K] [FloorRing K]

/-! ### Quadrilaterals -/

theorem corner_areas (Q : Matrix (Fin 4) (Fin 2) K) : cornerArea Q 0 = turnArea (Q 0) (Q 1) (Q 3) ∧
    cornerArea Q 1 = turnArea (Q 1) (Q 2) (Q 0) ∧ cornerArea Q 2 = turnArea (Q 2) (Q 3) (Q 1) ∧
    cornerArea Q 3 = turnArea (Q 3) (Q 0) (Q 2) := ⟨rfl, rfl, rfl, rfl⟩

/-- Opposite corners have together twice the area. -/
theorem C152_opposite (Q : Matrix (Fin 4) (Fin 2) K) : cornerArea Q 0 + cornerArea Q 2 = 2 * quadArea Q ∧
    cornerArea Q 1 + cornerArea Q 3 = 2 * quadArea Q := by
  obtain ⟨h0, h1, h2, h3⟩ := corner_areas Q
  rw [h0, h1, h2, h3]
  unfold quadArea turnArea
  constructor <;> ring

/-- The Jacobian determinant of the four-node quadrilateral is interpolated from the areas at the corners. -/
theorem C152_quad_jacobian (Q : Matrix (Fin 4) (Fin 2) K) (r s : K) : 4 * ((shapeQuad4 r s).2 * Q).det =
    (1 - s) / 2 * ((1 - r) / 2 * cornerArea Q 0 + (1 + r) / 2 * cornerArea Q 1) +
      (1 + s) / 2 * ((1 - r) / 2 * cornerArea Q 3 + (1 + r) / 2 * cornerArea Q 2) := by
  obtain ⟨h0, h1, h2, h3⟩ := corner_areas Q
  rw [h0, h1, h2, h3, quad4_det]
  unfold turnArea
  ring

/-- The interpolation of the routines with four nodes goes through the quadrilateral along straight lines. -/
theorem C152_place (Q : Matrix (Fin 4) (Fin 2) K) (r s : K) (i : Fin 2) : place (shapeQuad4 r s).1 Q i = inQuad Q (r, s) i := by
  unfold place inQuad
  simp [Fin.sum_univ_four, shapeQuad4, lit_quarter]
  ring

/-- The difference of two places is the Jacobian at the middle times the difference of the points. -/
theorem inQuad_sub (Q : Matrix (Fin 4) (Fin 2) K) (p q : K × K) (i : Fin 2) : inQuad Q p i - inQuad Q q i =
    (p.1 - q.1) * ((shapeQuad4 ((p.1 + q.1) / 2) ((p.2 + q.2) / 2)).2 * Q) 0 i +
    (p.2 - q.2) * ((shapeQuad4 ((p.1 + q.1) / 2) ((p.2 + q.2) / 2)).2 * Q) 1 i := by
  simp only [Matrix.mul_apply, Fin.sum_univ_four]
  unfold inQuad
  simp [shapeQuad4, lit_quarter]
  ring

theorem corner_at (Q : Matrix (Fin 4) (Fin 2) K) : 4 * ((shapeQuad4 (-1 : K) (-1)).2 * Q).det = cornerArea Q 0 ∧
    4 * ((shapeQuad4 (1 : K) (-1)).2 * Q).det = cornerArea Q 1 ∧ 4 * ((shapeQuad4 (1 : K) 1).2 * Q).det = cornerArea Q 2 ∧
    4 * ((shapeQuad4 (-1 : K) 1).2 * Q).det = cornerArea Q 3 := by
  simp only [C152_quad_jacobian]
  refine ⟨?_, ?_, ?_, ?_⟩ <;> ring

/-- The Jacobian determinant is positive on the whole square exactly for convex quadrilaterals given counterclockwise. -/
theorem C152_convex_iff (Q : Matrix (Fin 4) (Fin 2) K) :
    (∀ r s : K, |r| ≤ 1 → |s| ≤ 1 → 0 < ((shapeQuad4 r s).2 * Q).det) ↔ ∀ a, 0 < cornerArea Q a := by
  constructor
  · intro h
    obtain ⟨h0, h1, h2, h3⟩ := corner_at Q
    have e1 : |(1 : K)| ≤ 1 := by simp
    have e2 : |(-1 : K)| ≤ 1 := by simp
    have k0 := h _ _ e2 e2
    have k1 := h _ _ e1 e2
    have k2 := h _ _ e1 e1
    have k3 := h _ _ e2 e1
    intro a
    fin_cases a
    · show 0 < cornerArea Q 0; linarith
    · show 0 < cornerArea Q 1; linarith
    · show 0 < cornerArea Q 2; linarith
    · show 0 < cornerArea Q 3; linarith
  · intro h r s hr hs
    rw [abs_le] at hr hs
    have := C152_quad_jacobian Q r s
    have a1 : 0 ≤ (1 - r) / 2 := by linarith
    have a2 : 0 ≤ (1 + r) / 2 := by linarith
    have b1 : 0 ≤ (1 - s) / 2 := by linarith
    have b2 : 0 ≤ (1 + s) / 2 := by linarith
    have mix : ∀ {x y u v : K}, 0 ≤ u → 0 ≤ v → u + v = 1 → 0 < x → 0 < y → 0 < u * x + v * y := by
      intro x y u v hu hv huv hx hy
      rcases hu.eq_or_lt with rfl | hu
      · have : v = 1 := by linarith
        rw [this]; linarith
      · have := mul_pos hu hx
        have := mul_nonneg hv hy.le
        linarith
    have := mix b1 b2 (by ring) (mix a1 a2 (by ring) (h 0) (h 1)) (mix a1 a2 (by ring) (h 3) (h 2))
    linarith

/-- A convex quadrilateral is covered once: different points of the square have different places. -/
theorem C152_injective {Q : Matrix (Fin 4) (Fin 2) K} (hQ : ∀ a, 0 < cornerArea Q a) {p q : K × K}
    (hp : |p.1| ≤ 1 ∧ |p.2| ≤ 1) (hq : |q.1| ≤ 1 ∧ |q.2| ≤ 1) (h : inQuad Q p = inQuad Q q) : p = q := by
  have hd := (C152_convex_iff Q).2 hQ ((p.1 + q.1) / 2) ((p.2 + q.2) / 2)
    (by have h1 := abs_le.1 hp.1; have h2 := abs_le.1 hq.1; rw [abs_le]; constructor <;> linarith [h1.1, h1.2, h2.1, h2.2])
    (by have h1 := abs_le.1 hp.2; have h2 := abs_le.1 hq.2; rw [abs_le]; constructor <;> linarith [h1.1, h1.2, h2.1, h2.2])
  have e0 := inQuad_sub Q p q 0
  have e1 := inQuad_sub Q p q 1
  rw [h, sub_self] at e0 e1
  rw [Matrix.det_fin_two] at hd
  set J := (shapeQuad4 ((p.1 + q.1) / 2) ((p.2 + q.2) / 2)).2 * Q
  have f1 : (p.1 - q.1) * (J 0 0 * J 1 1 - J 0 1 * J 1 0) = 0 := by linear_combination J 1 0 * e1 - J 1 1 * e0
  have f2 : (p.2 - q.2) * (J 0 0 * J 1 1 - J 0 1 * J 1 0) = 0 := by linear_combination J 0 1 * e0 - J 0 0 * e1
  have g1 := (mul_eq_zero.1 f1).resolve_right hd.ne'
  have g2 := (mul_eq_zero.1 f2).resolve_right hd.ne'
  exact Prod.ext (sub_eq_zero.1 g1) (sub_eq_zero.1 g2)

/-- Where the determinant exceeds the bound at the four points of a rule. -/
theorem quad_points (Q : Matrix (Fin 4) (Fin 2) K) (g : K) :
    4 * ((shapeQuad4 (-g) (-g)).2 * Q).det = g * cornerArea Q 0 + (1 - g) * quadArea Q ∧
    4 * ((shapeQuad4 g (-g)).2 * Q).det = g * cornerArea Q 1 + (1 - g) * quadArea Q ∧
    4 * ((shapeQuad4 g g).2 * Q).det = g * cornerArea Q 2 + (1 - g) * quadArea Q ∧
    4 * ((shapeQuad4 (-g) g).2 * Q).det = g * cornerArea Q 3 + (1 - g) * quadArea Q := by
  obtain ⟨h1, h2⟩ := C152_opposite Q
  have e2 : cornerArea Q 2 = 2 * quadArea Q - cornerArea Q 0 := by linarith
  have e3 : cornerArea Q 3 = 2 * quadArea Q - cornerArea Q 1 := by linarith
  simp only [C152_quad_jacobian, e2, e3]
  refine ⟨?_, ?_, ?_, ?_⟩ <;> ring

theorem acc_quad4 (Q : Matrix (Fin 4) (Fin 2) K) : Acc (ruleQuad shapeQuad4 pts1d2 wts1d2) Q ↔
    ∀ a, 4e-8 < 0.577350269189625764 * cornerArea Q a + (1 - 0.577350269189625764) * quadArea Q := by
  obtain ⟨h0, h1, h2, h3⟩ := quad_points Q 0.577350269189625764
  have e : ((0.577350269189625764 : ℚ) : K) = 0.577350269189625764 := by norm_num
  unfold Acc ruleQuad
  simp only [pts1d2, wts1d2, prodRepeat, List.flatMap_cons, List.flatMap_nil, List.map_cons, List.map_nil, List.append_nil,
    List.cons_append, List.nil_append, List.zip_cons_cons, List.zip_nil_left, List.forall_mem_cons, List.not_mem_nil,
    at2, List.getD_cons_zero, List.getD_cons_succ, jdet, Rat.cast_neg, e]
  simp only [Fin.forall_fin_succ]
  generalize (0.577350269189625764 : K) = g at *
  constructor
  · rintro ⟨k0, k3, k1, k2, -⟩
    refine ⟨?_, ?_, ?_, ?_, fun i => i.elim0⟩
    · show _ < g * cornerArea Q 0 + _; linarith
    · show _ < g * cornerArea Q 1 + _; linarith
    · show _ < g * cornerArea Q 2 + _; linarith
    · show _ < g * cornerArea Q 3 + _; linarith
  · rintro ⟨k0, k1, k2, k3, -⟩
    change _ < g * cornerArea Q 0 + _ at k0
    change _ < g * cornerArea Q 1 + _ at k1
    change _ < g * cornerArea Q 2 + _ at k2
    change _ < g * cornerArea Q 3 + _ at k3
    refine ⟨?_, ?_, ?_, ?_, fun _ h => h.elim⟩ <;> linarith

theorem inQuad_nodes (Q : Matrix (Fin 4) (Fin 2) K) (i : Fin 2) : inQuad Q (quadNode 0) i = Q 0 i ∧ inQuad Q (quadNode 1) i = Q 1 i ∧
    inQuad Q (quadNode 2) i = Q 2 i ∧ inQuad Q (quadNode 3) i = Q 3 i ∧ inQuad Q (quadNode 4) i = (Q 0 i + Q 1 i) / 2 ∧
    inQuad Q (quadNode 5) i = (Q 1 i + Q 2 i) / 2 ∧ inQuad Q (quadNode 6) i = (Q 2 i + Q 3 i) / 2 ∧
    inQuad Q (quadNode 7) i = (Q 3 i + Q 0 i) / 2 ∧ inQuad Q (quadNode 8) i = (Q 0 i + Q 1 i + Q 2 i + Q 3 i) / 4 := by
  have h : (quadNode : Fin 9 → K × K) 0 = (-1, -1) ∧ (quadNode : Fin 9 → K × K) 1 = (1, -1) ∧
      (quadNode : Fin 9 → K × K) 2 = (1, 1) ∧ (quadNode : Fin 9 → K × K) 3 = (-1, 1) ∧
      (quadNode : Fin 9 → K × K) 4 = (0, -1) ∧ (quadNode : Fin 9 → K × K) 5 = (1, 0) ∧
      (quadNode : Fin 9 → K × K) 6 = (0, 1) ∧ (quadNode : Fin 9 → K × K) 7 = (-1, 0) ∧
      (quadNode : Fin 9 → K × K) 8 = (0, 0) := ⟨rfl, rfl, rfl, rfl, rfl, rfl, rfl, rfl, rfl⟩
  obtain ⟨h0, h1, h2, h3, h4, h5, h6, h7, h8⟩ := h
  rw [h0, h1, h2, h3, h4, h5, h6, h7, h8]
  unfold inQuad
  dsimp only
  refine ⟨?_, ?_, ?_, ?_, ?_, ?_, ?_, ?_, ?_⟩ <;> ring

/-- With the middle nodes on straight sides the elements with nine and eight nodes have the geometry of four. -/
theorem straight_quad9 {Q : Matrix (Fin 4) (Fin 2) K} {X : Matrix (Fin 9) (Fin 2) K} (hX : ∀ a i, X a i = inQuad Q (quadNode a) i)
    (r s : K) : (shapeQuad9 r s).2 * X = (shapeQuad4 r s).2 * Q := by
  ext k i
  obtain ⟨h0, h1, h2, h3, h4, h5, h6, h7, h8⟩ := inQuad_nodes Q i
  rw [Matrix.mul_apply, Matrix.mul_apply, Fin.sum_univ_four]
  have e : ∀ f : Fin 9 → K, ∑ a, f a = f 0 + f 1 + f 2 + f 3 + f 4 + f 5 + f 6 + f 7 + f 8 := fun f => by
    rw [Fin.sum_univ_castSucc, Fin.sum_univ_eight]; rfl
  simp only [hX, e, h0, h1, h2, h3, h4, h5, h6, h7, h8]
  fin_cases k <;> simp [shapeQuad9, shapeQuad4, lit_quarter, lit_half, lit_one, lit_two] <;> ring

theorem straight_quad8 {Q : Matrix (Fin 4) (Fin 2) K} {X : Matrix (Fin 8) (Fin 2) K} (hX : ∀ a i, X a i = inQuad Q (quadNode8 a) i)
    (r s : K) : (shapeQuad8 r s).2 * X = (shapeQuad4 r s).2 * Q := by
  ext k i
  obtain ⟨h0, h1, h2, h3, h4, h5, h6, h7, -⟩ := inQuad_nodes Q i
  have n0 : X 0 i = Q 0 i := (hX 0 i).trans h0
  have n1 : X 1 i = Q 1 i := (hX 1 i).trans h1
  have n2 : X 2 i = Q 2 i := (hX 2 i).trans h2
  have n3 : X 3 i = Q 3 i := (hX 3 i).trans h3
  have n4 : X 4 i = (Q 0 i + Q 1 i) / 2 := (hX 4 i).trans h4
  have n5 : X 5 i = (Q 1 i + Q 2 i) / 2 := (hX 5 i).trans h5
  have n6 : X 6 i = (Q 2 i + Q 3 i) / 2 := (hX 6 i).trans h6
  have n7 : X 7 i = (Q 3 i + Q 0 i) / 2 := (hX 7 i).trans h7
  rw [Matrix.mul_apply, Matrix.mul_apply, Fin.sum_univ_four, Fin.sum_univ_eight, n0, n1, n2, n3, n4, n5, n6, n7]
  fin_cases k <;> simp [shapeQuad8, shapeQuad4, lit_quarter, lit_one, lit_two] <;> ring

theorem acc_quad3 {n : ℕ} {f : K → K → Shape K 2 n} {X : Matrix (Fin n) (Fin 2) K} {Q : Matrix (Fin 4) (Fin 2) K}
    (hX : ∀ r s, (f r s).2 * X = (shapeQuad4 r s).2 * Q) : Acc (ruleQuad f pts1d3 wts1d3) X ↔
    ∀ a, 4e-8 < 0.774596669241483377 * cornerArea Q a + (1 - 0.774596669241483377) * quadArea Q := by
  obtain ⟨h0, h1, h2, h3⟩ := quad_points Q 0.774596669241483377
  have e : ((0.774596669241483377 : ℚ) : K) = 0.774596669241483377 := by norm_num
  unfold Acc ruleQuad
  simp only [pts1d3, wts1d3, prodRepeat, List.flatMap_cons, List.flatMap_nil, List.map_cons, List.map_nil, List.append_nil,
    List.cons_append, List.nil_append, List.zip_cons_cons, List.zip_nil_left, List.forall_mem_cons, List.not_mem_nil,
    at2, List.getD_cons_zero, List.getD_cons_succ, jdet, Rat.cast_neg, Rat.cast_zero, e, hX]
  simp only [Fin.forall_fin_succ]
  generalize (0.774596669241483377 : K) = g at *
  constructor
  · rintro ⟨k0, -, k3, -, -, -, k1, -, k2, -⟩
    refine ⟨?_, ?_, ?_, ?_, fun i => i.elim0⟩
    · show _ < g * cornerArea Q 0 + _; linarith
    · show _ < g * cornerArea Q 1 + _; linarith
    · show _ < g * cornerArea Q 2 + _; linarith
    · show _ < g * cornerArea Q 3 + _; linarith
  · rintro ⟨k0, k1, k2, k3, -⟩
    change _ < g * cornerArea Q 0 + _ at k0
    change _ < g * cornerArea Q 1 + _ at k1
    change _ < g * cornerArea Q 2 + _ at k2
    change _ < g * cornerArea Q 3 + _ at k3
    simp only [quad4_det] at *
    refine ⟨?_, ?_, ?_, ?_, ?_, ?_, ?_, ?_, ?_, fun _ h => h.elim⟩ <;> linarith

/-! ### Triangles, tetrahedra and bricks -/

theorem straight_tri6 {Q : Matrix (Fin 3) (Fin 2) K} {X : Matrix (Fin 6) (Fin 2) K} (hX : ∀ a i, X a i = inTriangle Q (triNode a) i)
    (r s : K) : (shapeTri6 r s).2 * X = (shapeTri3 r s).2 * Q := by
  ext k i
  rw [Matrix.mul_apply, Matrix.mul_apply, Fin.sum_univ_three]
  simp only [hX]
  unfold inTriangle
  fin_cases k <;> simp [Fin.sum_univ_six, shapeTri6, shapeTri3, triNode] <;> ring

theorem tri3_det (r s : K) (Q : Matrix (Fin 3) (Fin 2) K) : ((shapeTri3 r s).2 * Q).det = turnArea (Q 0) (Q 1) (Q 2) := by
  rw [Matrix.det_fin_two]
  simp only [Matrix.mul_apply, Fin.sum_univ_three]
  simp [shapeTri3, turnArea]
  ring

theorem acc_const {d n : ℕ} {R : QRule K d n} {X : Matrix (Fin n) (Fin d) K} {c : K} (hR : R ≠ []) (h : ∀ x ∈ R, jdet x.1 X = c) :
    Acc R X ↔ 1e-8 < c := by
  unfold Acc
  constructor
  · intro k
    obtain ⟨x, hx⟩ := List.exists_mem_of_ne_nil _ hR
    have := k x hx
    rwa [h x hx] at this
  · intro k x hx
    rwa [h x hx]

theorem acc_tri3 (X : Matrix (Fin 3) (Fin 2) K) : Acc ruleTri3 X ↔ 1e-8 < turnArea (X 0) (X 1) (X 2) := by
  refine acc_const (good_tri3 (K := K)).ne fun x hx => ?_
  obtain ⟨y, -, rfl⟩ := List.mem_map.1 hx
  exact tri3_det _ _ _

theorem acc_tri6 {Q : Matrix (Fin 3) (Fin 2) K} {X : Matrix (Fin 6) (Fin 2) K} (hX : ∀ a i, X a i = inTriangle Q (triNode a) i) :
    Acc ruleTri6 X ↔ 1e-8 < turnArea (Q 0) (Q 1) (Q 2) := by
  refine acc_const (good_tri6 (K := K)).ne fun x hx => ?_
  obtain ⟨y, -, rfl⟩ := List.mem_map.1 hx
  unfold jdet
  rw [straight_tri6 hX, tri3_det]

theorem acc_tet4 (X : Matrix (Fin 4) (Fin 3) K) : Acc ruleTet4 X ↔ 1e-8 < sixVolume X := by
  refine acc_const (good_tet4 (K := K)).ne fun x hx => ?_
  obtain ⟨y, -, rfl⟩ := List.mem_map.1 hx
  have hD : ∀ r s t : K, (shapeTet4 r s t).2 = (tetDer : Matrix (Fin 3) (Fin 4) K) := fun _ _ _ => rfl
  unfold jdet sixVolume
  rw [hD, tetDer_mul]

theorem acc_hex8 (c : Fin 3 → K) (A : Matrix (Fin 3) (Fin 3) K) {X : Matrix (Fin 8) (Fin 3) K}
    (hX : ∀ a i, X a i = c i + A i 0 * (hexNode a).1 + A i 1 * (hexNode a).2.1 + A i 2 * (hexNode a).2.2) :
    Acc ruleHex8 X ↔ 1e-8 < A.det := by
  refine acc_const (good_hex8 (K := K)).ne fun x hx => ?_
  obtain ⟨y, -, rfl⟩ := List.mem_map.1 hx
  unfold jdet at3
  rw [hex_affine c A hX, Matrix.det_transpose]

/-! ### The routines -/

theorem plane_verdict {n : ℕ} {f : Uel K} {R : QRule K 2 n} (h : PlaneRule n f R) {c : Prop} {X : Matrix (Fin n) (Fin 2) K}
    (hc : Acc R X ↔ c) {E nu ρ : K} (hnu : nu ^ 2 ≠ 1) : ((∃ r, f (matRows X) [E, nu, ρ] = .ok r) ↔ c) ∧
    (¬ c → f (matRows X) [E, nu, ρ] = .error .valueError) := by
  obtain ⟨⟨st, hr⟩, -⟩ := plane_rep' h
  obtain ⟨C, hC⟩ := (C35_returns_iff [E, nu]).2 ⟨E, nu, rfl, hnu⟩
  have hm : Mat2 st [E, nu, ρ] C ρ := ⟨fun _ => rfl, hC, rfl⟩
  rw [← hc]
  refine ⟨⟨?_, fun ha => ⟨_, (hr.ok _ _ _).2 ⟨C, ρ, hm, ha, rfl⟩⟩⟩, hr.err _ _ _ _ hm⟩
  rintro ⟨r, hk⟩
  obtain ⟨_, _, _, ha, _⟩ := (hr.ok _ _ _).1 hk
  exact ha

theorem solid_verdict {n : ℕ} {f : Uel K} {R : QRule K 3 n} (h : SolidRule n f R) {c : Prop} {X : Matrix (Fin n) (Fin 3) K}
    (hc : Acc R X ↔ c) {E nu ρ : K} (hnu : 1 + nu ≠ 0) (hnu' : 1 - 2 * nu ≠ 0) : ((∃ r, f (matRows X) [E, nu, ρ] = .ok r) ↔ c) ∧
    (¬ c → f (matRows X) [E, nu, ρ] = .error .valueError) := by
  obtain ⟨hr, -⟩ := solid_rep' h
  obtain ⟨C, hC⟩ : ∃ C, elastMat [E, nu] = .ok C := ⟨_, elastMat_ok.2 ⟨E, nu, rfl, hnu, hnu', _, E / (1 + nu) / 2, rfl, by ring, rfl⟩⟩
  have hm : Mat3 [E, nu, ρ] C ρ := ⟨rfl, hC, rfl⟩
  rw [← hc]
  refine ⟨⟨?_, fun ha => ⟨_, (hr.ok _ _ _).2 ⟨C, ρ, hm, ha, rfl⟩⟩⟩, hr.err _ _ _ _ hm⟩
  rintro ⟨r, hk⟩
  obtain ⟨_, _, _, ha, _⟩ := (hr.ok _ _ _).1 hk
  exact ha

/-- The three-node triangle is accepted exactly when twice its area, counterclockwise, exceeds `1e-8`. -/
theorem C152_tri3 (X : Matrix (Fin 3) (Fin 2) K) {E nu ρ : K} (hnu : nu ^ 2 ≠ 1) :
    ((∃ r, elastTri3 (matRows X) [E, nu, ρ] = .ok r) ↔ 1e-8 < turnArea (X 0) (X 1) (X 2)) ∧
    (¬ 1e-8 < turnArea (X 0) (X 1) (X 2) → elastTri3 (matRows X) [E, nu, ρ] = .error .valueError) :=
  plane_verdict .tri3 (acc_tri3 X) hnu

/-- The same for the six-node triangle with straight sides. -/
theorem C152_tri6 {Q : Matrix (Fin 3) (Fin 2) K} {X : Matrix (Fin 6) (Fin 2) K} (hX : ∀ a i, X a i = inTriangle Q (triNode a) i)
    {E nu ρ : K} (hnu : nu ^ 2 ≠ 1) :
    ((∃ r, elastTri6 (matRows X) [E, nu, ρ] = .ok r) ↔ 1e-8 < turnArea (Q 0) (Q 1) (Q 2)) ∧
    (¬ 1e-8 < turnArea (Q 0) (Q 1) (Q 2) → elastTri6 (matRows X) [E, nu, ρ] = .error .valueError) :=
  plane_verdict .tri6 (acc_tri6 hX) hnu

/-- The four-node quadrilateral is accepted exactly when at every corner the mean of the corner's area and the whole area,
weighted by the Gauss point, exceeds `4e-8`. -/
theorem C152_quad4 (Q : Matrix (Fin 4) (Fin 2) K) {E nu ρ : K} (hnu : nu ^ 2 ≠ 1) :
    ((∃ r, elastQuad4 (matRows Q) [E, nu, ρ] = .ok r) ↔
      ∀ a, 4e-8 < 0.577350269189625764 * cornerArea Q a + (1 - 0.577350269189625764) * quadArea Q) ∧
    (¬ (∀ a, 4e-8 < 0.577350269189625764 * cornerArea Q a + (1 - 0.577350269189625764) * quadArea Q) →
      elastQuad4 (matRows Q) [E, nu, ρ] = .error .valueError) :=
  plane_verdict .quad4 (acc_quad4 Q) hnu

/-- The same for nine nodes on straight sides, with the Gauss point of three. -/
theorem C152_quad9 {Q : Matrix (Fin 4) (Fin 2) K} {X : Matrix (Fin 9) (Fin 2) K} (hX : ∀ a i, X a i = inQuad Q (quadNode a) i)
    {E nu ρ : K} (hnu : nu ^ 2 ≠ 1) :
    ((∃ r, elastQuad9 (matRows X) [E, nu, ρ] = .ok r) ↔
      ∀ a, 4e-8 < 0.774596669241483377 * cornerArea Q a + (1 - 0.774596669241483377) * quadArea Q) ∧
    (¬ (∀ a, 4e-8 < 0.774596669241483377 * cornerArea Q a + (1 - 0.774596669241483377) * quadArea Q) →
      elastQuad9 (matRows X) [E, nu, ρ] = .error .valueError) :=
  plane_verdict .quad9 (acc_quad3 (straight_quad9 hX)) hnu

theorem C152_quad8 {Q : Matrix (Fin 4) (Fin 2) K} {X : Matrix (Fin 8) (Fin 2) K} (hX : ∀ a i, X a i = inQuad Q (quadNode8 a) i)
    {E nu ρ : K} (hnu : nu ^ 2 ≠ 1) :
    ((∃ r, elastQuad8 (matRows X) [E, nu, ρ] = .ok r) ↔
      ∀ a, 4e-8 < 0.774596669241483377 * cornerArea Q a + (1 - 0.774596669241483377) * quadArea Q) ∧
    (¬ (∀ a, 4e-8 < 0.774596669241483377 * cornerArea Q a + (1 - 0.774596669241483377) * quadArea Q) →
      elastQuad8 (matRows X) [E, nu, ρ] = .error .valueError) :=
  plane_verdict .quad8 (acc_quad3 (straight_quad8 hX)) hnu

/-- The tetrahedron is accepted exactly when six times its volume, with the right handedness, exceeds `1e-8`. -/
theorem C152_tet4 (X : Matrix (Fin 4) (Fin 3) K) {E nu ρ : K} (hnu : 1 + nu ≠ 0) (hnu' : 1 - 2 * nu ≠ 0) :
    ((∃ r, elastTet4 (matRows X) [E, nu, ρ] = .ok r) ↔ 1e-8 < sixVolume X) ∧
    (¬ 1e-8 < sixVolume X → elastTet4 (matRows X) [E, nu, ρ] = .error .valueError) :=
  solid_verdict .tet4 (acc_tet4 X) hnu hnu'

/-- The brick that is a parallelepiped is accepted exactly when an eighth of its volume exceeds `1e-8`. -/
theorem C152_hex8 (c : Fin 3 → K) (A : Matrix (Fin 3) (Fin 3) K) {X : Matrix (Fin 8) (Fin 3) K}
    (hX : ∀ a i, X a i = c i + A i 0 * (hexNode a).1 + A i 1 * (hexNode a).2.1 + A i 2 * (hexNode a).2.2) {E nu ρ : K}
    (hnu : 1 + nu ≠ 0) (hnu' : 1 - 2 * nu ≠ 0) : ((∃ r, elastHex8 (matRows X) [E, nu, ρ] = .ok r) ↔ 1e-8 < A.det) ∧
    (¬ 1e-8 < A.det → elastHex8 (matRows X) [E, nu, ρ] = .error .valueError) :=
  solid_verdict .hex8 (acc_hex8 c A hX) hnu hnu'

/-- Convex quadrilaterals of sufficient size are accepted by the routines with four, nine and eight nodes. -/
theorem C152_convex_accepted {Q : Matrix (Fin 4) (Fin 2) K} (hQ : ∀ a, 4e-8 < cornerArea Q a) {E nu ρ : K} (hnu : nu ^ 2 ≠ 1) :
    (∃ r, elastQuad4 (matRows Q) [E, nu, ρ] = .ok r) ∧
    (∀ X : Matrix (Fin 9) (Fin 2) K, (∀ a i, X a i = inQuad Q (quadNode a) i) →
      ∃ r, elastQuad9 (matRows X) [E, nu, ρ] = .ok r) ∧
    (∀ X : Matrix (Fin 8) (Fin 2) K, (∀ a i, X a i = inQuad Q (quadNode8 a) i) →
      ∃ r, elastQuad8 (matRows X) [E, nu, ρ] = .ok r) := by
  have hA : 4e-8 < quadArea Q := by
    have := (C152_opposite Q).1
    have := hQ 0
    have := hQ 2
    linarith
  have key : ∀ g : K, 0 ≤ g → g ≤ 1 → ∀ a, 4e-8 < g * cornerArea Q a + (1 - g) * quadArea Q := by
    intro g h0 h1 a
    have := hQ a
    rcases h0.eq_or_lt with rfl | h0
    · linarith
    · have e1 := mul_lt_mul_of_pos_left this h0
      have e2 := mul_le_mul_of_nonneg_left hA.le (sub_nonneg.2 h1)
      linarith
  exact ⟨(C152_quad4 Q hnu).1.2 (key _ (by norm_num) (by norm_num)),
    fun X hX => (C152_quad9 hX hnu).1.2 (key _ (by norm_num) (by norm_num)),
    fun X hX => (C152_quad8 hX hnu).1.2 (key _ (by norm_num) (by norm_num))⟩

theorem area_of_weighted {Q : Matrix (Fin 4) (Fin 2) K} {g : K}
    (h : ∀ a, 4e-8 < g * cornerArea Q a + (1 - g) * quadArea Q) : 4e-8 < quadArea Q := by
  have h0 := h 0
  have h2 := h 2
  have := (C152_opposite Q).1
  have e : g * cornerArea Q 0 + g * cornerArea Q 2 = 2 * g * quadArea Q := by rw [← mul_add, this]; ring
  linarith

/-- An accepted quadrilateral has an area above `4e-8`, and is concave at a corner by less than the share `0.7321` of it. -/
theorem C152_accepted {Q : Matrix (Fin 4) (Fin 2) K} {E nu ρ : K} {r} (h : elastQuad4 (matRows Q) [E, nu, ρ] = .ok r)
    (hnu : nu ^ 2 ≠ 1) : 4e-8 < quadArea Q ∧ ∀ a, - 0.7321 * quadArea Q < cornerArea Q a := by
  have k := (C152_quad4 Q hnu).1.1 ⟨r, h⟩
  have hA := area_of_weighted k
  refine ⟨hA, fun a => ?_⟩
  have := k a
  norm_num at this ⊢
  have h0 : 0 < quadArea Q := lt_trans (by norm_num) hA
  linarith

/-- What the routines with nine or eight nodes accept with straight sides, the routine with four accepts. -/
theorem C152_finer {Q : Matrix (Fin 4) (Fin 2) K} {E nu ρ : K} (hnu : nu ^ 2 ≠ 1)
    (h : (∃ (X : Matrix (Fin 9) (Fin 2) K) (r : _), (∀ a i, X a i = inQuad Q (quadNode a) i) ∧
        elastQuad9 (matRows X) [E, nu, ρ] = .ok r) ∨
      ∃ (X : Matrix (Fin 8) (Fin 2) K) (r : _), (∀ a i, X a i = inQuad Q (quadNode8 a) i) ∧
        elastQuad8 (matRows X) [E, nu, ρ] = .ok r) : ∃ r, elastQuad4 (matRows Q) [E, nu, ρ] = .ok r := by
  have key : ∀ a, 4e-8 < 0.774596669241483377 * cornerArea Q a + (1 - 0.774596669241483377) * quadArea Q := by
    rcases h with ⟨X, r, hX, h⟩ | ⟨X, r, hX, h⟩
    · exact (C152_quad9 hX hnu).1.1 ⟨r, h⟩
    · exact (C152_quad8 hX hnu).1.1 ⟨r, h⟩
  have hA := area_of_weighted key
  refine (C152_quad4 Q hnu).1.2 fun a => ?_
  have := key a
  norm_num at this hA ⊢
  linarith

end

/-! ### Examples -/

/-- A dart: the last corner points inward. -/
def dart : Matrix (Fin 4) (Fin 2) ℚ := !![0, -2; 4, 0; 0, 2; 1, 0]

/-- The routine with four nodes accepts the dart although its corner points inward and the place of that corner is covered
twice; the routine with nine nodes rejects it. -/
theorem C152_dart : cornerArea dart 3 < 0 ∧ (∃ r, elastQuad4 (matRows dart) [1, 1/4, 1] = .ok r) ∧
    inQuad dart (-1, 1) = inQuad dart (-1/5, 1/5) ∧
    elastQuad9 (matRows (Matrix.of fun a i => inQuad dart (quadNode a) i : Matrix (Fin 9) (Fin 2) ℚ)) [1, 1/4, 1] =
      .error .valueError := by
  refine ⟨by decide +kernel, (C152_quad4 dart (by norm_num)).1.2 (by decide +kernel), ?_,
    (C152_quad9 (Q := dart) (fun _ _ => rfl) (by norm_num)).2 (by decide +kernel)⟩
  funext i
  revert i
  decide +kernel

/-- A convex quadrilateral with no two sides parallel. -/
def skewQuad : Matrix (Fin 4) (Fin 2) ℚ := !![0, 0; 4, 1; 5, 4; 1, 3 / 2]

example : (∀ a, 4e-8 < cornerArea skewQuad a) ∧ ∃ r, elastQuad4 (matRows skewQuad) [1, 1/4, 1] = .ok r := by
  have h : ∀ a, 4e-8 < cornerArea skewQuad a := by decide +kernel
  exact ⟨h, (C152_convex_accepted h (by norm_num)).1⟩

example : inQuad skewQuad (1/2, -1/3) ≠ inQuad skewQuad (1/3, -1/2) := by
  intro h
  have := C152_injective (Q := skewQuad) (by decide +kernel) (by decide +kernel) (by decide +kernel) h
  exact absurd this (by decide +kernel)

/-- A tetrahedron and its mirror image. -/
example : (∃ r, elastTet4 (matRows (!![0, 0, 0; 1, 0, 0; 0, 1, 0; 1, 1, 1] : Matrix (Fin 4) (Fin 3) ℚ)) [1, 1/4, 1] = .ok r) ∧
    elastTet4 (matRows (!![0, 0, 0; 0, 1, 0; 1, 0, 0; 1, 1, 1] : Matrix (Fin 4) (Fin 3) ℚ)) [1, 1/4, 1] = .error .valueError :=
  ⟨(C152_tet4 _ (by norm_num) (by norm_num)).1.2 (by decide +kernel), (C152_tet4 _ (by norm_num) (by norm_num)).2 (by decide +kernel)⟩

/-- A triangle and the same one with two corners exchanged. -/
example : (∃ r, elastTri3 (matRows (!![0, 0; 3, 1; 1, 2] : Matrix (Fin 3) (Fin 2) ℚ)) [1, 1/4, 1] = .ok r) ∧
    elastTri3 (matRows (!![0, 0; 1, 2; 3, 1] : Matrix (Fin 3) (Fin 2) ℚ)) [1, 1/4, 1] = .error .valueError :=
  ⟨(C152_tri3 _ (by norm_num)).1.2 (by decide +kernel), (C152_tri3 _ (by norm_num)).2 (by decide +kernel)⟩

end SolidsPy
