import Verif.Proofs.Rule
import Mathlib.LinearAlgebra.Matrix.SemiringInverse

/-! # Jacobian guard, orientation, strain recovery (C29-C33) -/

set_option linter.unusedSectionVars false

namespace SolidsPy
open Spec Fem Uel Gauss

section
variable {K : Type} [Field K] [LinearOrder K] [IsStrictOrderedRing K] {d n : ℕ}

/-! ## C29 -/

/-- When `jacoper` returns. -/
theorem C29_accepts_iff (D : Matrix (Fin d) (Fin n) K) (X : Matrix (Fin n) (Fin d) K) :
    (∃ r, jacoper D X = .ok r) ↔ 1e-8 < (D * X).det := by
  constructor
  · rintro ⟨r, h⟩; exact (jacoper_ok.1 h).1
  · intro h; exact ⟨_, jacoper_ok.2 ⟨h, rfl⟩⟩

/-- What it returns: the determinant and a two-sided inverse. -/
theorem C29_returns {D : Matrix (Fin d) (Fin n) K} {X : Matrix (Fin n) (Fin d) K}
    {det : K} {inv : Matrix (Fin d) (Fin d) K} (h : jacoper D X = .ok (det, inv)) :
    det = (D * X).det ∧ inv * (D * X) = 1 ∧ (D * X) * inv = 1 := by
  obtain ⟨h1, h2⟩ := jacoper_ok.1 h
  rw [Prod.mk.injEq] at h2
  obtain ⟨rfl, rfl⟩ := h2
  have h0 : (D * X).det ≠ 0 := (tol_pos.trans h1).ne'
  refine ⟨rfl, ?_, ?_⟩
  · rw [Matrix.smul_mul, Matrix.adjugate_mul, smul_smul, inv_mul_cancel₀ h0, one_smul]
  · rw [Matrix.mul_smul, Matrix.mul_adjugate, smul_smul, inv_mul_cancel₀ h0, one_smul]

/-- Otherwise it raises `ValueError`. -/
theorem C29_raises (D : Matrix (Fin d) (Fin n) K) (X : Matrix (Fin n) (Fin d) K)
    (h : (D * X).det ≤ 1e-8) : jacoper D X = .error .valueError := jacoper_of_le h

/-- The threshold is absolute: whatever the element, all sufficiently small copies are rejected. -/
theorem C29_threshold_absolute (hd : d ≠ 0) (D : Matrix (Fin d) (Fin n) K)
    (X : Matrix (Fin n) (Fin d) K) :
    ∃ s₀ : K, 0 < s₀ ∧ ∀ s, 0 ≤ s → s ≤ s₀ → jacoper D (s • X) = .error .valueError := by
  have hp : 0 < 1 + |(D * X).det| := by positivity
  refine ⟨min 1 (1e-8 / (1 + |(D * X).det|)), lt_min one_pos (div_pos tol_pos hp), fun s h0 h1 => ?_⟩
  apply jacoper_of_le
  rw [Matrix.mul_smul, Matrix.det_smul, Fintype.card_fin]
  have hs1 : s ≤ 1 := h1.trans (min_le_left _ _)
  have hs2 : s * (1 + |(D * X).det|) ≤ 1e-8 := (le_div_iff₀ hp).1 (h1.trans (min_le_right _ _))
  have hsd : s ^ d ≤ s := pow_le_of_le_one h0 hs1 hd
  calc s ^ d * (D * X).det ≤ s ^ d * |(D * X).det| :=
        mul_le_mul_of_nonneg_left (le_abs_self _) (pow_nonneg h0 d)
    _ ≤ s * |(D * X).det| := mul_le_mul_of_nonneg_right hsd (abs_nonneg _)
    _ ≤ s * (1 + |(D * X).det|) := mul_le_mul_of_nonneg_left (by linarith) h0
    _ ≤ 1e-8 := hs2

/-- The unit square is accepted at its centre; shrunk by `10^4` it is rejected. -/
example :
    (∃ r, jacoper (K := ℚ) (shapeQuad4 0 0).2 !![0, 0; 1, 0; 1, 1; 0, 1] = .ok r) ∧
    jacoper (K := ℚ) (shapeQuad4 0 0).2 ((1 / 10000 : ℚ) • !![0, 0; 1, 0; 1, 1; 0, 1]) =
      .error .valueError := by
  rw [C29_accepts_iff]
  refine ⟨?_, C29_raises _ _ ?_⟩ <;> decide +kernel

/-! ## C30 -/

/-- `jacoper` rejects the mirror image of whatever it accepts. -/
theorem C30_jacoper {D : Matrix (Fin d) (Fin n) K} {X : Matrix (Fin n) (Fin d) K}
    {Q : Matrix (Fin d) (Fin d) K} (hQ : Q.det < 0) {r} (h : jacoper D X = .ok r) :
    jacoper D (X * Q) = .error .valueError := by
  apply jacoper_of_le
  rw [← Matrix.mul_assoc, Matrix.det_mul]
  have := mul_neg_of_pos_of_neg (tol_pos.trans (jacoper_ok.1 h).1) hQ
  exact this.le.trans tol_pos.le

theorem not_acc_mirror {R : QRule K d n} (hR : R ≠ []) {X : Matrix (Fin n) (Fin d) K}
    (h : Acc R X) {Q : Matrix (Fin d) (Fin d) K} (hQ : Q.det < 0) : ¬ Acc R (X * Q) := by
  obtain ⟨x, hx⟩ := List.exists_mem_of_ne_nil R hR
  intro h2
  have h1 := h x hx
  have h3 := h2 x hx
  unfold jdet at h1 h3
  rw [← Matrix.mul_assoc, Matrix.det_mul] at h3
  have := mul_neg_of_pos_of_neg (tol_pos.trans h1) hQ
  exact absurd (this.trans tol_pos) (not_lt.2 h3.le)

/-- Plane elements: the image of an accepted element under an orientation-reversing map, with the same
connectivity, raises `ValueError`. -/
theorem C30_plane {f : Uel K} (hf : PlaneElement n f) {X : Matrix (Fin n) (Fin 2) K}
    {params : List K} {r} (h : f (matRows X) params = .ok r) {Q : Matrix (Fin 2) (Fin 2) K}
    (hQ : Q.det < 0) : f (matRows (X * Q)) params = .error .valueError := by
  obtain ⟨R, st, hr, hg⟩ := plane_rep hf
  obtain ⟨C, ρ, hm, ha, _⟩ := (hr.ok _ _ _).1 h
  exact hr.err _ _ _ _ hm (not_acc_mirror hg.ne ha hQ)

/-- Solid elements. -/
theorem C30_solid {f : Uel K} (hf : SolidElement n f) {X : Matrix (Fin n) (Fin 3) K}
    {params : List K} {r} (h : f (matRows X) params = .ok r) {Q : Matrix (Fin 3) (Fin 3) K}
    (hQ : Q.det < 0) : f (matRows (X * Q)) params = .error .valueError := by
  obtain ⟨R, hr, hg⟩ := solid_rep hf
  obtain ⟨C, ρ, hm, ha, _⟩ := (hr.ok _ _ _).1 h
  exact hr.err _ _ _ _ hm (not_acc_mirror hg.ne ha hQ)

/-- The axisymmetric element. -/
theorem C30_axi {X : Matrix (Fin 9) (Fin 2) K} {params : List K} {r}
    (h : elastAxiQuad9 (matRows X) params = .ok r) {Q : Matrix (Fin 2) (Fin 2) K}
    (hQ : Q.det < 0) : elastAxiQuad9 (matRows (X * Q)) params = .error .valueError := by
  obtain ⟨C, ρ, hm, ha, _⟩ := repAxi_ok.1 h
  have h1 := fun x hx => (ha x hx).2
  have h2 : Acc ruleAxi X := h1
  have hb : elastAxiQuad9M (X * Q) C ρ = .error .valueError := by
    obtain ⟨x, l, hl⟩ : ∃ x l, prodRepeat pts1d3 2 = x :: l := ⟨_, _, rfl⟩
    obtain ⟨w, ws, hw⟩ : ∃ w ws, (prodRepeat wts1d3 2).map List.prod = w :: ws := ⟨_, _, rfl⟩
    have hx2 : x.length = 2 := mem_prodRepeat_length (l := pts1d3) (by rw [hl]; simp)
    have hmem : (at2 shapeQuad9 x, (w : K)) ∈ ruleAxi (K := K) := by
      unfold ruleAxi ruleQuad
      rw [hl, hw]
      simp
    have hdet := h2 _ hmem
    unfold elastAxiQuad9M
    show gaussLoop (diffAxi shapeQuad9 (X * Q)) C (fun det w => det * w) (fun det w => ρ * (det * w))
      (prodRepeat pts1d3 2) ((prodRepeat wts1d3 2).map List.prod) 0 0 = _
    rw [hl, hw, gaussLoop]
    have : diffAxi shapeQuad9 (X * Q) x = .error .valueError := by
      match x, hx2 with
      | [a, b], _ =>
        apply diffAxi_error
        unfold jdet at hdet ⊢
        rw [← Matrix.mul_assoc, Matrix.det_mul]
        exact (mul_neg_of_pos_of_neg (tol_pos.trans hdet) hQ).le.trans tol_pos.le
    rw [this]
    rfl
  exact strictUel_error hm.1 hm.2.1 hm.2.2 hb

/-- The unit square. -/
def unitSquare : Matrix (Fin 4) (Fin 2) ℚ := !![0, 0; 1, 0; 1, 1; 0, 1]

theorem isOk_exists {α : Type} {x : Py α} (h : x.isOk = true) : ∃ r, x = .ok r := by
  cases x with
  | ok r => exact ⟨r, rfl⟩
  | error e => cases h

/-- The unit square is accepted, and mirrored it is rejected. -/
example : (∃ r, elastQuad4 (matRows unitSquare) [1, 1/4] = .ok r) ∧
    elastQuad4 (matRows (unitSquare * (!![-1, 0; 0, 1] : Matrix (Fin 2) (Fin 2) ℚ))) [1, 1/4] = .error .valueError := by
  obtain ⟨r, h⟩ := isOk_exists (x := elastQuad4 (matRows unitSquare) [1, 1/4]) (by decide +kernel)
  exact ⟨⟨r, h⟩, C30_plane .quad4 h (by simp [Matrix.det_fin_two])⟩

/-! ## C31 -/

/-- Strains and displacements of an affine field are recovered exactly at every accepted point of every
plane element. -/
theorem C31_plane {f : K → K → Shape K 2 n} (hf : PlaneShape n f) {r s : K}
    {X : Matrix (Fin n) (Fin 2) K} {H B det} (h : elastDiff2d (f r s) X = .ok (H, B, det))
    (c : Fin 2 → K) (G : Matrix (Fin 2) (Fin 2) K) :
    B.mulVec (sample X (affine c G)) = ![G 0 0, G 1 1, G 0 1 + G 1 0] ∧
    H.mulVec (sample X (affine c G)) = affine c G (place (f r s).1 X) := by
  obtain ⟨h1, h2⟩ := diff2d_ok.1 h
  rw [Prod.mk.injEq, Prod.mk.injEq] at h2
  obtain ⟨rfl, rfl, rfl⟩ := h2
  have h0 := (tol_pos.trans h1).ne'
  obtain ⟨hN, hD⟩ := planeShape_unity hf r s
  constructor
  · rw [bMat2_mulVec]
    simp only [grad_affine h0 hD]
  · rw [hMat2_mulVec]
    funext i
    exact value_affine X hN c G i

/-- A skew quadrilateral and a point which is not its centre. -/
example : ∃ r, elastDiff2d (K := ℚ) (shapeQuad4 (1/2) (-1/3)) !![0, 0; 2, 0; 3, 2; 0, 1] = .ok r :=
  ⟨_, diff2d_ok.2 ⟨by decide +kernel, rfl⟩⟩

/-! ## C32 -/

/-- The same for solid elements; engineering strains in the order xx, yy, zz, yz, xz, xy. -/
theorem C32_solid {f : K → K → K → Shape K 3 n} (hf : SolidShape n f) {r s t : K}
    {X : Matrix (Fin n) (Fin 3) K} {H B det} (h : elastDiff3d (f r s t) X = .ok (H, B, det))
    (c : Fin 3 → K) (G : Matrix (Fin 3) (Fin 3) K) :
    B.mulVec (sample X (affine c G)) =
      ![G 0 0, G 1 1, G 2 2, G 1 2 + G 2 1, G 0 2 + G 2 0, G 0 1 + G 1 0] ∧
    H.mulVec (sample X (affine c G)) = affine c G (place (f r s t).1 X) := by
  obtain ⟨h1, h2⟩ := diff3d_ok.1 h
  rw [Prod.mk.injEq, Prod.mk.injEq] at h2
  obtain ⟨rfl, rfl, rfl⟩ := h2
  have h0 := (tol_pos.trans h1).ne'
  obtain ⟨hN, hD⟩ := solidShape_unity hf r s t
  constructor
  · rw [bMat3_mulVec]
    simp only [grad_affine h0 hD]
  · rw [hMat3_mulVec]
    funext i
    exact value_affine X hN c G i

/-- A sheared brick. -/
example : ∃ r, elastDiff3d (K := ℚ) (shapeHex8 (1/2) (-1/3) 0)
    !![0,0,0; 2,0,0; 3,1,0; 1,1,0; 0,0,1; 2,0,1; 3,1,1; 1,1,1] = .ok r :=
  ⟨_, diff3d_ok.2 ⟨by decide +kernel, rfl⟩⟩

/-! ## C33 -/

/-- A point at negative radius raises. -/
theorem C33_negative_radius (sh : Shape K 2 n) (X : Matrix (Fin n) (Fin 2) K)
    (h : place sh.1 X 0 < 0) : elastDiffAxi sh X = .error .valueError := by
  unfold elastDiffAxi
  dsimp only
  rw [if_pos (by exact h)]
  rfl

/-- The axis itself (zero radius) gives no finite answer, and a point is accepted exactly at positive
radius and with determinant above the threshold. -/
theorem C33_accepts_iff (sh : Shape K 2 n) (X : Matrix (Fin n) (Fin 2) K) :
    (∃ r, elastDiffAxi sh X = .ok r) ↔ 0 < place sh.1 X 0 ∧ 1e-8 < (sh.2 * X).det := by
  constructor
  · rintro ⟨r, h⟩; exact (diffAxi_ok.1 h).1
  · intro h; exact ⟨_, diffAxi_ok.2 ⟨h, rfl⟩⟩

/-- The field with radial part `a r + b` and axial part `c + d r + e z`: its radial, axial, shear and
hoop strains are reported exactly. -/
theorem C33_strains {f : K → K → Shape K 2 n} (hf : PlaneShape n f) {r s : K}
    {X : Matrix (Fin n) (Fin 2) K} {H B det} (h : elastDiffAxi (f r s) X = .ok (H, B, det))
    (a b c d e : K) :
    B.mulVec (sample X (affine ![b, c] !![a, 0; d, e])) =
      ![a, e, d, (a * place (f r s).1 X 0 + b) / place (f r s).1 X 0] := by
  obtain ⟨h1, h2⟩ := diffAxi_ok.1 h
  rw [Prod.mk.injEq, Prod.mk.injEq] at h2
  obtain ⟨rfl, rfl, rfl⟩ := h2
  have h0 : ((f r s).2 * X).det ≠ 0 := (tol_pos.trans h1.2).ne'
  obtain ⟨hN, hD⟩ := planeShape_unity hf r s
  rw [bMatAxi_mulVec]
  simp only [grad_affine h0 hD, value_affine X hN]
  simp [affine, Fin.sum_univ_two, add_comm]

/-- A ring of square section at radius 1 to 2. -/
example : ∃ r, elastDiffAxi (K := ℚ) (shapeQuad4 (1/2) (-1/3)) !![1, 0; 2, 0; 2, 1; 1, 1] = .ok r :=
  ⟨_, diffAxi_ok.2 ⟨by decide +kernel, rfl⟩⟩

end

end SolidsPy
