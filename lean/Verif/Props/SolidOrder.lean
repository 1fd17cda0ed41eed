import Verif.Spec.SolidOrder
import Verif.Props.Mirror
import Verif.Props.Accepted
import Verif.Props.Modes
import Mathlib.LinearAlgebra.Matrix.Permutation

/-! # C153: the order of the corners of tetrahedra and bricks -/

set_option linter.unusedSectionVars false
set_option linter.unusedSimpArgs false

namespace SolidsPy
open Spec Fem Uel Gauss Assem Matrix Equiv

section
variable {K : Type} [Field K] [LinearOrder K] [IsStrictOrderedRing K] [FloorRing K] {n d : ℕ}
variable {ε : ℤˣ}

/-- The sign as a number. -/
def sgn (ε : ℤˣ) : K := ((ε : ℤ) : K)

theorem sgn_sq (ε : ℤˣ) : (sgn ε : K) * sgn ε = 1 := by
  rcases Int.units_eq_one_or ε with rfl | rfl <;> simp [sgn]

theorem sgn_mul (ε δ : ℤˣ) : (sgn (ε * δ) : K) = sgn ε * sgn δ := by simp [sgn]

/-- The shape functions at one point of a rule are those at another with the nodes renumbered. -/
def SymRel (ε : ℤˣ) (σ : Perm (Fin n)) (x x' : Shape K d n × K) : Prop :=
  x.2 = x'.2 ∧ (x.1.1 = fun a => x'.1.1 (σ a)) ∧
    ∃ P : Matrix (Fin d) (Fin d) K, P.det = sgn ε ∧ x.1.2 = P * x'.1.2.submatrix id σ

theorem grad_sym {sh sh' : Shape K d n} {P Q : Matrix (Fin d) (Fin d) K} {δ : ℤˣ} (hP : P.det = sgn ε) {σ : Perm (Fin n)}
    (h : sh.2 = P * sh'.2.submatrix id σ) (hQ : Q.transpose * Q = 1) (hd : Q.det = sgn δ) (X : Matrix (Fin n) (Fin d) K) :
    jdet sh ((X * Q.transpose).submatrix σ id) = sgn (ε * δ) * jdet sh' X ∧
      grad sh.2 ((X * Q.transpose).submatrix σ id) = (Q * grad sh'.2 X).submatrix id σ := by
  have h1 : sh.2 * (X * Q.transpose).submatrix σ id = P * (sh'.2 * X) * Q.transpose := by
    rw [h, Matrix.mul_assoc, submatrix_mul_equiv, Matrix.mul_assoc P, Matrix.mul_assoc sh'.2]
    rfl
  constructor
  · unfold jdet
    rw [h1, det_mul, det_mul, det_transpose, hP, hd, sgn_mul]
    ring
  · have e : ∀ (D : Matrix (Fin d) (Fin n) K) (Y : Matrix (Fin n) (Fin d) K), grad D Y = (D * Y)⁻¹ * D := by
      intro D Y
      unfold grad
      rw [Matrix.inv_def, Ring.inverse_eq_inv']
    have hi : (Q.transpose)⁻¹ = Q := Matrix.inv_eq_right_inv hQ
    rw [e, e, h1, h, Matrix.mul_inv_rev, Matrix.mul_inv_rev, hi, Matrix.mul_assoc, Matrix.mul_assoc, ← Matrix.mul_assoc P⁻¹,
      Matrix.nonsing_inv_mul _ (by rw [hP]; exact IsUnit.of_mul_eq_one _ (sgn_sq ε)), Matrix.one_mul]
    rfl

theorem form_reorder (σ : Perm (Fin n)) (M : Matrix (Fin n × Fin d) (Fin n × Fin d) K) (v u : Fin n × Fin d → K) :
    v ⬝ᵥ (M.submatrix (relabel σ) (relabel σ)).mulVec u =
      (v ∘ (relabel σ).symm) ⬝ᵥ M.mulVec (u ∘ (relabel σ).symm) := by
  unfold dotProduct Matrix.mulVec dotProduct
  rw [← Equiv.sum_comp (relabel σ) (fun p => (v ∘ (relabel σ).symm) p * _)]
  refine Finset.sum_congr rfl fun p _ => ?_
  simp only [Function.comp_apply, Equiv.symm_apply_apply]
  congr 1
  rw [← Equiv.sum_comp (relabel σ) (fun q => M (relabel σ p) q * _)]
  simp [Matrix.submatrix_apply]

theorem dgrad_reorder (σ : Perm (Fin n)) (g : Matrix (Fin d) (Fin n) K) (u : Fin n × Fin d → K) :
    dgrad (g.submatrix id σ) u = dgrad g (u ∘ (relabel σ).symm) := by
  ext k i
  simp only [dgrad, Matrix.of_apply, Matrix.submatrix_apply, id, Function.comp_apply]
  rw [← Equiv.sum_comp σ (fun a => g i a * _)]
  refine Finset.sum_congr rfl fun a _ => ?_
  simp [relabel]

variable {Q : Matrix (Fin 3) (Fin 3) K}

theorem stiff_sym {R R' : QRule K 3 n} {σ : Perm (Fin n)} {X : Matrix (Fin n) (Fin 3) K} {params : List K} {C}
    (hC : elastMat params = .ok C) (hQ : Q.transpose * Q = 1) (hd : Q.det = sgn ε) (h : List.Forall₂ (SymRel ε σ) R R') :
    stiff3 R ((X * Q.transpose).submatrix σ id) C =
      (turn n Q * stiff3 R' X C * (turn n Q).transpose).submatrix (relabel σ) (relabel σ) := by
  obtain ⟨α, μ, hC⟩ := elastMat_isoForm (n := n) hC
  apply form_ext
  intro v u
  unfold stiff3
  rw [form_reorder, conj_form, stiff_form, stiff_form]
  induction h with
  | nil => rfl
  | cons hx _ ih =>
    obtain ⟨hw, -, P, hP, hD⟩ := hx
    obtain ⟨h2, h3⟩ := grad_sym hP hD hQ hd X
    rw [List.map_cons, List.map_cons, List.sum_cons, List.sum_cons, ih, h2, hw, hC, hC, h3, dgrad_reorder, dgrad_reorder,
      dgrad_rotated hQ, dgrad_rotated hQ, isoForm_rotated _ _ hQ, turn_transpose, sgn_mul, sgn_sq, one_mul]

theorem mass_sym {R R' : QRule K 3 n} {σ : Perm (Fin n)} {X : Matrix (Fin n) (Fin 3) K} {ρ : K}
    (hQ : Q.transpose * Q = 1) (hd : Q.det = sgn ε) (h : List.Forall₂ (SymRel ε σ) R R') :
    mass3 R ((X * Q.transpose).submatrix σ id) ρ =
      (turn n Q * mass3 R' X ρ * (turn n Q).transpose).submatrix (relabel σ) (relabel σ) := by
  have hQ' : Q * Q.transpose = 1 := mul_eq_one_comm.1 hQ
  apply form_ext
  intro v u
  unfold mass3
  rw [form_reorder, conj_form, mass_form, mass_form]
  induction h with
  | nil => rfl
  | @cons x x' R R' hx _ ih =>
    obtain ⟨hw, hN, P, hP, hD⟩ := hx
    obtain ⟨h2, -⟩ := grad_sym hP hD hQ hd X
    rw [List.map_cons, List.map_cons, List.sum_cons, List.sum_cons, ih, h2, hw, sgn_mul, sgn_sq, one_mul]
    congr 2
    have key : ∀ u, (hMat3 x'.1.1).mulVec ((turn n Q).transpose.mulVec (u ∘ (relabel σ).symm)) =
        Q.transpose.mulVec ((hMat3 x.1.1).mulVec u) := by
      intro u
      rw [hMat3_mulVec, hMat3_mulVec, turn_transpose, hN]
      funext i
      simp only [turn_mulVec]
      simp only [Matrix.mulVec, dotProduct, Finset.mul_sum]
      rw [Finset.sum_comm]
      refine Finset.sum_congr rfl fun j _ => ?_
      rw [← Equiv.sum_comp σ (fun a => x'.1.1 a * _)]
      refine Finset.sum_congr rfl fun a _ => ?_
      simp [relabel]
      ring
    rw [key, key]
    generalize (hMat3 x.1.1).mulVec v = a
    generalize (hMat3 x.1.1).mulVec u = b
    rw [dotProduct_mulVec (Q.transpose.mulVec a), vecMul_transpose, mulVec_mulVec, hQ', one_mulVec]

theorem jdet_sym {R R' : QRule K 3 n} {σ : Perm (Fin n)} {X : Matrix (Fin n) (Fin 3) K} {δ : ℤˣ}
    (hQ : Q.transpose * Q = 1) (hd : Q.det = sgn δ) (h : List.Forall₂ (SymRel ε σ) R R') {p : K → Prop} :
    (∀ x ∈ R, p (jdet x.1 ((X * Q.transpose).submatrix σ id))) ↔ ∀ x ∈ R', p (sgn (ε * δ) * jdet x.1 X) := by
  induction h with
  | nil => simp
  | @cons x x' R R' hx _ ih =>
    obtain ⟨_, _, P, hP, hD⟩ := hx
    obtain ⟨h2, _⟩ := grad_sym hP hD hQ hd X
    rw [List.forall_mem_cons, List.forall_mem_cons, ih, h2]

/-! ## The tetrahedron -/

/-- The derivatives of the shape functions of the tetrahedron, as integers. -/
def tetInt : Fin 3 → Fin 4 → ℤ := ![![-1, 1, 0, 0], ![-1, 0, 1, 0], ![-1, 0, 0, 1]]

def tetP (σ : Perm (Fin 4)) : Matrix (Fin 3) (Fin 3) ℤ := Matrix.of fun i j => tetInt i (σ.symm j.succ)

theorem tetP_det : ∀ σ : Perm (Fin 4), tetP σ 0 0 * tetP σ 1 1 * tetP σ 2 2 - tetP σ 0 0 * tetP σ 1 2 * tetP σ 2 1
    - tetP σ 0 1 * tetP σ 1 0 * tetP σ 2 2 + tetP σ 0 1 * tetP σ 1 2 * tetP σ 2 0
    + tetP σ 0 2 * tetP σ 1 0 * tetP σ 2 1 - tetP σ 0 2 * tetP σ 1 1 * tetP σ 2 0 = (Perm.sign σ : ℤ) := by
  decide +kernel

theorem tetP_mul : ∀ (σ : Perm (Fin 4)) (i : Fin 3) (a : Fin 4), tetInt i a =
    tetP σ i 0 * tetInt 0 (σ a) + tetP σ i 1 * tetInt 1 (σ a) + tetP σ i 2 * tetInt 2 (σ a) := by
  decide +kernel

/-- A point of the tetrahedron by its four weights. -/
def weights4 (p : ℚ × ℚ × ℚ) : Fin 4 → ℚ := ![1 - p.1 - p.2.1 - p.2.2, p.1, p.2.1, p.2.2]

theorem tet_points : ∀ σ : Perm (Fin 4), ((ptsTet3.zip wtsTet3).map fun x => (weights4 x.1 ∘ σ.symm, x.2)).Perm
    ((ptsTet3.zip wtsTet3).map fun x => (weights4 x.1, x.2)) := by
  decide +kernel

/-- The shape functions of the tetrahedron at the point with the given weights. -/
def tetShape (b : Fin 4 → ℚ) : Shape K 3 4 := (fun a => (b a : K), fun i a => (tetInt i a : K))

theorem shapeTet4_weights (p : ℚ × ℚ × ℚ) : shapeTet4 (p.1 : K) (p.2.1 : K) (p.2.2 : K) = tetShape (weights4 p) := by
  unfold shapeTet4 tetShape weights4
  refine Prod.ext ?_ ?_
  · funext a
    fin_cases a <;> simp
  · ext i a
    fin_cases i <;> fin_cases a <;> simp [tetInt]

theorem tetShape_sym (σ : Perm (Fin 4)) (b : Fin 4 → ℚ) (w : K) :
    SymRel (Perm.sign σ) σ (tetShape b, w) (tetShape (b ∘ σ.symm), w) := by
  refine ⟨rfl, ?_, (tetP σ).map (Int.cast : ℤ → K), ?_, ?_⟩
  · funext a
    simp [tetShape]
  · have := congrArg (Int.cast : ℤ → K) (tetP_det σ)
    rw [Matrix.det_fin_three]
    simp only [Matrix.map_apply]
    unfold sgn
    rw [← this]
    push_cast
    ring
  · ext i a
    have := congrArg (Int.cast : ℤ → K) (tetP_mul σ i a)
    simp only [tetShape, Matrix.mul_apply, Matrix.map_apply, Matrix.submatrix_apply, id, Fin.sum_univ_three]
    rw [this]
    push_cast
    rfl

/-! ## The brick -/

/-- The points of the rule, by their signs. -/
def cubeSigns : List (Fin 3 → ℤˣ) :=
  [![-1, -1, -1], ![-1, -1, 1], ![-1, 1, -1], ![-1, 1, 1], ![1, -1, -1], ![1, -1, 1], ![1, 1, -1], ![1, 1, 1]]

theorem cubeSigns_perm : ∀ (π : Perm (Fin 3)) (c : Fin 3 → ℤˣ),
    (cubeSigns.map fun s k => c (π.symm k) * s (π.symm k)).Perm cubeSigns := by
  decide +kernel

/-- The shape functions of the brick at the point `x`, and their derivatives. -/
def cubeShape (x : Fin 3 → K) : Shape K 3 8 :=
  (fun a => (∏ k, (1 + sgn (hexSide a k) * x k)) / 8,
    Matrix.of fun i a => (∏ k, if k = i then sgn (hexSide a k) else 1 + sgn (hexSide a k) * x k) / 8)

theorem shapeHex8_cube (r s t : K) : shapeHex8 r s t = cubeShape ![r, s, t] := by
  unfold shapeHex8 cubeShape
  refine Prod.ext ?_ ?_
  · funext a
    fin_cases a <;> simp [hexSide, sgn, Fin.prod_univ_three, lit_eighth] <;> ring
  · ext i a
    fin_cases i <;> fin_cases a <;> simp [hexSide, sgn, Fin.prod_univ_three, lit_eighth] <;> ring

theorem cubeShape_sym {σ : Perm (Fin 8)} (π : Perm (Fin 3)) (c : Fin 3 → ℤˣ)
    (h : ∀ a k, hexSide (σ a) (π k) = c k * hexSide a k) (x : Fin 3 → K) (w : K) :
    SymRel ((∏ k, c k) * Perm.sign π) σ (cubeShape x, w) (cubeShape fun k => sgn (c (π.symm k)) * x (π.symm k), w) := by
  have e : ∀ a k, (sgn (hexSide (σ a) (π k)) : K) = sgn (c k) * sgn (hexSide a k) := fun a k => by rw [h, sgn_mul]
  have e2 : ∀ a k, 1 + (sgn (hexSide (σ a) (π k)) : K) * (sgn (c k) * x k) = 1 + sgn (hexSide a k) * x k := by
    intro a k
    rw [e]
    linear_combination (sgn (hexSide a k) * x k) * sgn_sq (K := K) (c k)
  refine ⟨rfl, ?_, Matrix.diagonal (fun k => sgn (c k)) * π.permMatrix K, ?_, ?_⟩
  · funext a
    unfold cubeShape
    dsimp only
    conv_rhs => rw [← Equiv.prod_comp π]
    simp only [Equiv.symm_apply_apply, e2]
  · rw [Matrix.det_mul, Matrix.det_diagonal, Matrix.det_permutation]
    simp [sgn, Fin.prod_univ_three]
  · ext i a
    rw [Matrix.mul_assoc, Matrix.diagonal_mul]
    unfold Equiv.Perm.permMatrix
    rw [PEquiv.toMatrix_toPEquiv_mul]
    simp only [Matrix.submatrix_apply, id, cubeShape, Matrix.of_apply]
    conv_rhs => rw [← Equiv.prod_comp π]
    simp only [Equiv.symm_apply_apply, e2, EmbeddingLike.apply_eq_iff_eq]
    rw [mul_div_assoc']
    congr 1
    rw [← Finset.mul_prod_erase _ _ (Finset.mem_univ i), ← Finset.mul_prod_erase _ _ (Finset.mem_univ i), if_pos rfl, if_pos rfl,
      e, ← mul_assoc, ← mul_assoc, sgn_sq, one_mul]
    congr 1
    refine Finset.prod_congr rfl fun k hk => ?_
    rw [if_neg (Finset.ne_of_mem_erase hk), if_neg (Finset.ne_of_mem_erase hk)]

theorem ruleHex8_signs : ∃ g w : K, ruleHex8 = cubeSigns.map fun s => (cubeShape fun k => sgn (s k) * g, w) := by
  obtain ⟨g, h1⟩ : ∃ g : ℚ, pts1d2 = [-g, g] := ⟨_, rfl⟩
  obtain ⟨w, h2⟩ : ∃ w : ℚ, wts1d2 = [w, w] := ⟨_, rfl⟩
  refine ⟨(g : K), (w : K) * ((w : K) * w), ?_⟩
  have e : ∀ s : Fin 3 → ℤˣ, (fun k => (sgn (s k) : K) * (g : K)) = ![sgn (s 0) * (g : K), sgn (s 1) * (g : K), sgn (s 2) * (g : K)] := by
    intro s
    funext k
    fin_cases k <;> rfl
  unfold ruleHex8
  rw [h1, h2]
  simp only [e, ← shapeHex8_cube]
  simp [prodRepeat, at3, cubeSigns, sgn]

/-- The rules of both elements, with the corners renumbered. -/
theorem solid_sym {f : Uel K} {R : QRule K 3 n} (h : SolidRule n f R) {σ : Perm (Fin n)} (hσ : Reorders n ε σ) :
    ∃ R' : QRule K 3 n, List.Forall₂ (SymRel ε σ) R R' ∧ R'.Perm R := by
  cases h with
  | tet4 =>
    have hσ : Perm.sign σ = ε := hσ
    subst hσ
    refine ⟨(ptsTet3.zip wtsTet3).map fun x => (tetShape (weights4 x.1 ∘ σ.symm), (x.2 : K) / 6), ?_, ?_⟩
    · unfold ruleTet4
      simp only [shapeTet4_weights]
      generalize ptsTet3.zip wtsTet3 = l
      induction l with
      | nil => exact .nil
      | cons x l ih => exact .cons (tetShape_sym σ _ _) ih
    · have := (tet_points σ).map fun x : (Fin 4 → ℚ) × ℚ => ((tetShape x.1 : Shape K 3 4), (x.2 : K) / 6)
      rw [List.map_map, List.map_map] at this
      unfold ruleTet4
      simp only [shapeTet4_weights]
      exact this
  | hex8 =>
    obtain ⟨π, c, h1, rfl⟩ : CubeSymmetry ε σ := hσ
    obtain ⟨g, w, hg⟩ := ruleHex8_signs (K := K)
    refine ⟨cubeSigns.map fun s => (cubeShape fun k => sgn (c (π.symm k) * s (π.symm k)) * g, w), ?_, ?_⟩
    · rw [hg]
      generalize cubeSigns = l
      induction l with
      | nil => exact .nil
      | cons s l ih =>
        refine .cons ?_ ih
        have := cubeShape_sym π c h1 (fun k => (sgn (s k) : K) * g) w
        simp only [sgn_mul, mul_assoc]
        exact this
    · have := (cubeSigns_perm π c).map fun s : Fin 3 → ℤˣ => ((cubeShape fun k => sgn (s k) * g : Shape K 3 8), w)
      rw [List.map_map] at this
      rw [hg]
      exact this

/-- C153.  A tetrahedron or a brick with its corners listed in another order, and the whole turned or mirrored by the orthogonal matrix
`Q`: if the order keeps right and left and `Q` does, or if both exchange them, the routine returns the matrices of the
first element, turned by `Q`, with rows and columns in the new order. -/
theorem C153_reordered {f : Uel K} (hf : SolidElement n f) {σ : Perm (Fin n)} (hσ : Reorders n ε σ)
    {X : Matrix (Fin n) (Fin 3) K} {params : List K} {k m} (h : Returns f X params k m) (hQ : Q.transpose * Q = 1)
    (hd : Q.det = ((ε : ℤ) : K)) :
    Returns f ((X * Q.transpose).submatrix σ id) params
      ((turn n Q * k * (turn n Q).transpose).submatrix (relabel σ) (relabel σ))
      ((turn n Q * m * (turn n Q).transpose).submatrix (relabel σ) (relabel σ)) := by
  obtain ⟨R, hR⟩ := solid_rule hf
  obtain ⟨R', hF, hp⟩ := solid_sym hR hσ
  obtain ⟨hg, hr⟩ := returns_solid hR
  obtain ⟨C, ρ, hm, ha, rfl, rfl⟩ := (hr _ _ _ _).1 h
  refine (hr _ _ _ _).2 ⟨C, ρ, hm, ?_, ?_, ?_⟩
  · unfold Acc
    rw [jdet_sym (p := fun x => 1e-8 < x) hQ hd hF]
    intro x hx
    rw [sgn_mul, sgn_sq, one_mul]
    exact ha x (hp.subset hx)
  · rw [stiff_sym hm.2.1 hQ hd hF]
    congr 3
    exact ((hp.map _).sum_eq).symm
  · rw [mass_sym hQ hd hF]
    congr 3
    exact ((hp.map _).sum_eq).symm

/-- C153.  In an order that exchanges right and left the routine refuses the element with a `ValueError`. -/
theorem C153_refused {f : Uel K} (hf : SolidElement n f) {σ : Perm (Fin n)} (hσ : Reorders n (-1) σ)
    {X : Matrix (Fin n) (Fin 3) K} {params : List K} {k m} (h : Returns f X params k m) :
    f (matRows (X.submatrix σ id)) params = .error .valueError := by
  obtain ⟨R, hR⟩ := solid_rule hf
  obtain ⟨R', hF, hp⟩ := solid_sym hR hσ
  obtain ⟨hr, hg⟩ := solid_rep' hR
  obtain ⟨-, hr'⟩ := returns_solid hR
  obtain ⟨C, ρ, hm, ha, -, -⟩ := (hr' _ _ _ _).1 h
  refine hr.err _ _ _ _ hm ?_
  intro hacc
  have key := jdet_sym (X := X) (δ := 1) (Q := 1) (by simp) (by simp [sgn]) hF (p := fun x => 1e-8 < x)
  rw [Matrix.transpose_one, Matrix.mul_one] at key
  have := key.1 hacc
  obtain ⟨x, hx⟩ := List.exists_mem_of_ne_nil _ hg.ne
  have h1 := ha x hx
  have h2 := this x (hp.symm.subset hx)
  simp [sgn] at h2
  have : (0 : K) < 1e-8 := by norm_num
  linarith

end

/-! ## Orders of a tetrahedron and of a brick -/

section

/-- The corners of a brick after a quarter turn about the third direction, and in a mirror. -/
def brickTurn : Perm (Fin 8) where
  toFun := ![1, 2, 3, 0, 5, 6, 7, 4]
  invFun := ![3, 0, 1, 2, 7, 4, 5, 6]
  left_inv := by decide
  right_inv := by decide
def brickMirror : Perm (Fin 8) where
  toFun := ![1, 0, 3, 2, 5, 4, 7, 6]
  invFun := ![1, 0, 3, 2, 5, 4, 7, 6]
  left_inv := by decide
  right_inv := by decide

theorem brickTurn_order : Reorders 8 1 brickTurn := ⟨Equiv.swap 0 1, ![1, -1, 1], by decide, by decide⟩
theorem brickMirror_order : Reorders 8 (-1) brickMirror := ⟨1, ![-1, 1, 1], by decide, by decide⟩

/-- A brick of sides 2, 1 and 3, and its image in a mirror. -/
def testBrick : Matrix (Fin 8) (Fin 3) ℚ := Matrix.of fun a i => ((hexSide a i : ℤ) : ℚ) * ![1, 1/2, 3/2] i

theorem testBrick_returns : ∃ k m, Returns elastHex8 testBrick [10, 1/4, 1] k m :=
  solid_returns .hex8 (by decide +kernel)

/-- C153 on it: the order of the quarter turn gives the same matrices in that order, the mirrored order is refused, and accepted in the
mirror. -/
example : ∃ k m, Returns elastHex8 testBrick [10, 1/4, 1] k m ∧
    Returns elastHex8 (testBrick.submatrix brickTurn id) [10, 1/4, 1] (k.submatrix (relabel brickTurn) (relabel brickTurn))
      (m.submatrix (relabel brickTurn) (relabel brickTurn)) ∧
    elastHex8 (matRows (testBrick.submatrix brickMirror id)) [10, 1/4, 1] = .error .valueError ∧
    ∃ k' m', Returns elastHex8 ((testBrick * (!![-1, 0, 0; 0, 1, 0; 0, 0, 1] : Matrix (Fin 3) (Fin 3) ℚ).transpose).submatrix brickMirror id)
      [10, 1/4, 1] k' m' := by
  obtain ⟨k, m, h⟩ := testBrick_returns
  refine ⟨k, m, h, ?_, C153_refused .hex8 brickMirror_order h, _, _, C153_reordered .hex8 brickMirror_order h ?_ ?_⟩
  · have := C153_reordered .hex8 brickTurn_order h (Q := 1) (by simp) (by simp)
    have e : turn 8 (1 : Matrix (Fin 3) (Fin 3) ℚ) = 1 := by
      ext ⟨a, i⟩ ⟨b, j⟩
      simp only [turn, Matrix.of_apply, Matrix.one_apply, Prod.mk.injEq]
      split_ifs <;> simp_all
    simpa [e] using this
  · decide +kernel
  · simp [Matrix.det_fin_three]

end
end SolidsPy
