import Verif.Props.Elements
import Mathlib.LinearAlgebra.UnitaryGroup

/-! # Rotation, scaling, renumbering and parameters of continuum elements (C45-C49) -/

set_option linter.unusedSectionVars false

set_option linter.unusedSimpArgs false
set_option linter.unreachableTactic false
set_option linter.unusedTactic false

namespace SolidsPy
open Spec Fem Uel Gauss Matrix

section
variable {K : Type} [Field K] [LinearOrder K] [IsStrictOrderedRing K] {d n q : ℕ}

/-! ## C45 -/

/-- Rotation of all nodal vectors. -/
def turn (n : ℕ) (Q : Matrix (Fin d) (Fin d) K) : Matrix (Fin n × Fin d) (Fin n × Fin d) K :=
  Matrix.of fun p q => if p.1 = q.1 then Q p.2 q.2 else 0

theorem turn_mulVec (Q : Matrix (Fin d) (Fin d) K) (u : Fin n × Fin d → K) (a : Fin n) (i : Fin d) :
    (turn n Q).mulVec u (a, i) = ∑ j, Q i j * u (a, j) := by
  unfold turn Matrix.mulVec dotProduct
  rw [Fintype.sum_prod_type]
  simp only [Matrix.of_apply, ite_mul, zero_mul]
  rw [Finset.sum_comm]
  simp

theorem turn_transpose (Q : Matrix (Fin d) (Fin d) K) : (turn n Q).transpose = turn n Q.transpose := by
  ext p q
  simp [turn, eq_comm]

/-- Displacement gradient. -/
def dgrad (g : Matrix (Fin d) (Fin n) K) (u : Fin n × Fin d → K) : Matrix (Fin d) (Fin d) K :=
  Matrix.of fun k i => ∑ a, g i a * u (a, k)

theorem grad_rotated {D : Matrix (Fin d) (Fin n) K} {X : Matrix (Fin n) (Fin d) K}
    {Q : Matrix (Fin d) (Fin d) K} (hQ : Q.transpose * Q = 1) (hd : Q.det = 1) :
    grad D (X * Q.transpose) = Q * grad D X := by
  have hdet : (D * (X * Q.transpose)).det = (D * X).det := by
    rw [← Matrix.mul_assoc, det_mul, det_transpose, hd, mul_one]
  have h1 : grad D (X * Q.transpose) =
      (D * (X * Q.transpose))⁻¹ * D := by
    unfold grad
    rw [Matrix.inv_def, Ring.inverse_eq_inv']
  have h2 : grad D X = (D * X)⁻¹ * D := by
    unfold grad
    rw [Matrix.inv_def, Ring.inverse_eq_inv']
  rw [h1, h2, ← Matrix.mul_assoc, ← Matrix.mul_assoc, Matrix.mul_inv_rev]
  congr 2
  exact Matrix.inv_eq_right_inv hQ

theorem dgrad_rotated {g : Matrix (Fin d) (Fin n) K} {Q : Matrix (Fin d) (Fin d) K}
    (hQ : Q.transpose * Q = 1) (u : Fin n × Fin d → K) :
    dgrad (Q * g) u = Q * dgrad g ((turn n Q.transpose).mulVec u) * Q.transpose := by
  have hQ' : Q * Q.transpose = 1 := mul_eq_one_comm.1 hQ
  have key : dgrad g ((turn n Q.transpose).mulVec u) = Q.transpose * dgrad g u := by
    ext k i
    simp only [dgrad, Matrix.of_apply, turn_mulVec, Matrix.mul_apply, Finset.mul_sum, transpose_apply]
    rw [Finset.sum_comm]
    exact Finset.sum_congr rfl fun j _ => Finset.sum_congr rfl fun a _ => by ring
  have key2 : dgrad (Q * g) u = dgrad g u * Q.transpose := by
    ext k i
    simp only [dgrad, Matrix.of_apply, Matrix.mul_apply, Finset.sum_mul, transpose_apply]
    rw [Finset.sum_comm]
    exact Finset.sum_congr rfl fun j _ => Finset.sum_congr rfl fun a _ => by ring
  rw [key, key2, ← Matrix.mul_assoc, hQ', Matrix.one_mul]

/-- Isotropic bilinear form of displacement gradients. -/
def isoForm (α μ : K) (G G' : Matrix (Fin d) (Fin d) K) : K :=
  α * (G.trace * G'.trace) + μ * ((G.transpose * G').trace + (G * G').trace)

theorem isoForm_rotated (α μ : K) {Q : Matrix (Fin d) (Fin d) K} (hQ : Q.transpose * Q = 1)
    (G G' : Matrix (Fin d) (Fin d) K) :
    isoForm α μ (Q * G * Q.transpose) (Q * G' * Q.transpose) = isoForm α μ G G' := by
  have tr : ∀ A : Matrix (Fin d) (Fin d) K, (Q * A * Q.transpose).trace = A.trace := by
    intro A
    rw [trace_mul_comm, ← Matrix.mul_assoc, hQ, Matrix.one_mul]
  have pr : ∀ A B : Matrix (Fin d) (Fin d) K,
      (Q * A * Q.transpose) * (Q * B * Q.transpose) = Q * (A * B) * Q.transpose := by
    intro A B
    calc (Q * A * Q.transpose) * (Q * B * Q.transpose)
        = Q * A * (Q.transpose * Q) * B * Q.transpose := by simp only [Matrix.mul_assoc]
      _ = Q * (A * B) * Q.transpose := by rw [hQ, Matrix.mul_one, Matrix.mul_assoc Q A B]
  have tp : (Q * G * Q.transpose).transpose = Q * G.transpose * Q.transpose := by
    rw [transpose_mul, transpose_mul, transpose_transpose, Matrix.mul_assoc]
  unfold isoForm
  rw [tr, tr, tp, pr, pr, tr, tr]

theorem umat_isoForm {params : List K} {C} (h : umat params = .ok C) : ∃ α μ, ∀ (g g' : Matrix (Fin 2) (Fin n) K)
    (v u), (bMat2 g).mulVec v ⬝ᵥ C.mulVec ((bMat2 g').mulVec u) = isoForm α μ (dgrad g v) (dgrad g' u) := by
  obtain ⟨E, nu, h1, h2, rfl⟩ := umat_ok.1 h
  refine ⟨nu * (E / (1 - nu^2)), E / (1 - nu^2) * ((1 - nu) / 2), fun g g' v u => ?_⟩
  rw [bMat2_mulVec, bMat2_mulVec, umat_mulVec, dot3]
  simp [isoForm, dgrad, Matrix.trace, Matrix.mul_apply, Fin.sum_univ_two]
  ring

theorem elastMat_isoForm {params : List K} {C} (h : elastMat params = .ok C) :
    ∃ α μ, ∀ (g g' : Matrix (Fin 3) (Fin n) K) (v u),
      (bMat3 g).mulVec v ⬝ᵥ C.mulVec ((bMat3 g').mulVec u) = isoForm α μ (dgrad g v) (dgrad g' u) := by
  obtain ⟨E', nu', h1, h2, h3, lam, mu, h4, h5, rfl⟩ := elastMat_ok.1 h
  refine ⟨lam, mu, fun g g' v u => ?_⟩
  rw [bMat3_mulVec, bMat3_mulVec, elastMat_mulVec, dot6]
  simp [isoForm, dgrad, Matrix.trace, Matrix.mul_apply, Fin.sum_univ_three]
  ring

theorem jdet_rotated (sh : Shape K d n) (X : Matrix (Fin n) (Fin d) K) {Q : Matrix (Fin d) (Fin d) K}
    (hd : Q.det = 1) : jdet sh (X * Q.transpose) = jdet sh X := by
  unfold jdet
  rw [← Matrix.mul_assoc, det_mul, det_transpose, hd, mul_one]

theorem conj_form {ι : Type} [Fintype ι] [DecidableEq ι] (T M : Matrix ι ι K) (v u : ι → K) :
    v ⬝ᵥ (T * M * T.transpose).mulVec u = T.transpose.mulVec v ⬝ᵥ M.mulVec (T.transpose.mulVec u) := by
  rw [← mulVec_mulVec, ← mulVec_mulVec, dotProduct_mulVec, ← mulVec_transpose]

theorem stiff_rotated {R : QRule K d n} {X : Matrix (Fin n) (Fin d) K}
    {Bm : Matrix (Fin d) (Fin n) K → Matrix (Fin q) (Fin n × Fin d) K} {C : Matrix (Fin q) (Fin q) K} {α μ : K}
    (hC : ∀ g g' v u, (Bm g).mulVec v ⬝ᵥ C.mulVec ((Bm g').mulVec u) = isoForm α μ (dgrad g v) (dgrad g' u))
    {Q : Matrix (Fin d) (Fin d) K} (hQ : Q.transpose * Q = 1) (hd : Q.det = 1) :
    qStiff (fun sh => Bm (grad sh.2 (X * Q.transpose))) R (X * Q.transpose) C =
      turn n Q * qStiff (fun sh => Bm (grad sh.2 X)) R X C * (turn n Q).transpose := by
  apply form_ext
  intro v u
  rw [conj_form, stiff_form, stiff_form]
  congr 1
  refine List.map_congr_left fun x hx => ?_
  rw [jdet_rotated _ _ hd, hC, hC, grad_rotated hQ hd, dgrad_rotated hQ,
    dgrad_rotated hQ, isoForm_rotated _ _ hQ, turn_transpose]

theorem mass_rotated {R : QRule K d n} {X : Matrix (Fin n) (Fin d) K}
    {Hm : (Fin n → K) → Matrix (Fin d) (Fin n × Fin d) K} {ρ : K}
    (hH : ∀ N u, (Hm N).mulVec u = fun i => ∑ a, N a * u (a, i))
    {Q : Matrix (Fin d) (Fin d) K} (hQ : Q.transpose * Q = 1) (hd : Q.det = 1) :
    qMass (fun sh => Hm sh.1) R (X * Q.transpose) ρ =
      turn n Q * qMass (fun sh => Hm sh.1) R X ρ * (turn n Q).transpose := by
  have hQ' : Q * Q.transpose = 1 := mul_eq_one_comm.1 hQ
  apply form_ext
  intro v u
  rw [conj_form, mass_form, mass_form]
  congr 1
  refine List.map_congr_left fun x hx => ?_
  rw [jdet_rotated _ _ hd]
  congr 1
  have key : ∀ u, (Hm x.1.1).mulVec ((turn n Q).transpose.mulVec u) =
      Q.transpose.mulVec ((Hm x.1.1).mulVec u) := by
    intro u
    rw [hH, hH, turn_transpose]
    funext i
    simp only [turn_mulVec]
    simp only [Matrix.mulVec, dotProduct, Finset.mul_sum]
    rw [Finset.sum_comm]
    exact Finset.sum_congr rfl fun j _ => Finset.sum_congr rfl fun a _ => by ring
  rw [key, key]
  generalize (Hm x.1.1).mulVec v = a
  generalize (Hm x.1.1).mulVec u = b
  rw [dotProduct_mulVec (Q.transpose.mulVec a), vecMul_transpose, mulVec_mulVec, hQ', one_mulVec]

theorem acc_rotated {R : QRule K d n} {X : Matrix (Fin n) (Fin d) K} (ha : Acc R X)
    {Q : Matrix (Fin d) (Fin d) K} (hd : Q.det = 1) : Acc R (X * Q.transpose) := by
  intro x hx
  rw [jdet_rotated _ _ hd]
  exact ha x hx

/-- Turning a plane element by a rotation `Q` (every node `x` to `Q x`) turns its matrices. -/
theorem C45_plane_rotation {f : Uel K} (hf : PlaneElement n f) {X : Matrix (Fin n) (Fin 2) K}
    {params : List K} {k m} (h : Returns f X params k m) {Q : Matrix (Fin 2) (Fin 2) K}
    (hQ : Q.transpose * Q = 1) (hd : Q.det = 1) :
    Returns f (X * Q.transpose) params (turn n Q * k * (turn n Q).transpose)
      (turn n Q * m * (turn n Q).transpose) := by
  obtain ⟨R, hR⟩ := plane_rule hf
  obtain ⟨hg, st, hr⟩ := returns_plane hR
  obtain ⟨C, ρ, hm, ha, rfl, rfl⟩ := (hr _ _ _ _).1 h
  obtain ⟨α, μ, hC⟩ := umat_isoForm (n := n) hm.2.1
  exact (hr _ _ _ _).2 ⟨C, ρ, hm, acc_rotated ha hd, (stiff_rotated hC hQ hd).symm,
    (mass_rotated hMat2_mulVec hQ hd).symm⟩

/-- The same in three dimensions. -/
theorem C45_solid_rotation {f : Uel K} (hf : SolidElement n f) {X : Matrix (Fin n) (Fin 3) K}
    {params : List K} {k m} (h : Returns f X params k m) {Q : Matrix (Fin 3) (Fin 3) K}
    (hQ : Q.transpose * Q = 1) (hd : Q.det = 1) :
    Returns f (X * Q.transpose) params (turn n Q * k * (turn n Q).transpose)
      (turn n Q * m * (turn n Q).transpose) := by
  obtain ⟨R, hR⟩ := solid_rule hf
  obtain ⟨hg, hr⟩ := returns_solid hR
  obtain ⟨C, ρ, hm, ha, rfl, rfl⟩ := (hr _ _ _ _).1 h
  obtain ⟨α, μ, hC⟩ := elastMat_isoForm (n := n) hm.2.1
  exact (hr _ _ _ _).2 ⟨C, ρ, hm, acc_rotated ha hd, (stiff_rotated hC hQ hd).symm,
    (mass_rotated hMat3_mulVec hQ hd).symm⟩

/-- The rotation with cosine 3/5 and sine 4/5 of the unit square. -/
example : ∃ k m k' m', Returns elastQuad4 unitSquare [1, 1/4] k m ∧
    Returns elastQuad4 (unitSquare * (!![3/5, -4/5; 4/5, 3/5] : Matrix (Fin 2) (Fin 2) ℚ).transpose)
      [1, 1/4] k' m' := by
  obtain ⟨k, m, h⟩ := unitSquare_returns
  exact ⟨k, m, _, _, h, C45_plane_rotation .quad4 h
    (by ext i j; fin_cases i <;> fin_cases j <;> norm_num [Matrix.mul_apply, Fin.sum_univ_two])
    (by norm_num [Matrix.det_fin_two])⟩

/-! ## C46 -/

theorem jdet_scaled (sh : Shape K d n) (X : Matrix (Fin n) (Fin d) K) (s : K) :
    jdet sh (s • X) = s ^ d * jdet sh X := by
  unfold jdet
  rw [Matrix.mul_smul, Matrix.det_smul, Fintype.card_fin]

theorem grad_scaled {D : Matrix (Fin d) (Fin n) K} {X : Matrix (Fin n) (Fin d) K} {s : K}
    (h0 : (D * X).det ≠ 0) (hs : s ≠ 0) : grad D (s • X) = s⁻¹ • grad D X := by
  have h1 : grad D (s • X) = (D * (s • X))⁻¹ * D := by
    unfold grad
    rw [Matrix.inv_def, Ring.inverse_eq_inv']
  have h2 : grad D X = (D * X)⁻¹ * D := by
    unfold grad
    rw [Matrix.inv_def, Ring.inverse_eq_inv']
  have h3 : (D * (s • X))⁻¹ = s⁻¹ • (D * X)⁻¹ := by
    rw [Matrix.mul_smul]
    apply Matrix.inv_eq_right_inv
    rw [Matrix.smul_mul, Matrix.mul_smul, smul_smul, mul_inv_cancel₀ hs, one_smul,
      Matrix.mul_nonsing_inv _ (isUnit_iff_ne_zero.2 h0)]
  rw [h1, h2, h3, Matrix.smul_mul]

theorem bMat2_smul (s : K) (g : Matrix (Fin 2) (Fin n) K) : bMat2 (s • g) = s • bMat2 g := by
  ext i ⟨a, j⟩
  fin_cases i <;> fin_cases j <;> simp [bMat2]

theorem bMat3_smul (s : K) (g : Matrix (Fin 3) (Fin n) K) : bMat3 (s • g) = s • bMat3 g := by
  ext i ⟨a, j⟩
  fin_cases i <;> fin_cases j <;> simp [bMat3]

theorem list_sum_smul {ι : Type} {α : Type} (c : K) (l : List α) (f : α → Matrix ι ι K) :
    (l.map fun x => c • f x).sum = c • (l.map f).sum := by
  induction l with
  | nil => simp
  | cons x l ih => simp only [List.map_cons, List.sum_cons, ih, smul_add]

theorem mass_scaled {R : QRule K d n} {X : Matrix (Fin n) (Fin d) K}
    {H : Shape K d n → Matrix (Fin d) (Fin n × Fin d) K} {ρ s : K} :
    qMass H R (s • X) ρ = s ^ d • qMass H R X ρ := by
  unfold qMass
  rw [← list_sum_smul]
  congr 1
  refine List.map_congr_left fun x _ => ?_
  rw [jdet_scaled, smul_smul]
  congr 1
  ring

theorem mass_density {R : QRule K d n} {X : Matrix (Fin n) (Fin d) K}
    {H : Shape K d n → Matrix (Fin d) (Fin n × Fin d) K} {ρ c : K} :
    qMass H R X (c * ρ) = c • qMass H R X ρ := by
  unfold qMass
  rw [← list_sum_smul]
  congr 1
  refine List.map_congr_left fun x _ => ?_
  rw [smul_smul, mul_assoc]

theorem stiff_young {R : QRule K d n} {X : Matrix (Fin n) (Fin d) K}
    {B : Shape K d n → Matrix (Fin q) (Fin n × Fin d) K} {C : Matrix (Fin q) (Fin q) K} {c : K} :
    qStiff B R X (c • C) = c • qStiff B R X C := by
  unfold qStiff
  rw [← list_sum_smul]
  congr 1
  refine List.map_congr_left fun x _ => ?_
  rw [Matrix.mul_smul, Matrix.smul_mul, smul_smul, smul_smul, mul_comm]

theorem stiff_scaled2 {R : QRule K 2 n} {X : Matrix (Fin n) (Fin 2) K} {C : Matrix (Fin 3) (Fin 3) K}
    {s : K} (hs : s ≠ 0) (ha : Acc R X) : stiff2 R (s • X) C = stiff2 R X C := by
  unfold stiff2 qStiff
  congr 1
  refine List.map_congr_left fun x hx => ?_
  dsimp only
  rw [jdet_scaled, grad_scaled (tol_pos.trans (ha x hx)).ne' hs, bMat2_smul, transpose_smul,
    Matrix.smul_mul, Matrix.smul_mul, Matrix.mul_smul, smul_smul, smul_smul]
  congr 1
  field_simp

theorem stiff_scaled3 {R : QRule K 3 n} {X : Matrix (Fin n) (Fin 3) K} {C : Matrix (Fin 6) (Fin 6) K}
    {s : K} (hs : s ≠ 0) (ha : Acc R X) : stiff3 R (s • X) C = s • stiff3 R X C := by
  unfold stiff3 qStiff
  rw [← list_sum_smul]
  congr 1
  refine List.map_congr_left fun x hx => ?_
  dsimp only
  rw [jdet_scaled, grad_scaled (tol_pos.trans (ha x hx)).ne' hs, bMat3_smul, transpose_smul,
    Matrix.smul_mul, Matrix.smul_mul, Matrix.mul_smul, smul_smul, smul_smul, smul_smul]
  congr 1
  field_simp

/-- Size: the stiffness of a plane element does not depend on it, the mass grows with the area. -/
theorem C46_plane_size {f : Uel K} (hf : PlaneElement n f) {X : Matrix (Fin n) (Fin 2) K}
    {params : List K} {k m k' m'} {s : K} (hs : s ≠ 0) (h : Returns f X params k m)
    (h' : Returns f (s • X) params k' m') : k' = k ∧ m' = s ^ 2 • m := by
  obtain ⟨R, hR⟩ := plane_rule hf
  obtain ⟨hg, st, hr⟩ := returns_plane hR
  obtain ⟨C, ρ, hm, ha, rfl, rfl⟩ := (hr _ _ _ _).1 h
  obtain ⟨C', ρ', hm', ha', rfl, rfl⟩ := (hr _ _ _ _).1 h'
  have hC := hm'.2.1
  rw [hm.2.1, Except.ok.injEq] at hC
  have hρ := hm'.2.2
  rw [hm.2.2, Except.ok.injEq] at hρ
  subst hC hρ
  exact ⟨stiff_scaled2 hs ha, mass_scaled⟩

/-- Magnifying an accepted plane element keeps it accepted. -/
theorem C46_plane_magnify {f : Uel K} (hf : PlaneElement n f) {X : Matrix (Fin n) (Fin 2) K}
    {params : List K} {k m} {s : K} (hs : 1 ≤ s) (h : Returns f X params k m) :
    Returns f (s • X) params k (s ^ 2 • m) := by
  obtain ⟨R, hR⟩ := plane_rule hf
  obtain ⟨hg, st, hr⟩ := returns_plane hR
  obtain ⟨C, ρ, hm, ha, rfl, rfl⟩ := (hr _ _ _ _).1 h
  refine (hr _ _ _ _).2 ⟨C, ρ, hm, ?_, (stiff_scaled2 (by linarith) ha).symm, mass_scaled.symm⟩
  intro x hx
  rw [jdet_scaled]
  have h1 := ha x hx
  have h2 : (1 : K) ≤ s ^ 2 := one_le_pow₀ hs
  have h3 := tol_pos.trans h1
  nlinarith

/-- Size of a solid element: stiffness grows with the length, mass with the volume. -/
theorem C46_solid_size {f : Uel K} (hf : SolidElement n f) {X : Matrix (Fin n) (Fin 3) K}
    {params : List K} {k m k' m'} {s : K} (hs : s ≠ 0) (h : Returns f X params k m)
    (h' : Returns f (s • X) params k' m') : k' = s • k ∧ m' = s ^ 3 • m := by
  obtain ⟨R, hR⟩ := solid_rule hf
  obtain ⟨hg, hr⟩ := returns_solid hR
  obtain ⟨C, ρ, hm, ha, rfl, rfl⟩ := (hr _ _ _ _).1 h
  obtain ⟨C', ρ', hm', ha', rfl, rfl⟩ := (hr _ _ _ _).1 h'
  have hC := hm'.2.1
  rw [hm.2.1, Except.ok.injEq] at hC
  have hρ := hm'.2.2
  rw [hm.2.2, Except.ok.injEq] at hρ
  subst hC hρ
  exact ⟨stiff_scaled3 hs ha, mass_scaled⟩

theorem umat_young {E nu c : K} {C} (h : umat [E, nu] = .ok C) : umat [c * E, nu] = .ok (c • C) := by
  obtain ⟨E', nu', h1, h2, rfl⟩ := umat_ok.1 h
  simp only [List.cons.injEq, and_true] at h1
  obtain ⟨rfl, rfl⟩ := h1
  refine umat_ok.2 ⟨_, _, rfl, h2, ?_⟩
  ext i j
  fin_cases i <;> fin_cases j <;> simp <;> ring

/-- Stiffness is proportional to Young's modulus; mass does not depend on it. -/
theorem C46_plane_young {f : Uel K} (hf : PlaneElement n f) {X : Matrix (Fin n) (Fin 2) K}
    {E nu : K} {rest : List K} {k m} (h : Returns f X (E :: nu :: rest) k m) (c : K) :
    Returns f X (c * E :: nu :: rest) (c • k) m := by
  obtain ⟨R, hR⟩ := plane_rule hf
  obtain ⟨hg, st, hr⟩ := returns_plane hR
  obtain ⟨C, ρ, hm, ha, rfl, rfl⟩ := (hr _ _ _ _).1 h
  obtain ⟨h0, h4, h5⟩ := mat2_cons.1 hm
  exact (hr _ _ _ _).2 ⟨c • C, ρ, mat2_cons.2 ⟨h0, umat_young h4, h5⟩, ha, stiff_young.symm, rfl⟩

/-- Mass is proportional to the density; stiffness does not depend on it. -/
theorem C46_plane_density {f : Uel K} (hf : PlaneElement n f) {X : Matrix (Fin n) (Fin 2) K}
    {E nu ρ : K} {k m} (h : Returns f X [E, nu, ρ] k m) (c : K) :
    Returns f X [E, nu, c * ρ] k (c • m) := by
  obtain ⟨R, hR⟩ := plane_rule hf
  obtain ⟨hg, st, hr⟩ := returns_plane hR
  obtain ⟨C, ρ, hm, ha, rfl, rfl⟩ := (hr _ _ _ _).1 h
  obtain ⟨h0, h4, rfl⟩ := mat2_cons.1 hm
  exact (hr _ _ _ _).2 ⟨C, _, mat2_cons.2 ⟨fun _ => rfl, h4, rfl⟩, ha, rfl, mass_density.symm⟩

/-- The stiffness of a plane element depends on its geometry, `E` and `nu` only. -/
theorem C46_plane_stiffness_ignores_density {f : Uel K} (hf : PlaneElement n f)
    {X : Matrix (Fin n) (Fin 2) K} {E nu : K} {rest rest' : List K} {k m k' m'}
    (h : Returns f X (E :: nu :: rest) k m) (h' : Returns f X (E :: nu :: rest') k' m') : k' = k := by
  obtain ⟨R, hR⟩ := plane_rule hf
  obtain ⟨hg, st, hr⟩ := returns_plane hR
  obtain ⟨C, ρ, hm, ha, rfl, rfl⟩ := (hr _ _ _ _).1 h
  obtain ⟨C', ρ', hm', ha', rfl, rfl⟩ := (hr _ _ _ _).1 h'
  have h1 := (mat2_cons.1 hm).2.1
  rw [(mat2_cons.1 hm').2.1, Except.ok.injEq] at h1
  rw [h1]

/-- Ten times the modulus, on the unit square. -/
example : ∃ k m, Returns elastQuad4 unitSquare [1, 1/4] k m ∧
    Returns elastQuad4 unitSquare [10 * 1, 1/4] ((10 : ℚ) • k) m ∧
    Returns elastQuad4 ((3 : ℚ) • unitSquare) [1, 1/4] k ((3 : ℚ) ^ 2 • m) := by
  obtain ⟨k, m, h⟩ := unitSquare_returns
  exact ⟨k, m, h, C46_plane_young .quad4 h 10, C46_plane_magnify .quad4 (by norm_num) h⟩

/-! ## C47 -/

/-- If the derivatives at one point are those at another point with the columns permuted, up to a
unimodular change of the local coordinates, so are the Jacobians and the Cartesian derivatives. -/
theorem jdet_renumber {sh sh' : Shape K d n} {P : Matrix (Fin d) (Fin d) K} (hP : P.det = 1)
    {σ : Fin n ≃ Fin n} (h : sh.2 = P * sh'.2.submatrix id σ) (X : Matrix (Fin n) (Fin d) K) :
    sh.2 * X.submatrix σ id = P * (sh'.2 * X) ∧ jdet sh (X.submatrix σ id) = jdet sh' X ∧
      grad sh.2 (X.submatrix σ id) = (grad sh'.2 X).submatrix id σ := by
  have h1 : sh.2 * X.submatrix σ id = P * (sh'.2 * X) := by
    rw [h, Matrix.mul_assoc, submatrix_mul_equiv]
    rfl
  have h2 : (sh.2 * X.submatrix σ id).det = (sh'.2 * X).det := by
    rw [h1, det_mul, hP, one_mul]
  refine ⟨h1, h2, ?_⟩
  have e : ∀ (D : Matrix (Fin d) (Fin n) K) (Y : Matrix (Fin n) (Fin d) K),
      grad D Y = (D * Y)⁻¹ * D := by
    intro D Y
    unfold grad
    rw [Matrix.inv_def, Ring.inverse_eq_inv']
  rw [e, e, h1, h, Matrix.mul_inv_rev, Matrix.mul_assoc, ← Matrix.mul_assoc P⁻¹,
    Matrix.nonsing_inv_mul _ (by rw [hP]; exact isUnit_one), Matrix.one_mul]
  rfl

/-- Renumbering of the nodes, on nodes and components. -/
def relabel (σ : Fin n ≃ Fin n) : Fin n × Fin d ≃ Fin n × Fin d := σ.prodCongr (Equiv.refl _)

theorem bMat2_relabel (g : Matrix (Fin 2) (Fin n) K) (σ : Fin n ≃ Fin n) :
    bMat2 (g.submatrix id σ) = (bMat2 g).submatrix id (relabel σ) := by
  ext i ⟨a, j⟩
  fin_cases i <;> fin_cases j <;> rfl

theorem hMat2_relabel (N : Fin n → K) (σ : Fin n ≃ Fin n) :
    hMat2 (fun a => N (σ a)) = (hMat2 N).submatrix id (relabel σ) := by
  ext i ⟨a, j⟩
  fin_cases i <;> fin_cases j <;> rfl

/-- The derivatives at one point of a rule are those at another with the nodes renumbered. -/
def DRel (σ : Fin n ≃ Fin n) (x x' : Shape K 2 n × K) : Prop :=
  ∃ P : Matrix (Fin 2) (Fin 2) K, P.det = 1 ∧ x.1.2 = P * x'.1.2.submatrix id σ

/-- As `DRel`, with the weights. -/
def WRel (σ : Fin n ≃ Fin n) (x x' : Shape K 2 n × K) : Prop := x.2 = x'.2 ∧ DRel σ x x'

/-- As `WRel`, with the shape functions. -/
def NRel (σ : Fin n ≃ Fin n) (x x' : Shape K 2 n × K) : Prop :=
  (x.1.1 = fun a => x'.1.1 (σ a)) ∧ WRel σ x x'

/-- The rule evaluated at moved points, with renumbered nodes. -/
theorem stiff_renumber {R R' : QRule K 2 n} {σ : Fin n ≃ Fin n} {X : Matrix (Fin n) (Fin 2) K} {C}
    (h : List.Forall₂ (WRel σ) R R') :
    stiff2 R (X.submatrix σ id) C = (stiff2 R' X C).submatrix (relabel σ) (relabel σ) := by
  induction h with
  | nil => rfl
  | @cons x x' R R' hx _ ih =>
    obtain ⟨hw, P, hP, hD⟩ := hx
    obtain ⟨_, h2, h3⟩ := jdet_renumber hP hD X
    unfold stiff2 at *
    rw [qStiff_cons, qStiff_cons, ih, h2, h3, bMat2_relabel, hw]
    rfl

theorem mass_renumber {R R' : QRule K 2 n} {σ : Fin n ≃ Fin n} {X : Matrix (Fin n) (Fin 2) K} {ρ : K}
    (h : List.Forall₂ (NRel σ) R R') :
    mass2 R (X.submatrix σ id) ρ = (mass2 R' X ρ).submatrix (relabel σ) (relabel σ) := by
  induction h with
  | nil => rfl
  | @cons x x' R R' hx _ ih =>
    obtain ⟨hN, hw, P, hP, hD⟩ := hx
    obtain ⟨_, h2, _⟩ := jdet_renumber hP hD X
    unfold mass2 at *
    rw [qMass_cons, qMass_cons, ih, h2, hN, hMat2_relabel, hw]
    rfl

theorem acc_renumber {R R' : QRule K 2 n} {σ : Fin n ≃ Fin n} {X : Matrix (Fin n) (Fin 2) K}
    (h : List.Forall₂ (DRel σ) R R') : Acc R (X.submatrix σ id) ↔ Acc R' X := by
  induction h with
  | nil => simp [Acc]
  | @cons x x' R R' hx _ ih =>
    obtain ⟨P, hP, hD⟩ := hx
    obtain ⟨_, h2, _⟩ := jdet_renumber hP hD X
    unfold Acc at *
    rw [List.forall_mem_cons, List.forall_mem_cons, ih, h2]

theorem stiff_perm {R R' : QRule K 2 n} (h : R.Perm R') (X : Matrix (Fin n) (Fin 2) K) (C) :
    stiff2 R X C = stiff2 R' X C := (h.map _).sum_eq

theorem mass_perm {R R' : QRule K 2 n} (h : R.Perm R') (X : Matrix (Fin n) (Fin 2) K) (ρ : K) :
    mass2 R X ρ = mass2 R' X ρ := (h.map _).sum_eq

/-- A quarter turn of the reference square. -/
def quarterP : Matrix (Fin 2) (Fin 2) K := !![0, 1; -1, 0]

theorem quarterP_det : (quarterP (K := K)).det = 1 := by
  simp [quarterP, Matrix.det_fin_two]

/-- Shape routines on the square which a quarter turn permutes. -/
def Turns (f : K → K → Shape K 2 n) (σ : Fin n ≃ Fin n) : Prop :=
  ∀ r s, (f r s).1 = (fun a => (f (-s) r).1 (σ a)) ∧
    (f r s).2 = quarterP * (f (-s) r).2.submatrix id σ

/-- The rule evaluated at the turned points. -/
def turnedRule (f : K → K → Shape K 2 n) (pts wts : List ℚ) : QRule K 2 n :=
  ((prodRepeat pts 2).zip ((prodRepeat wts 2).map List.prod)).map
    fun x => (f (-((x.1.getD 1 0 : ℚ) : K)) (x.1.getD 0 0 : ℚ), (x.2 : K))

theorem turned_forall {f : K → K → Shape K 2 n} {σ : Fin n ≃ Fin n} (hf : Turns f σ) (pts wts : List ℚ) :
    List.Forall₂ (NRel σ) (ruleQuad f pts wts) (turnedRule f pts wts) := by
  unfold ruleQuad turnedRule
  generalize (prodRepeat pts 2).zip ((prodRepeat wts 2).map List.prod) = l
  induction l with
  | nil => exact .nil
  | cons x l ih =>
    exact .cons ⟨(hf _ _).1, rfl, quarterP, quarterP_det, (hf _ _).2⟩ ih

/-- Cyclic renumbering of a quadrilateral routine whose shape functions a quarter turn permutes. -/
theorem renumber_quad {f : Uel K} {sh : K → K → Shape K 2 n} {pts wts : List ℚ} {σ : Fin n ≃ Fin n}
    (hR : PlaneRule n f (ruleQuad sh pts wts)) (hf : Turns sh σ)
    (hp : (turnedRule sh pts wts).Perm (ruleQuad sh pts wts)) {X : Matrix (Fin n) (Fin 2) K}
    {params : List K} {k m} (h : Returns f X params k m) :
    Returns f (X.submatrix σ id) params (k.submatrix (relabel σ) (relabel σ))
      (m.submatrix (relabel σ) (relabel σ)) := by
  obtain ⟨hg, st, hr⟩ := returns_plane hR
  obtain ⟨C, ρ, hm, ha, rfl, rfl⟩ := (hr _ _ _ _).1 h
  have hF := turned_forall hf pts wts
  refine (hr _ _ _ _).2 ⟨C, ρ, hm, ?_, ?_, ?_⟩
  · rw [acc_renumber (hF.imp fun _ _ hx => hx.2.2)]
    exact fun x hx => ha x (hp.subset hx)
  · rw [stiff_renumber (hF.imp fun _ _ hx => hx.2), stiff_perm hp]
  · rw [mass_renumber hF, mass_perm hp]

/-- The permutation of the nodes of a four node element by a quarter turn. -/
def cyc4 : Fin 4 ≃ Fin 4 where
  toFun := ![1, 2, 3, 0]
  invFun := ![3, 0, 1, 2]
  left_inv := by decide
  right_inv := by decide

/-- The permutation of the nodes of an eight node element by a quarter turn. -/
def cyc8 : Fin 8 ≃ Fin 8 where
  toFun := ![1, 2, 3, 0, 5, 6, 7, 4]
  invFun := ![3, 0, 1, 2, 7, 4, 5, 6]
  left_inv := by decide
  right_inv := by decide

/-- The permutation of the nodes of a nine node element by a quarter turn. -/
def cyc9 : Fin 9 ≃ Fin 9 where
  toFun := ![1, 2, 3, 0, 5, 6, 7, 4, 8]
  invFun := ![3, 0, 1, 2, 7, 4, 5, 6, 8]
  left_inv := by decide
  right_inv := by decide

theorem quarterP_mul (M : Matrix (Fin 2) (Fin n) K) (σ : Fin n ≃ Fin n) (a : Fin n) :
    ((quarterP : Matrix (Fin 2) (Fin 2) K) * M.submatrix id σ) 0 a = M 1 (σ a) ∧
      ((quarterP : Matrix (Fin 2) (Fin 2) K) * M.submatrix id σ) 1 a = - M 0 (σ a) := by
  simp [quarterP, Matrix.mul_apply]

theorem turns_quad4 : Turns (shapeQuad4 (K := K)) cyc4 := by
  intro r s
  constructor
  · funext a
    fin_cases a <;> simp [shapeQuad4, cyc4, lit_quarter, lit_half, lit_one, lit_two] <;>
      first | done | ring1 | (left; ring1) | (left; left; ring1)
  · ext i a
    fin_cases i
    · refine Eq.trans ?_ (quarterP_mul _ _ _).1.symm
      fin_cases a <;> simp [shapeQuad4, cyc4, lit_quarter, lit_half, lit_one, lit_two] <;>
        first | done | ring1 | (left; ring1) | (left; left; ring1)
    · refine Eq.trans ?_ (quarterP_mul _ _ _).2.symm
      fin_cases a <;> simp [shapeQuad4, cyc4, lit_quarter, lit_half, lit_one, lit_two] <;>
        first | done | ring1 | (left; ring1) | (left; left; ring1)

theorem turns_quad8 : Turns (shapeQuad8 (K := K)) cyc8 := by
  intro r s
  constructor
  · funext a
    fin_cases a <;> simp [shapeQuad8, cyc8, lit_quarter, lit_half, lit_one, lit_two] <;>
      first | done | ring1 | (left; ring1) | (left; left; ring1)
  · ext i a
    fin_cases i
    · refine Eq.trans ?_ (quarterP_mul _ _ _).1.symm
      fin_cases a <;> simp [shapeQuad8, cyc8, lit_quarter, lit_half, lit_one, lit_two] <;>
        first | done | ring1 | (left; ring1) | (left; left; ring1)
    · refine Eq.trans ?_ (quarterP_mul _ _ _).2.symm
      fin_cases a <;> simp [shapeQuad8, cyc8, lit_quarter, lit_half, lit_one, lit_two] <;>
        first | done | ring1 | (left; ring1) | (left; left; ring1)

theorem turns_quad9 : Turns (shapeQuad9 (K := K)) cyc9 := by
  intro r s
  constructor
  · funext a
    fin_cases a <;> simp [shapeQuad9, cyc9, lit_quarter, lit_half, lit_one, lit_two] <;>
      first | done | ring1 | (left; ring1) | (left; left; ring1)
  · ext i a
    fin_cases i
    · refine Eq.trans ?_ (quarterP_mul _ _ _).1.symm
      fin_cases a <;> simp [shapeQuad9, cyc9, lit_quarter, lit_half, lit_one, lit_two] <;>
        first | done | ring1 | (left; ring1) | (left; left; ring1)
    · refine Eq.trans ?_ (quarterP_mul _ _ _).2.symm
      fin_cases a <;> simp [shapeQuad9, cyc9, lit_quarter, lit_half, lit_one, lit_two] <;>
        first | done | ring1 | (left; ring1) | (left; left; ring1)

theorem perm2 (sh : K → K → Shape K 2 n) :
    (turnedRule sh pts1d2 wts1d2).Perm (ruleQuad sh pts1d2 wts1d2) := by
  obtain ⟨g, hg⟩ : ∃ g : ℚ, pts1d2 = [-g, g] := ⟨_, rfl⟩
  obtain ⟨w, hw⟩ : ∃ w : ℚ, wts1d2 = [w, w] := ⟨_, rfl⟩
  rw [hg, hw]
  let F : Fin 4 → Shape K 2 n × K := ![(sh (-(g : K)) (-(g : K)), (w : K) * w),
    (sh (-(g : K)) g, (w : K) * w), (sh g (-(g : K)), (w : K) * w), (sh g g, (w : K) * w)]
  have h1 : turnedRule sh [-g, g] [w, w] = [2, 0, 3, 1].map F := by
    simp [turnedRule, prodRepeat, F]
  have h2 : ruleQuad sh [-g, g] [w, w] = [0, 1, 2, 3].map F := by
    simp [ruleQuad, at2, prodRepeat, F]
  rw [h1, h2]
  exact List.Perm.map F (by decide)

theorem perm3 (sh : K → K → Shape K 2 n) :
    (turnedRule sh pts1d3 wts1d3).Perm (ruleQuad sh pts1d3 wts1d3) := by
  obtain ⟨g, hg⟩ : ∃ g : ℚ, pts1d3 = [-g, 0, g] := ⟨_, rfl⟩
  obtain ⟨w, v, hw⟩ : ∃ w v : ℚ, wts1d3 = [w, v, w] := ⟨_, _, rfl⟩
  rw [hg, hw]
  let F : Fin 9 → Shape K 2 n × K := ![(sh (-(g : K)) (-(g : K)), (w : K) * w),
    (sh (-(g : K)) 0, (w : K) * v), (sh (-(g : K)) g, (w : K) * w),
    (sh 0 (-(g : K)), (v : K) * w), (sh 0 0, (v : K) * v), (sh 0 g, (v : K) * w),
    (sh g (-(g : K)), (w : K) * w), (sh g 0, (w : K) * v), (sh g g, (w : K) * w)]
  have h1 : turnedRule sh [-g, 0, g] [w, v, w] = [6, 3, 0, 7, 4, 1, 8, 5, 2].map F := by
    simp [turnedRule, prodRepeat, F, mul_comm]
  have h2 : ruleQuad sh [-g, 0, g] [w, v, w] = [0, 1, 2, 3, 4, 5, 6, 7, 8].map F := by
    simp [ruleQuad, at2, prodRepeat, F]
  rw [h1, h2]
  exact List.Perm.map F (by decide)

/-- C47.  Starting the list of nodes of a quadrilateral at the next corner permutes the matrices. -/
theorem C47_quad4 {X : Matrix (Fin 4) (Fin 2) K} {params : List K} {k m}
    (h : Returns elastQuad4 X params k m) :
    Returns elastQuad4 (fun a => X (cyc4 a)) params (fun p q => k (cyc4 p.1, p.2) (cyc4 q.1, q.2))
      (fun p q => m (cyc4 p.1, p.2) (cyc4 q.1, q.2)) :=
  renumber_quad .quad4 turns_quad4 (perm2 _) h

theorem C47_quad8 {X : Matrix (Fin 8) (Fin 2) K} {params : List K} {k m}
    (h : Returns elastQuad8 X params k m) :
    Returns elastQuad8 (fun a => X (cyc8 a)) params (fun p q => k (cyc8 p.1, p.2) (cyc8 q.1, q.2))
      (fun p q => m (cyc8 p.1, p.2) (cyc8 q.1, q.2)) :=
  renumber_quad .quad8 turns_quad8 (perm3 _) h

theorem C47_quad9 {X : Matrix (Fin 9) (Fin 2) K} {params : List K} {k m}
    (h : Returns elastQuad9 X params k m) :
    Returns elastQuad9 (fun a => X (cyc9 a)) params (fun p q => k (cyc9 p.1, p.2) (cyc9 q.1, q.2))
      (fun p q => m (cyc9 p.1, p.2) (cyc9 q.1, q.2)) :=
  renumber_quad .quad9 turns_quad9 (perm3 _) h

/-- The permutation of the nodes of a triangle. -/
def cyc3 : Fin 3 ≃ Fin 3 where
  toFun := ![1, 2, 0]
  invFun := ![2, 0, 1]
  left_inv := by decide
  right_inv := by decide

theorem turns_tri3 (r s r' s' : K) :
    (shapeTri3 r s).2 = (!![-1, 1; -1, 0] : Matrix (Fin 2) (Fin 2) K) * (shapeTri3 r' s').2.submatrix id cyc3 := by
  ext i a
  fin_cases i <;> fin_cases a <;> simp [shapeTri3, cyc3, Matrix.mul_apply]

/-- For the three node triangle the stiffness is permuted exactly. -/
theorem C47_tri3_stiffness {X : Matrix (Fin 3) (Fin 2) K} {params : List K} {k m}
    (h : Returns elastTri3 X params k m) :
    ∃ m', Returns elastTri3 (fun a => X (cyc3 a)) params
      (fun p q => k (cyc3 p.1, p.2) (cyc3 q.1, q.2)) m' := by
  obtain ⟨hg, st, hr⟩ := returns_plane (K := K) .tri3
  obtain ⟨C, ρ, hm, ha, rfl, rfl⟩ := (hr _ _ _ _).1 h
  have hF : List.Forall₂ (WRel cyc3) (ruleTri3 (K := K)) ruleTri3 := by
    rw [List.forall₂_same]
    intro x hx
    unfold ruleTri3 at hx
    obtain ⟨y, _, rfl⟩ := List.mem_map.1 hx
    exact ⟨rfl, _, by simp [Matrix.det_fin_two], turns_tri3 _ _ _ _⟩
  exact ⟨_, (hr _ _ _ _).2 ⟨C, ρ, hm, (acc_renumber (hF.imp fun _ _ hx => hx.2)).2 ha,
    (stiff_renumber hF).symm, rfl⟩⟩

example : ∃ k m, Returns elastQuad4 unitSquare [1, 1/4] k m ∧
    Returns elastQuad4 (fun a => unitSquare (cyc4 a)) [1, 1/4]
      (fun p q => k (cyc4 p.1, p.2) (cyc4 q.1, q.2)) (fun p q => m (cyc4 p.1, p.2) (cyc4 q.1, q.2)) := by
  obtain ⟨k, m, h⟩ := unitSquare_returns
  exact ⟨k, m, h, C47_quad4 h⟩

/-! ## C48 -/

/-- Twice the signed area of a triangle. -/
def area2 (X : Matrix (Fin 3) (Fin 2) K) : K :=
  (X 1 0 - X 0 0) * (X 2 1 - X 0 1) - (X 2 0 - X 0 0) * (X 1 1 - X 0 1)

/-- The strain matrix of the constant strain triangle. -/
def cstB (X : Matrix (Fin 3) (Fin 2) K) : Matrix (Fin 3) (Fin 6) K :=
  (area2 X)⁻¹ • !![X 1 1 - X 2 1, 0, X 2 1 - X 0 1, 0, X 0 1 - X 1 1, 0;
    0, X 2 0 - X 1 0, 0, X 0 0 - X 2 0, 0, X 1 0 - X 0 0;
    X 2 0 - X 1 0, X 1 1 - X 2 1, X 0 0 - X 2 0, X 2 1 - X 0 1, X 1 0 - X 0 0, X 0 1 - X 1 1]

/-- The position of (node, component) among the six degrees of freedom. -/
def dof6 (p : Fin 3 × Fin 2) : Fin 6 := ⟨2 * p.1 + p.2, by omega⟩

theorem tri3_jdet (r s : K) (X : Matrix (Fin 3) (Fin 2) K) : jdet (shapeTri3 r s) X = area2 X := by
  unfold jdet area2
  rw [Matrix.det_fin_two]
  simp only [Matrix.mul_apply, Fin.sum_univ_three]
  simp [shapeTri3]
  ring

/-- Renumbering a triangle clockwise makes the routine raise: the determinant changes sign. -/
theorem C47_tri3_reversed {X : Matrix (Fin 3) (Fin 2) K} {params : List K} {k m}
    (h : Returns elastTri3 X params k m) (params' : List K) (k' m') :
    ¬ Returns elastTri3 (Matrix.of fun a => X (Equiv.swap 1 2 a)) params' k' m' := by
  obtain ⟨hg, st, hr⟩ := returns_plane (K := K) .tri3
  obtain ⟨C, ρ, hm, ha, rfl, rfl⟩ := (hr _ _ _ _).1 h
  intro h'
  obtain ⟨C', ρ', hm', ha', rfl, rfl⟩ := (hr _ _ _ _).1 h'
  obtain ⟨x, hx⟩ := List.exists_mem_of_ne_nil _ hg.ne
  have h1 := ha x hx
  have h2 := ha' x hx
  unfold ruleTri3 at hx
  obtain ⟨y, _, rfl⟩ := List.mem_map.1 hx
  dsimp only at h1 h2
  rw [tri3_jdet] at h1 h2
  have e0 : Equiv.swap (1 : Fin 3) 2 0 = 0 := by decide
  have h3 : area2 (Matrix.of fun a => X (Equiv.swap 1 2 a)) = - area2 X := by
    simp only [area2, Matrix.of_apply, e0, Equiv.swap_apply_left, Equiv.swap_apply_right]
    ring
  rw [h3] at h2
  have := tol_pos (K := K)
  linarith

theorem tri3_bMat (r s : K) (X : Matrix (Fin 3) (Fin 2) K) :
    bMat2 (grad (shapeTri3 r s).2 X) = (cstB X).submatrix id dof6 := by
  have hd : ((shapeTri3 r s).2 * X).det = area2 X := tri3_jdet r s X
  have hJ : (shapeTri3 r s).2 * X = !![X 1 0 - X 0 0, X 1 1 - X 0 1; X 2 0 - X 0 0, X 2 1 - X 0 1] := by
    ext i j
    rw [Matrix.mul_apply, Fin.sum_univ_three]
    fin_cases i <;> fin_cases j <;> simp [shapeTri3] <;> ring
  unfold grad
  rw [hd, hJ, Matrix.adjugate_fin_two_of]
  ext i ⟨a, j⟩
  fin_cases i <;> fin_cases j <;> fin_cases a <;>
    simp [bMat2, cstB, dof6, Matrix.mul_apply, Fin.sum_univ_two, shapeTri3] <;>
    first | done | ring1 | (left; ring1)

/-- C48.  The routine accepts a triangle exactly when twice its signed area exceeds `1e-8` (and
`nu^2 ≠ 1`). -/
theorem C48_accepts_iff (X : Matrix (Fin 3) (Fin 2) K) (E nu : K) (rest : List K) :
    (∃ k m, Returns elastTri3 X (E :: nu :: rest) k m) ↔ 1 - nu ^ 2 ≠ 0 ∧ 1e-8 < area2 X := by
  have hr := returns_plane_lax (K := K) .tri3 (by norm_num)
  have hacc : Acc ruleTri3 X ↔ 1e-8 < area2 X := by
    constructor
    · intro ha
      obtain ⟨x, hx⟩ := List.exists_mem_of_ne_nil _ (good_tri3 (K := K)).ne
      have := ha x hx
      obtain ⟨y, _, rfl⟩ := List.mem_map.1 hx
      rwa [tri3_jdet] at this
    · intro h x hx
      obtain ⟨y, _, rfl⟩ := List.mem_map.1 hx
      rw [tri3_jdet]
      exact h
  constructor
  · rintro ⟨k, m, h⟩
    obtain ⟨C, ρ, hm, ha, -, -⟩ := (hr _ _ _ _).1 h
    obtain ⟨_, _, h1, h2, -⟩ := umat_ok.1 (mat2_cons.1 hm).2.1
    simp only [List.cons.injEq] at h1
    obtain ⟨rfl, rfl, -⟩ := h1
    exact ⟨h2, hacc.1 ha⟩
  · rintro ⟨h1, h2⟩
    exact ⟨_, _, (hr _ _ _ _).2 ⟨_, _, mat2_cons.2 ⟨fun h => by simp at h, umat_ok.2 ⟨E, nu, rfl, h1, rfl⟩, rfl⟩,
      hacc.2 h2, rfl, rfl⟩⟩

/-- C48.  The stiffness of the triangle is that of the constant strain triangle, times
`0.999999999999`. -/
theorem C48_closed_form {X : Matrix (Fin 3) (Fin 2) K} {E nu : K} {rest : List K} {k m}
    (h : Returns elastTri3 X (E :: nu :: rest) k m) {C} (hC : umat [E, nu] = .ok C) (p q) :
    k p q = 999999999999 / 1000000000000 * (area2 X / 2) *
      ((cstB X).transpose * C * cstB X) (dof6 p) (dof6 q) := by
  obtain ⟨C', ρ, hm, ha, rfl, rfl⟩ := (returns_plane_lax (K := K) .tri3 (by norm_num) _ _ _ _).1 h
  obtain ⟨_, h4, h5⟩ := mat2_cons.1 hm
  rw [hC, Except.ok.injEq] at h4
  subst h4
  have hterm : ∀ x ∈ ruleTri3 (K := K), (x.2 * jdet x.1 X) •
      ((bMat2 (grad x.1.2 X)).transpose * C * bMat2 (grad x.1.2 X)) = (x.2 * jdet x.1 X) •
        (((cstB X).transpose * C * cstB X).submatrix dof6 dof6) := by
    intro x hx
    obtain ⟨y, _, rfl⟩ := List.mem_map.1 hx
    rw [tri3_bMat]
    rfl
  have hsum : ∀ (R : QRule K 2 3) (M : Matrix (Fin 3 × Fin 2) (Fin 3 × Fin 2) K),
      (R.map fun x => (x.2 * jdet x.1 X) • M).sum = extent R X • M := by
    intro R M
    induction R with
    | nil => simp [extent]
    | cons x R ih =>
      rw [List.map_cons, List.sum_cons, ih]
      simp only [extent, List.map_cons, List.sum_cons, jdet, add_smul]
  have : stiff2 ruleTri3 X C = extent ruleTri3 X •
      (((cstB X).transpose * C * cstB X).submatrix dof6 dof6) := by
    rw [← hsum]
    exact congrArg List.sum (List.map_congr_left hterm)
  rw [this, C43_tri3_area]
  rfl

example : ∃ k m, Returns elastTri3 (!![0, 0; 1, 0; 0, 1] : Matrix (Fin 3) (Fin 2) ℚ) [1, 1/4] k m ∧
    k (0, 0) (0, 0) = 999999999999 / 1000000000000 * (11 / 15) := by
  obtain ⟨k, m, h⟩ := (C48_accepts_iff (!![0, 0; 1, 0; 0, 1] : Matrix (Fin 3) (Fin 2) ℚ) 1 (1/4) []).2
    (by simp [area2]; norm_num)
  refine ⟨k, m, h, ?_⟩
  rw [C48_closed_form h (umat_ok.2 ⟨1, 1/4, rfl, by norm_num, rfl⟩)]
  have e : dof6 (0, 0) = 0 := rfl
  rw [e]
  simp [area2, cstB, Matrix.mul_apply, Fin.sum_univ_three]
  norm_num

/-! ## C49 -/

/-- Fewer than two parameters: `ValueError`, whatever the coordinates. -/
theorem C49_too_few {f : Uel K} (hf : PlaneElement n f) (coord : Table K) {params : List K}
    (h : params.length < 2) : f coord params = .error .valueError := by
  have key : ∀ {n : ℕ} (body : Matrix (Fin n) (Fin 2) K → Matrix (Fin 3) (Fin 3) K → K →
      Py (Matrix (Fin n × Fin 2) (Fin n × Fin 2) K × Matrix (Fin n × Fin 2) (Fin n × Fin 2) K)),
      planeUel body coord params = .error .valueError := by
    intro n body
    match params, h with
    | [], _ => rfl
    | [_], _ => rfl
  cases hf
  · exact key _
  · exact key _
  · exact key _
  · exact key _
  · match params, h with
    | [], _ => rfl
    | [_], _ => rfl

theorem planeUel_density {body : Matrix (Fin n) (Fin 2) K → Matrix (Fin 3) (Fin 3) K → K →
      Py (Matrix (Fin n × Fin 2) (Fin n × Fin 2) K × Matrix (Fin n × Fin 2) (Fin n × Fin 2) K)}
    (coord : Table K) (E nu : K) {rest rest' : List K} (h : density rest = density rest') :
    planeUel body coord (E :: nu :: rest) = planeUel body coord (E :: nu :: rest') := by
  unfold planeUel
  rw [densOf_eq, densOf_eq, h]
  rfl

theorem plane_density {f : Uel K} (hf : PlaneElement n f) (hn : n ≠ 8)
    (coord : Table K) (E nu : K) {rest rest' : List K} (h : density rest = density rest') :
    f coord (E :: nu :: rest) = f coord (E :: nu :: rest') := by
  cases hf
  · exact planeUel_density _ _ _ h
  · exact planeUel_density _ _ _ h
  · exact planeUel_density _ _ _ h
  · exact planeUel_density _ _ _ h
  · exact absurd rfl hn

/-- The plane routines other than `elast_quad8` use density one when given two parameters. -/
theorem C49_two_parameters {f : Uel K} (hf : PlaneElement n f) (hn : n ≠ 8)
    (coord : Table K) (E nu : K) : f coord [E, nu] = f coord [E, nu, 1] :=
  plane_density hf hn _ _ _ (by simp [density])

/-- They use the last parameter as density when given more, and ignore those between. -/
theorem C49_last_parameter {f : Uel K} (hf : PlaneElement n f) (hn : n ≠ 8)
    (coord : Table K) (E nu ρ : K) (between : List K) :
    f coord (E :: nu :: (between ++ [ρ])) = f coord [E, nu, ρ] :=
  plane_density hf hn _ _ _ (by simp [density])

/-- The third parameter is the density: the mass of a unit translation is density times the area of
the rule. -/
theorem C49_third_is_density {f : Uel K} {R : QRule K 2 n} (hf : PlaneRule n f R)
    {X : Matrix (Fin n) (Fin 2) K} {E nu ρ : K} {k m} (h : Returns f X [E, nu, ρ] k m) (i : Fin 2) :
    (∑ a, ∑ b, m (a, i) (b, i)) = ρ * extent R X := by
  rw [C43_plane_mass hf h, if_pos rfl]
  rfl

/-- `elast_quad8`, `elast_axi_quad9`, `elast_tet4` and `elast_hex8` need exactly three parameters. -/
theorem C49_exactly_three {f : Uel K} (hf : f = elastQuad8 ∨ f = elastAxiQuad9 ∨ f = elastTet4 ∨ f = elastHex8)
    (coord : Table K) {params : List K} (h : params.length ≠ 3) : f coord params = .error .valueError := by
  have key : ∀ {n d q : ℕ} (mat : List K → Py (Matrix (Fin q) (Fin q) K))
      (body : Matrix (Fin n) (Fin d) K → Matrix (Fin q) (Fin q) K → K →
      Py (Matrix (Fin n × Fin d) (Fin n × Fin d) K × Matrix (Fin n × Fin d) (Fin n × Fin d) K)),
      strictUel mat body coord params = .error .valueError := by
    intro n d q mat body
    unfold strictUel
    split
    · simp at h
    · rfl
  rcases hf with rfl | rfl | rfl | rfl <;> exact key _ _

/-- A quadrilateral with a thickness between Poisson's ratio and the density. -/
example : ∃ r, elastQuad4 (matRows unitSquare) [1, 1/4, 5, 7] = .ok r ∧
    elastQuad4 (matRows unitSquare) [1, 1/4, 7] = .ok r := by
  obtain ⟨r, hr⟩ := isOk_exists (x := elastQuad4 (matRows unitSquare) [1, 1/4, 7]) (by decide +kernel)
  exact ⟨r, (C49_last_parameter .quad4 (by norm_num) _ 1 (1/4) 7 [5]).trans hr, hr⟩

end

end SolidsPy
