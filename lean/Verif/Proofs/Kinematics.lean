import Verif.Props.Shapes
import Verif.Spec.Element
import Verif.Proofs.Py
import Mathlib.LinearAlgebra.Matrix.Adjugate
import Mathlib.Algebra.BigOperators.Field
import Mathlib.Tactic.Linarith
import Mathlib.Tactic.Positivity

/-! # Lemmas about `jacoper` and the strain-displacement arrays -/

set_option linter.unusedSectionVars false

namespace SolidsPy
open Spec Fem

section
variable {K : Type} [Field K] [LinearOrder K] [IsStrictOrderedRing K] {d n : ℕ}

/-- Cartesian derivatives of the shape functions. -/
def grad (D : Matrix (Fin d) (Fin n) K) (X : Matrix (Fin n) (Fin d) K) : Matrix (Fin d) (Fin n) K :=
  ((D * X).det⁻¹ • (D * X).adjugate) * D

theorem isclose_zero {x : K} : isclose |x| 0 = true ↔ |x| ≤ 1e-8 := by
  unfold isclose
  rw [decide_eq_true_eq, sub_zero, abs_abs, abs_zero, mul_zero, add_zero]

theorem tol_pos : (0 : K) < 1e-8 := by norm_num

theorem jacoper_of_gt {D : Matrix (Fin d) (Fin n) K} {X : Matrix (Fin n) (Fin d) K}
    (h : 1e-8 < (D * X).det) :
    jacoper D X = .ok ((D * X).det, (D * X).det⁻¹ • (D * X).adjugate) := by
  have h0 : (0 : K) < (D * X).det := tol_pos.trans h
  unfold jacoper
  dsimp only
  rw [if_neg, if_neg (not_lt.2 h0.le)]
  rw [isclose_zero, abs_of_pos h0, not_le]
  exact h

theorem jacoper_of_le {D : Matrix (Fin d) (Fin n) K} {X : Matrix (Fin n) (Fin d) K}
    (h : (D * X).det ≤ 1e-8) : jacoper D X = .error .valueError := by
  unfold jacoper
  dsimp only
  split_ifs with h1 h2
  · rfl
  · rfl
  · exfalso
    rw [isclose_zero, abs_of_nonneg (not_lt.1 h2)] at h1
    exact h1 h

theorem jacoper_ok {D : Matrix (Fin d) (Fin n) K} {X : Matrix (Fin n) (Fin d) K} {r} :
    jacoper D X = .ok r ↔
      1e-8 < (D * X).det ∧ r = ((D * X).det, (D * X).det⁻¹ • (D * X).adjugate) := by
  rcases lt_or_ge (1e-8) (D * X).det with h | h
  · rw [jacoper_of_gt h, Except.ok.injEq]
    exact ⟨fun e => ⟨h, e.symm⟩, fun e => e.2.symm⟩
  · rw [jacoper_of_le h]
    exact ⟨fun e => (by cases e), fun e => absurd e.1 (not_lt.2 h)⟩

theorem diff2d_ok {sh : Shape K 2 n} {X : Matrix (Fin n) (Fin 2) K} {r} :
    elastDiff2d sh X = .ok r ↔
      1e-8 < (sh.2 * X).det ∧ r = (hMat2 sh.1, bMat2 (grad sh.2 X), (sh.2 * X).det) := by
  unfold elastDiff2d grad
  rcases lt_or_ge (1e-8) (sh.2 * X).det with h | h
  · rw [jacoper_of_gt h]
    simp only [ok_bind, pure_ok]
    exact ⟨fun e => ⟨h, e.symm⟩, fun e => e.2.symm⟩
  · rw [jacoper_of_le h]
    exact ⟨fun e => (by cases e), fun e => absurd e.1 (not_lt.2 h)⟩

theorem diff2d_error {sh : Shape K 2 n} {X : Matrix (Fin n) (Fin 2) K} (h : (sh.2 * X).det ≤ 1e-8) :
    elastDiff2d sh X = .error .valueError := by
  unfold elastDiff2d
  rw [jacoper_of_le h]
  rfl

theorem diff3d_ok {sh : Shape K 3 n} {X : Matrix (Fin n) (Fin 3) K} {r} :
    elastDiff3d sh X = .ok r ↔
      1e-8 < (sh.2 * X).det ∧ r = (hMat3 sh.1, bMat3 (grad sh.2 X), (sh.2 * X).det) := by
  unfold elastDiff3d grad
  rcases lt_or_ge (1e-8) (sh.2 * X).det with h | h
  · rw [jacoper_of_gt h]
    simp only [ok_bind, pure_ok]
    exact ⟨fun e => ⟨h, e.symm⟩, fun e => e.2.symm⟩
  · rw [jacoper_of_le h]
    exact ⟨fun e => (by cases e), fun e => absurd e.1 (not_lt.2 h)⟩

theorem diff3d_error {sh : Shape K 3 n} {X : Matrix (Fin n) (Fin 3) K} (h : (sh.2 * X).det ≤ 1e-8) :
    elastDiff3d sh X = .error .valueError := by
  unfold elastDiff3d
  rw [jacoper_of_le h]
  rfl

/-- The derivatives of the coordinates are the identity. -/
theorem grad_mul_coord {D : Matrix (Fin d) (Fin n) K} {X : Matrix (Fin n) (Fin d) K}
    (h : (D * X).det ≠ 0) : grad D X * X = 1 := by
  unfold grad
  rw [Matrix.mul_assoc, Matrix.smul_mul, Matrix.adjugate_mul, smul_smul, inv_mul_cancel₀ h, one_smul]

/-- The derivatives of constants vanish. -/
theorem grad_sum {D : Matrix (Fin d) (Fin n) K} (X : Matrix (Fin n) (Fin d) K)
    (h : ∀ i, ∑ a, D i a = 0) (i : Fin d) : ∑ a, grad D X i a = 0 := by
  unfold grad
  simp only [Matrix.mul_apply]
  rw [Finset.sum_comm]
  refine Finset.sum_eq_zero fun k _ => ?_
  rw [← Finset.mul_sum, h, mul_zero]

theorem grad_coord {D : Matrix (Fin d) (Fin n) K} {X : Matrix (Fin n) (Fin d) K}
    (h : (D * X).det ≠ 0) (i j : Fin d) : ∑ a, grad D X i a * X a j = if i = j then 1 else 0 := by
  have := congrFun (congrFun (grad_mul_coord h) i) j
  rw [Matrix.mul_apply, Matrix.one_apply] at this
  exact this

/-- Derivative of an affine field. -/
theorem grad_affine {D : Matrix (Fin d) (Fin n) K} {X : Matrix (Fin n) (Fin d) K}
    (h : (D * X).det ≠ 0) (hs : ∀ i, ∑ a, D i a = 0) (c : Fin d → K) (G : Matrix (Fin d) (Fin d) K)
    (i k : Fin d) : ∑ a, grad D X i a * sample X (affine c G) (a, k) = G k i := by
  unfold sample affine
  simp only [mul_add, Finset.sum_add_distrib, ← Finset.sum_mul, grad_sum X hs, zero_mul, zero_add,
    Finset.mul_sum]
  rw [Finset.sum_comm]
  have : ∀ j, ∑ a, grad D X i a * (G k j * X a j) = G k j * if i = j then 1 else 0 := by
    intro j
    rw [← grad_coord h i j, Finset.mul_sum]
    exact Finset.sum_congr rfl fun a _ => by ring
  simp only [this, mul_ite, mul_one, mul_zero, Finset.sum_ite_eq, Finset.mem_univ, if_true]

/-- Value of an affine field. -/
theorem value_affine {N : Fin n → K} (X : Matrix (Fin n) (Fin d) K) (hN : ∑ a, N a = 1) (c : Fin d → K)
    (G : Matrix (Fin d) (Fin d) K) (k : Fin d) :
    ∑ a, N a * sample X (affine c G) (a, k) = affine c G (place N X) k := by
  unfold sample affine place
  simp only [mul_add, Finset.sum_add_distrib, ← Finset.sum_mul, hN, one_mul, Finset.mul_sum]
  congr 1
  rw [Finset.sum_comm]
  exact Finset.sum_congr rfl fun j _ => Finset.sum_congr rfl fun a _ => by ring

theorem bMat2_mulVec (g : Matrix (Fin 2) (Fin n) K) (u : Fin n × Fin 2 → K) :
    (bMat2 g).mulVec u = ![∑ a, g 0 a * u (a, 0), ∑ a, g 1 a * u (a, 1),
      ∑ a, g 1 a * u (a, 0) + ∑ a, g 0 a * u (a, 1)] := by
  funext i
  unfold Matrix.mulVec dotProduct bMat2
  rw [Fintype.sum_prod_type]
  fin_cases i <;> simp [Fin.sum_univ_two, Finset.sum_add_distrib]

theorem hMat2_mulVec (N : Fin n → K) (u : Fin n × Fin 2 → K) :
    (hMat2 N).mulVec u = fun i => ∑ a, N a * u (a, i) := by
  funext i
  unfold Matrix.mulVec dotProduct hMat2
  rw [Fintype.sum_prod_type]
  fin_cases i <;> simp [Fin.sum_univ_two]

theorem bMatAxi_mulVec (N : Fin n → K) (x : K) (g : Matrix (Fin 2) (Fin n) K) (u : Fin n × Fin 2 → K) :
    (bMatAxi N x g).mulVec u = ![∑ a, g 0 a * u (a, 0), ∑ a, g 1 a * u (a, 1),
      ∑ a, g 1 a * u (a, 0) + ∑ a, g 0 a * u (a, 1), (∑ a, N a * u (a, 0)) / x] := by
  funext i
  unfold Matrix.mulVec dotProduct bMatAxi
  rw [Fintype.sum_prod_type]
  fin_cases i <;> simp [Fin.sum_univ_two, Finset.sum_add_distrib, Finset.sum_div]
  exact Finset.sum_congr rfl fun a _ => by ring

theorem bMat3_mulVec (g : Matrix (Fin 3) (Fin n) K) (u : Fin n × Fin 3 → K) :
    (bMat3 g).mulVec u = ![∑ a, g 0 a * u (a, 0), ∑ a, g 1 a * u (a, 1), ∑ a, g 2 a * u (a, 2),
      ∑ a, g 2 a * u (a, 1) + ∑ a, g 1 a * u (a, 2),
      ∑ a, g 2 a * u (a, 0) + ∑ a, g 0 a * u (a, 2),
      ∑ a, g 1 a * u (a, 0) + ∑ a, g 0 a * u (a, 1)] := by
  funext i
  unfold Matrix.mulVec dotProduct bMat3
  rw [Fintype.sum_prod_type]
  fin_cases i <;> simp [Fin.sum_univ_three, Finset.sum_add_distrib]

theorem hMat3_mulVec (N : Fin n → K) (u : Fin n × Fin 3 → K) :
    (hMat3 N).mulVec u = fun i => ∑ a, N a * u (a, i) := by
  funext i
  unfold Matrix.mulVec dotProduct hMat3
  rw [Fintype.sum_prod_type]
  fin_cases i <;> simp [Fin.sum_univ_three]

theorem planeShape_unity {f : K → K → Shape K 2 n} (hf : PlaneShape n f) (r s : K) :
    ∑ a, (f r s).1 a = 1 ∧ ∀ i, ∑ a, (f r s).2 i a = 0 := by
  cases hf
  · exact C26_tri3 r s
  · exact C26_tri6 r s
  · exact C26_quad4 r s
  · exact C26_quad8 r s
  · exact C26_quad9 r s

theorem solidShape_unity {f : K → K → K → Shape K 3 n} (hf : SolidShape n f) (r s t : K) :
    ∑ a, (f r s t).1 a = 1 ∧ ∀ i, ∑ a, (f r s t).2 i a = 0 := by
  cases hf
  · exact C26_tet4 r s t
  · exact C26_hex8 r s t

end

end SolidsPy
