import Verif.Props.Elements
import Verif.Spec.Modes
import Mathlib.LinearAlgebra.Matrix.NonsingularInverse

/-! Displacements of plane elements without strain at the integration points. -/

set_option linter.unusedSectionVars false

namespace SolidsPy
open Spec Fem Uel Gauss Matrix

section
variable {K : Type} [Field K] [LinearOrder K] [IsStrictOrderedRing K] {n : ℕ}

/-- Where the strain vanishes the displacement gradient is a spin: the parametric derivatives of the
displacement are those of the position, turned by a right angle. -/
theorem spin_of_strain {D : Matrix (Fin 2) (Fin n) K} {X : Matrix (Fin n) (Fin 2) K}
    (h : (D * X).det ≠ 0) {u : Fin n × Fin 2 → K} (hu : (bMat2 (grad D X)).mulVec u = 0) :
    ∃ w, ∀ p, ∑ a, D p a * u (a, 0) = -(w * (D * X) p 1) ∧ ∑ a, D p a * u (a, 1) = w * (D * X) p 0 := by
  have hJ : (D * X) * ((D * X).det⁻¹ • (D * X).adjugate) = 1 := by
    rw [Matrix.mul_smul, Matrix.mul_adjugate, smul_smul, inv_mul_cancel₀ h, one_smul]
  have hJg : (D * X) * grad D X = D := by
    unfold grad
    rw [← Matrix.mul_assoc, hJ, Matrix.one_mul]
  have hdiff : ∀ (p k : Fin 2), ∑ a, D p a * u (a, k) =
      ∑ i, (D * X) p i * ∑ a, grad D X i a * u (a, k) := by
    intro p k
    conv_lhs => rw [← hJg]
    simp only [Matrix.mul_apply (M := D * X), Finset.sum_mul, Finset.mul_sum]
    rw [Finset.sum_comm]
    exact Finset.sum_congr rfl fun i _ => Finset.sum_congr rfl fun a _ => by ring
  rw [bMat2_mulVec] at hu
  have e0 := congrFun hu 0
  have e1 := congrFun hu 1
  have e2 := congrFun hu 2
  simp at e0 e1 e2
  refine ⟨∑ a, grad D X 0 a * u (a, 1), fun p => ⟨?_, ?_⟩⟩
  · rw [hdiff, Fin.sum_univ_two, e0]
    linear_combination (D * X) p 1 * e2
  · rw [hdiff, Fin.sum_univ_two, e1]
    ring

/-- Derivatives of a bilinear field. -/
theorem quad4_der (r s : K) (f : Fin 4 → K) :
    ∑ a, (shapeQuad4 r s).2 0 a * f a =
      (-f 0 + f 1 + f 2 - f 3) / 4 + (f 0 - f 1 + f 2 - f 3) / 4 * s ∧
    ∑ a, (shapeQuad4 r s).2 1 a * f a =
      (-f 0 - f 1 + f 2 + f 3) / 4 + (f 0 - f 1 + f 2 - f 3) / 4 * r := by
  simp only [Fin.sum_univ_four]
  simp [shapeQuad4, lit_quarter]
  constructor <;> ring

theorem quad4_flat {X : Matrix (Fin 4) (Fin 2) K} {g : K} (hg : g ≠ 0)
    (hd : ∀ r s, (r = g ∨ r = -g) → (s = g ∨ s = -g) → ((shapeQuad4 r s).2 * X).det ≠ 0)
    {u : Fin 4 × Fin 2 → K}
    (hu : ∀ r s, (r = g ∨ r = -g) → (s = g ∨ s = -g) →
      (bMat2 (grad (shapeQuad4 r s).2 X)).mulVec u = 0) :
    ∃ c G, Skew G ∧ u = sample X (affine c G) := by
  set X1 := fun i => (-X 0 i + X 1 i + X 2 i - X 3 i) / 4 with hX1
  set X2 := fun i => (-X 0 i - X 1 i + X 2 i + X 3 i) / 4 with hX2
  set X3 := fun i => (X 0 i - X 1 i + X 2 i - X 3 i) / 4 with hX3
  set U1 := fun i => (-u (0, i) + u (1, i) + u (2, i) - u (3, i)) / 4 with hU1
  set U2 := fun i => (-u (0, i) - u (1, i) + u (2, i) + u (3, i)) / 4 with hU2
  set U3 := fun i => (u (0, i) - u (1, i) + u (2, i) - u (3, i)) / 4 with hU3
  have key : ∀ r s, (r = g ∨ r = -g) → (s = g ∨ s = -g) → ∃ w,
      U1 0 + U3 0 * s = -(w * (X1 1 + X3 1 * s)) ∧ U1 1 + U3 1 * s = w * (X1 0 + X3 0 * s) ∧
      U2 0 + U3 0 * r = -(w * (X2 1 + X3 1 * r)) ∧ U2 1 + U3 1 * r = w * (X2 0 + X3 0 * r) := by
    intro r s hr hs
    obtain ⟨w, hw⟩ := spin_of_strain (hd r s hr hs) (hu r s hr hs)
    have h0 := hw 0
    have h1 := hw 1
    simp only [Matrix.mul_apply, (quad4_der r s _).1, (quad4_der r s _).2] at h0 h1
    exact ⟨w, h0.1, h0.2, h1.1, h1.2⟩
  have det : ∀ r s, (r = g ∨ r = -g) → (s = g ∨ s = -g) →
      (X1 0 + X3 0 * s) * (X2 1 + X3 1 * r) - (X1 1 + X3 1 * s) * (X2 0 + X3 0 * r) ≠ 0 := by
    intro r s hr hs
    have h := hd r s hr hs
    rw [Matrix.det_fin_two] at h
    simp only [Matrix.mul_apply, (quad4_der r s _).1, (quad4_der r s _).2] at h
    exact h
  obtain ⟨w1, a1, a2, a3, a4⟩ := key g g (.inl rfl) (.inl rfl)
  obtain ⟨w2, b1, b2, b3, b4⟩ := key (-g) g (.inr rfl) (.inl rfl)
  obtain ⟨w3, c1, c2, c3, c4⟩ := key g (-g) (.inl rfl) (.inr rfl)
  have e12 : w1 = w2 := by
    by_contra hne
    have hne : w1 - w2 ≠ 0 := sub_ne_zero.2 hne
    have z0 : X1 0 + X3 0 * g = 0 := by
      have : (w1 - w2) * (X1 0 + X3 0 * g) = 0 := by linear_combination b2 - a2
      exact (mul_eq_zero.1 this).resolve_left hne
    have z1 : X1 1 + X3 1 * g = 0 := by
      have : (w1 - w2) * (X1 1 + X3 1 * g) = 0 := by linear_combination a1 - b1
      exact (mul_eq_zero.1 this).resolve_left hne
    exact det g g (.inl rfl) (.inl rfl) (by rw [z0, z1]; ring)
  have e13 : w1 = w3 := by
    by_contra hne
    have hne : w1 - w3 ≠ 0 := sub_ne_zero.2 hne
    have z0 : X2 0 + X3 0 * g = 0 := by
      have : (w1 - w3) * (X2 0 + X3 0 * g) = 0 := by linear_combination c4 - a4
      exact (mul_eq_zero.1 this).resolve_left hne
    have z1 : X2 1 + X3 1 * g = 0 := by
      have : (w1 - w3) * (X2 1 + X3 1 * g) = 0 := by linear_combination a3 - c3
      exact (mul_eq_zero.1 this).resolve_left hne
    exact det g g (.inl rfl) (.inl rfl) (by rw [z0, z1]; ring)
  rw [← e12] at b1 b2 b3 b4
  rw [← e13] at c1 c2 c3 c4
  have hg2 : (2 : K) * g ≠ 0 := mul_ne_zero two_ne_zero hg
  have f3 : U3 0 = -(w1 * X3 1) := mul_right_cancel₀ hg2 (by linear_combination a1 - c1)
  have f3' : U3 1 = w1 * X3 0 := mul_right_cancel₀ hg2 (by linear_combination a2 - c2)
  have f1 : U1 0 = -(w1 * X1 1) := by linear_combination a1 - f3 * g
  have f1' : U1 1 = w1 * X1 0 := by linear_combination a2 - f3' * g
  have f2 : U2 0 = -(w1 * X2 1) := by linear_combination a3 - f3 * g
  have f2' : U2 1 = w1 * X2 0 := by linear_combination a4 - f3' * g
  simp only [hX1, hX2, hX3, hU1, hU2, hU3] at f1 f2 f3 f1' f2' f3'
  refine ⟨![u (0, 0) + w1 * X 0 1, u (0, 1) - w1 * X 0 0], !![0, -w1; w1, 0], ?_, ?_⟩
  · intro i j
    fin_cases i <;> fin_cases j <;> simp
  · funext ⟨a, i⟩
    unfold sample affine
    simp only [Fin.sum_univ_two]
    fin_cases i <;> fin_cases a <;> simp
    · linear_combination 2 * f1 - 2 * f3
    · linear_combination 2 * f1 + 2 * f2
    · linear_combination 2 * f2 - 2 * f3
    · linear_combination 2 * f1' - 2 * f3'
    · linear_combination 2 * f1' + 2 * f2'
    · linear_combination 2 * f2' - 2 * f3'

/-- Derivatives that are right on constants and linear functions. -/
structure LinExact (ref : Fin n → K × K) (D : Matrix (Fin 2) (Fin n) K) : Prop where
  one : ∀ p, ∑ a, D p a = 0
  r0 : ∑ a, D 0 a * (ref a).1 = 1
  r1 : ∑ a, D 1 a * (ref a).1 = 0
  s0 : ∑ a, D 0 a * (ref a).2 = 0
  s1 : ∑ a, D 1 a * (ref a).2 = 1

theorem affine_jac {ref : Fin n → K × K} {c A} {X : Matrix (Fin n) (Fin 2) K} (hX : AffineShape ref c A X)
    {D : Matrix (Fin 2) (Fin n) K} (hD : LinExact ref D) (p i : Fin 2) : (D * X) p i = A i p := by
  have : (D * X) p i = c i * ∑ a, D p a + A i 0 * ∑ a, D p a * (ref a).1 +
      A i 1 * ∑ a, D p a * (ref a).2 := by
    simp only [Matrix.mul_apply, Finset.mul_sum, ← Finset.sum_add_distrib]
    exact Finset.sum_congr rfl fun a _ => by rw [hX]; ring
  rw [this, hD.one]
  fin_cases p
  · simp [hD.r0, hD.s0]
  · simp [hD.r1, hD.s1]

/-- What zero strain at the points `S` must imply on the reference element. -/
def FlatRef (ref : Fin n → K × K) (S : List (Matrix (Fin 2) (Fin n) K)) : Prop :=
  ∀ P Q : Fin n → K, (∀ D ∈ S, ∑ a, D 1 a * P a = 0 ∧ ∑ a, D 0 a * Q a = 0 ∧
    ∑ a, D 0 a * P a = ∑ a, D 1 a * Q a) →
    ∃ α β w, ∀ a, P a = α + w * (ref a).1 ∧ Q a = β + w * (ref a).2

theorem affine_flat {ref : Fin n → K × K} {c A} {X : Matrix (Fin n) (Fin 2) K} (hX : AffineShape ref c A X)
    {S : List (Matrix (Fin 2) (Fin n) K)} (hS : ∀ D ∈ S, LinExact ref D) (hf : FlatRef ref S)
    (hA : A.det ≠ 0) {u : Fin n × Fin 2 → K} (hu : ∀ D ∈ S, (bMat2 (grad D X)).mulVec u = 0) :
    ∃ c G, Skew G ∧ u = sample X (affine c G) := by
  have hA' : A 0 0 * A 1 1 - A 0 1 * A 1 0 ≠ 0 := by rwa [Matrix.det_fin_two] at hA
  set δ := A 0 0 * A 1 1 - A 0 1 * A 1 0 with hδ
  obtain ⟨α, β, w, h⟩ := hf (fun a => (u (a, 1) * A 1 1 + u (a, 0) * A 0 1) / δ)
    (fun a => (-(A 0 0 * u (a, 0)) - A 1 0 * u (a, 1)) / δ) (by
    intro D hD
    have hj := affine_jac hX (hS D hD)
    have hdet : (D * X).det ≠ 0 := by
      rw [Matrix.det_fin_two, hj, hj, hj, hj]
      intro h0
      exact hA' (by rw [hδ, ← h0]; ring)
    obtain ⟨w, hw⟩ := spin_of_strain hdet (hu D hD)
    have lin : ∀ p (s t : K), ∑ a, D p a * ((s * u (a, 0) + t * u (a, 1)) / δ) =
        (s * ∑ a, D p a * u (a, 0) + t * ∑ a, D p a * u (a, 1)) / δ := by
      intro p s t
      simp only [Finset.mul_sum, ← Finset.sum_add_distrib, Finset.sum_div]
      exact Finset.sum_congr rfl fun a _ => by ring
    have e1 : ∀ a, (u (a, 1) * A 1 1 + u (a, 0) * A 0 1) / δ = (A 0 1 * u (a, 0) + A 1 1 * u (a, 1)) / δ :=
      fun a => by ring
    have e2 : ∀ a, (-(A 0 0 * u (a, 0)) - A 1 0 * u (a, 1)) / δ =
        (-(A 0 0) * u (a, 0) + -(A 1 0) * u (a, 1)) / δ := fun a => by ring
    simp only [e1, e2, lin, (hw _).1, (hw _).2, hj]
    refine ⟨?_, ?_, ?_⟩
    · rw [div_eq_zero_iff]; left; ring
    · rw [div_eq_zero_iff]; left; ring
    · congr 1; ring)
  refine ⟨![-(A 1 0 * α + A 1 1 * β) + w * c 1, A 0 0 * α + A 0 1 * β - w * c 0], !![0, -w; w, 0], ?_, ?_⟩
  · intro i j
    fin_cases i <;> fin_cases j <;> simp
  · funext ⟨a, i⟩
    obtain ⟨h1, h2⟩ := h a
    rw [div_eq_iff hA'] at h1 h2
    unfold sample affine
    simp only [Fin.sum_univ_two, hX a]
    apply mul_left_cancel₀ hA'
    fin_cases i <;> simp [-mul_eq_mul_left_iff]
    · linear_combination -A 1 0 * h1 - A 1 1 * h2 + u (a, 0) * hδ
    · linear_combination A 0 0 * h1 + A 0 1 * h2 + u (a, 1) * hδ

/-- Values of a polynomial field with the coefficients of `1, r, s, r², rs, s², r²s, rs², r²s²`. -/
def biquad (k : Fin 9 → K) (x : K × K) : K :=
  k 0 + k 1 * x.1 + k 2 * x.2 + k 3 * x.1 ^ 2 + k 4 * x.1 * x.2 + k 5 * x.2 ^ 2 +
    k 6 * x.1 ^ 2 * x.2 + k 7 * x.1 * x.2 ^ 2 + k 8 * x.1 ^ 2 * x.2 ^ 2

/-- Derivative arrays that differentiate these polynomials. -/
def Differentiates (ref : Fin n → K × K) (D : Matrix (Fin 2) (Fin n) K) (r s : K) (m : Fin 9 → K) : Prop :=
  ∀ k : Fin 9 → K, (∀ i, m i = 0 → k i = 0) →
    ∑ a, D 0 a * biquad k (ref a) =
      k 1 + 2 * k 3 * r + k 4 * s + 2 * k 6 * r * s + k 7 * s ^ 2 + 2 * k 8 * r * s ^ 2 ∧
    ∑ a, D 1 a * biquad k (ref a) =
      k 2 + k 4 * r + 2 * k 5 * s + k 6 * r ^ 2 + 2 * k 7 * r * s + 2 * k 8 * r ^ 2 * s

/-- The nine tensor points exclude every flat field but the rigid ones. -/
theorem flat_tensor {ref : Fin n → K × K} {D : K → K → Matrix (Fin 2) (Fin n) K} {g : K} (hg : g ≠ 0)
    {m : Fin 9 → K} (hD : ∀ r s, Differentiates ref (D r s) r s m)
    (hI : ∀ f : Fin n → K, ∃ k : Fin 9 → K, (∀ i, m i = 0 → k i = 0) ∧ ∀ a, f a = biquad k (ref a)) :
    FlatRef ref [D (-g) (-g), D (-g) 0, D (-g) g, D 0 (-g), D 0 0, D 0 g, D g (-g), D g 0, D g g] := by
  intro P Q h
  obtain ⟨p, hp0, hp⟩ := hI P
  obtain ⟨q, hq0, hq⟩ := hI Q
  simp only [hp, hq] at h ⊢
  have e : ∀ r s, (r = 0 ∨ r = g ∨ r = -g) → (s = 0 ∨ s = g ∨ s = -g) →
      p 2 + p 4 * r + 2 * p 5 * s + p 6 * r ^ 2 + 2 * p 7 * r * s + 2 * p 8 * r ^ 2 * s = 0 ∧
      q 1 + 2 * q 3 * r + q 4 * s + 2 * q 6 * r * s + q 7 * s ^ 2 + 2 * q 8 * r * s ^ 2 = 0 ∧
      p 1 + 2 * p 3 * r + p 4 * s + 2 * p 6 * r * s + p 7 * s ^ 2 + 2 * p 8 * r * s ^ 2 =
      q 2 + q 4 * r + 2 * q 5 * s + q 6 * r ^ 2 + 2 * q 7 * r * s + 2 * q 8 * r ^ 2 * s := by
    intro r s hr hs
    have := h (D r s) (by
      rcases hr with rfl | rfl | rfl <;> rcases hs with rfl | rfl | rfl <;> simp)
    rw [(hD r s p hp0).1, (hD r s p hp0).2, (hD r s q hq0).1, (hD r s q hq0).2] at this
    exact this
  have h2 : (2 : K) ≠ 0 := two_ne_zero
  have hgg : g ^ 2 ≠ 0 := pow_ne_zero 2 hg
  -- values at s = 0
  have p2 : p 2 = 0 := by linear_combination (e 0 0 (.inl rfl) (.inl rfl)).1
  have p4 : p 4 = 0 := by
    apply mul_right_cancel₀ (mul_ne_zero h2 hg)
    linear_combination (e g 0 (.inr (.inl rfl)) (.inl rfl)).1 - (e (-g) 0 (.inr (.inr rfl)) (.inl rfl)).1
  have p6 : p 6 = 0 := by
    apply mul_right_cancel₀ hgg
    linear_combination (e g 0 (.inr (.inl rfl)) (.inl rfl)).1 - p2 - g * p4
  have p5 : p 5 = 0 := by
    apply mul_right_cancel₀ (mul_ne_zero h2 hg)
    linear_combination (e 0 g (.inl rfl) (.inr (.inl rfl))).1 - p2
  have p7 : p 7 = 0 := by
    apply mul_right_cancel₀ (mul_ne_zero (mul_ne_zero h2 h2) hgg)
    linear_combination (e g g (.inr (.inl rfl)) (.inr (.inl rfl))).1 -
      (e (-g) g (.inr (.inr rfl)) (.inr (.inl rfl))).1 - 2 * g * p4
  have p8 : p 8 = 0 := by
    apply mul_right_cancel₀ (mul_ne_zero h2 (mul_ne_zero hgg hg))
    linear_combination (e g g (.inr (.inl rfl)) (.inr (.inl rfl))).1 - p2 - g * p4 - 2 * g * p5 -
      g ^ 2 * p6 - 2 * g ^ 2 * p7
  have q1 : q 1 = 0 := by linear_combination (e 0 0 (.inl rfl) (.inl rfl)).2.1
  have q4 : q 4 = 0 := by
    apply mul_right_cancel₀ (mul_ne_zero h2 hg)
    linear_combination (e 0 g (.inl rfl) (.inr (.inl rfl))).2.1 - (e 0 (-g) (.inl rfl) (.inr (.inr rfl))).2.1
  have q7 : q 7 = 0 := by
    apply mul_right_cancel₀ hgg
    linear_combination (e 0 g (.inl rfl) (.inr (.inl rfl))).2.1 - q1 - g * q4
  have q3 : q 3 = 0 := by
    apply mul_right_cancel₀ (mul_ne_zero h2 hg)
    linear_combination (e g 0 (.inr (.inl rfl)) (.inl rfl)).2.1 - q1
  have q6 : q 6 = 0 := by
    apply mul_right_cancel₀ (mul_ne_zero (mul_ne_zero h2 h2) hgg)
    linear_combination (e g g (.inr (.inl rfl)) (.inr (.inl rfl))).2.1 -
      (e g (-g) (.inr (.inl rfl)) (.inr (.inr rfl))).2.1 - 2 * g * q4
  have q8 : q 8 = 0 := by
    apply mul_right_cancel₀ (mul_ne_zero h2 (mul_ne_zero hgg hg))
    linear_combination (e g g (.inr (.inl rfl)) (.inr (.inl rfl))).2.1 - q1 - g * q4 - 2 * g * q3 -
      g ^ 2 * q7 - 2 * g ^ 2 * q6
  have pq : p 1 = q 2 := by linear_combination (e 0 0 (.inl rfl) (.inl rfl)).2.2
  have p3 : p 3 = 0 := by
    apply mul_right_cancel₀ (mul_ne_zero h2 hg)
    linear_combination (e g 0 (.inr (.inl rfl)) (.inl rfl)).2.2 - pq + g * q4 + g ^ 2 * q6
  have q5 : q 5 = 0 := by
    apply mul_right_cancel₀ (mul_ne_zero h2 hg)
    linear_combination -(e 0 g (.inl rfl) (.inr (.inl rfl))).2.2 + pq + g * p4 + g ^ 2 * p7
  refine ⟨p 0, q 0, p 1, fun a => ?_⟩
  unfold biquad
  rw [p2, p3, p4, p5, p6, p7, p8, q1, q3, q4, q5, q6, q7, q8, ← pq]
  constructor <;> ring

theorem linExact_of {ref : Fin n → K × K} {D : Matrix (Fin 2) (Fin n) K} {r s : K} {m : Fin 9 → K}
    (hD : Differentiates ref D r s m) (hm : m 0 ≠ 0 ∧ m 1 ≠ 0 ∧ m 2 ≠ 0) : LinExact ref D := by
  have h0 := hD ![1, 0, 0, 0, 0, 0, 0, 0, 0] (by
    intro i hi; fin_cases i <;> first | rfl | exact absurd hi hm.1)
  have h1 := hD ![0, 1, 0, 0, 0, 0, 0, 0, 0] (by
    intro i hi; fin_cases i <;> first | rfl | exact absurd hi hm.2.1)
  have h2 := hD ![0, 0, 1, 0, 0, 0, 0, 0, 0] (by
    intro i hi; fin_cases i <;> first | rfl | exact absurd hi hm.2.2)
  simp [biquad] at h0 h1 h2
  refine ⟨fun p => ?_, h1.1, h1.2, h2.1, h2.2⟩
  fin_cases p
  · exact h0.1
  · exact h0.2

/-- Three points with coordinates `(a, a)`, `(b, a)`, `(a, b)` exclude every flat quadratic field but the
rigid ones. -/
theorem flat_tri {ref : Fin n → K × K} {D : K → K → Matrix (Fin 2) (Fin n) K} {a b : K} (hab : b - a ≠ 0)
    (hD : ∀ r s, Differentiates ref (D r s) r s ![1, 1, 1, 1, 1, 1, 0, 0, 0])
    (hI : ∀ f : Fin n → K, ∃ k : Fin 9 → K, (∀ i, ![(1 : K), 1, 1, 1, 1, 1, 0, 0, 0] i = 0 → k i = 0) ∧
      ∀ a, f a = biquad k (ref a)) :
    FlatRef ref [D a a, D b a, D a b] := by
  intro P Q h
  obtain ⟨p, hp0, hp⟩ := hI P
  obtain ⟨q, hq0, hq⟩ := hI Q
  simp only [hp, hq] at h ⊢
  have e : ∀ r s, D r s ∈ [D a a, D b a, D a b] →
      p 2 + p 4 * r + 2 * p 5 * s = 0 ∧ q 1 + 2 * q 3 * r + q 4 * s = 0 ∧
      p 1 + 2 * p 3 * r + p 4 * s = q 2 + q 4 * r + 2 * q 5 * s := by
    intro r s hrs
    have := h (D r s) hrs
    rw [(hD r s p hp0).1, (hD r s p hp0).2, (hD r s q hq0).1, (hD r s q hq0).2,
      hp0 6 rfl, hp0 7 rfl, hp0 8 rfl, hq0 6 rfl, hq0 7 rfl, hq0 8 rfl] at this
    simpa using this
  obtain ⟨a1, a2, a3⟩ := e a a (by simp)
  obtain ⟨b1, b2, b3⟩ := e b a (by simp)
  obtain ⟨c1, c2, c3⟩ := e a b (by simp)
  have h2 : (2 : K) ≠ 0 := two_ne_zero
  have p4 : p 4 = 0 := mul_right_cancel₀ hab (by linear_combination b1 - a1)
  have p5 : p 5 = 0 := mul_right_cancel₀ (mul_ne_zero h2 hab) (by linear_combination c1 - a1)
  have p2 : p 2 = 0 := by linear_combination a1 - a * p4 - 2 * a * p5
  have q3 : q 3 = 0 := mul_right_cancel₀ (mul_ne_zero h2 hab) (by linear_combination b2 - a2)
  have q4 : q 4 = 0 := mul_right_cancel₀ hab (by linear_combination c2 - a2)
  have q1 : q 1 = 0 := by linear_combination a2 - 2 * a * q3 - a * q4
  have p3 : p 3 = 0 := mul_right_cancel₀ (mul_ne_zero h2 hab) (by linear_combination b3 - a3 + (b - a) * q4)
  have q5 : q 5 = 0 := mul_right_cancel₀ (mul_ne_zero h2 hab) (by linear_combination a3 - c3 + (b - a) * p4)
  have pq : p 1 = q 2 := by linear_combination a3 - 2 * a * p3 - a * p4 + a * q4 + 2 * a * q5
  refine ⟨p 0, q 0, p 1, fun a => ?_⟩
  unfold biquad
  rw [p2, p3, p4, p5, hp0 6 rfl, hp0 7 rfl, hp0 8 rfl, q1, q3, q4, q5, hq0 6 rfl, hq0 7 rfl, hq0 8 rfl, ← pq]
  constructor <;> ring

theorem diff_tri6 (r s : K) :
    Differentiates triNode (shapeTri6 r s).2 r s ![1, 1, 1, 1, 1, 1, 0, 0, 0] := by
  intro k hk
  simp only [Fin.sum_univ_six]
  simp [shapeTri6, biquad, triNode, hk 6 rfl, hk 7 rfl, hk 8 rfl]
  constructor <;> ring

theorem interp_tri6 (f : Fin 6 → K) : ∃ k : Fin 9 → K,
    (∀ i, ![(1 : K), 1, 1, 1, 1, 1, 0, 0, 0] i = 0 → k i = 0) ∧ ∀ a, f a = biquad k (triNode a) := by
  refine ⟨![f 0, 4 * f 3 - 3 * f 0 - f 1, 4 * f 5 - 3 * f 0 - f 2, 2 * f 0 + 2 * f 1 - 4 * f 3,
    4 * f 0 + 4 * f 4 - 4 * f 3 - 4 * f 5, 2 * f 0 + 2 * f 2 - 4 * f 5, 0, 0, 0], ?_, ?_⟩
  · intro i hi
    fin_cases i <;> simp at hi ⊢
  · intro a
    fin_cases a <;> simp [biquad, triNode] <;> ring

theorem diff_quad9 (r s : K) : Differentiates quadNode (shapeQuad9 r s).2 r s fun _ => 1 := by
  intro k _
  simp only [Fin.sum_univ_succ, Fin.sum_univ_zero]
  simp [shapeQuad9, biquad, quadNode, lit_quarter, lit_half, lit_one, lit_two]
  constructor <;> ring

theorem interp_quad9 (f : Fin 9 → K) : ∃ k : Fin 9 → K, (∀ i, (fun _ => (1 : K)) i = 0 → k i = 0) ∧
    ∀ a, f a = biquad k (quadNode a) := by
  refine ⟨![f 8, (f 5 - f 7) / 2, (f 6 - f 4) / 2, (f 5 + f 7) / 2 - f 8, (f 0 - f 1 + f 2 - f 3) / 4,
    (f 4 + f 6) / 2 - f 8, (f 2 + f 3 - f 0 - f 1) / 4 - (f 6 - f 4) / 2,
    (f 1 + f 2 - f 0 - f 3) / 4 - (f 5 - f 7) / 2,
    (f 0 + f 1 + f 2 + f 3) / 4 - (f 4 + f 5 + f 6 + f 7) / 2 + f 8], ?_, ?_⟩
  · intro i hi
    exact absurd hi one_ne_zero
  · intro a
    fin_cases a <;> simp [biquad, quadNode] <;> ring

theorem diff_quad8 (r s : K) :
    Differentiates quadNode8 (shapeQuad8 r s).2 r s ![1, 1, 1, 1, 1, 1, 1, 1, 0] := by
  intro k hk
  simp only [Fin.sum_univ_succ, Fin.sum_univ_zero]
  simp [shapeQuad8, biquad, quadNode, quadNode8, lit_quarter, lit_one, lit_two, hk 8 rfl]
  constructor <;> ring

theorem interp_quad8 (f : Fin 8 → K) : ∃ k : Fin 9 → K,
    (∀ i, ![(1 : K), 1, 1, 1, 1, 1, 1, 1, 0] i = 0 → k i = 0) ∧ ∀ a, f a = biquad k (quadNode8 a) := by
  obtain ⟨f8, hf8⟩ : ∃ x, x = (f 4 + f 5 + f 6 + f 7) / 2 - (f 0 + f 1 + f 2 + f 3) / 4 := ⟨_, rfl⟩
  refine ⟨![f8, (f 5 - f 7) / 2, (f 6 - f 4) / 2, (f 5 + f 7) / 2 - f8, (f 0 - f 1 + f 2 - f 3) / 4,
    (f 4 + f 6) / 2 - f8, (f 2 + f 3 - f 0 - f 1) / 4 - (f 6 - f 4) / 2,
    (f 1 + f 2 - f 0 - f 3) / 4 - (f 5 - f 7) / 2, 0], ?_, ?_⟩
  · intro i hi
    fin_cases i <;> simp at hi ⊢
  · intro a
    fin_cases a <;> (simp [biquad, quadNode, quadNode8]; rw [hf8]; ring)

/-- Where the displacement gradient is skew, the parametric derivatives of the displacement, measured
along the parametric derivatives of the position, are skew too. -/
theorem pull_of_skew {d : ℕ} {D : Matrix (Fin d) (Fin n) K} {X : Matrix (Fin n) (Fin d) K}
    (h : (D * X).det ≠ 0) {u : Fin n × Fin d → K}
    (hu : ∀ i k, ∑ a, grad D X i a * u (a, k) = -∑ a, grad D X k a * u (a, i)) (p q : Fin d) :
    ∑ k, (D * X) p k * ∑ a, D q a * u (a, k) + ∑ k, (D * X) q k * ∑ a, D p a * u (a, k) = 0 := by
  have hJ : (D * X) * ((D * X).det⁻¹ • (D * X).adjugate) = 1 := by
    rw [Matrix.mul_smul, Matrix.mul_adjugate, smul_smul, inv_mul_cancel₀ h, one_smul]
  have hJg : (D * X) * grad D X = D := by
    unfold grad
    rw [← Matrix.mul_assoc, hJ, Matrix.one_mul]
  have hdiff : ∀ (p k : Fin d), ∑ a, D p a * u (a, k) =
      ∑ i, (D * X) p i * ∑ a, grad D X i a * u (a, k) := by
    intro p k
    conv_lhs => rw [← hJg]
    simp only [Matrix.mul_apply (M := D * X), Finset.sum_mul, Finset.mul_sum]
    rw [Finset.sum_comm]
    exact Finset.sum_congr rfl fun i _ => Finset.sum_congr rfl fun a _ => by ring
  simp only [hdiff, Finset.mul_sum (s := Finset.univ) (f := fun i => (D * X) _ i * _)]
  rw [Finset.sum_comm (f := fun k i => (D * X) q k * _), ← Finset.sum_add_distrib]
  refine Finset.sum_eq_zero fun k _ => ?_
  rw [← Finset.sum_add_distrib]
  refine Finset.sum_eq_zero fun i _ => ?_
  rw [hu k i]
  ring

theorem skew_of_strain {D : Matrix (Fin 3) (Fin n) K} {X : Matrix (Fin n) (Fin 3) K}
    {u : Fin n × Fin 3 → K} (hu : (bMat3 (grad D X)).mulVec u = 0) (i k : Fin 3) :
    ∑ a, grad D X i a * u (a, k) = -∑ a, grad D X k a * u (a, i) := by
  rw [bMat3_mulVec] at hu
  have e0 := congrFun hu 0
  have e1 := congrFun hu 1
  have e2 := congrFun hu 2
  have e3 := congrFun hu 3
  have e4 := congrFun hu 4
  have e5 := congrFun hu 5
  simp at e0 e1 e2 e3 e4 e5
  fin_cases i <;> fin_cases k <;> simp <;> linarith

/-- Trilinear polynomial with the coefficients of `1, r, s, t, rs, rt, st, rst`. -/
def trilin (k : Fin 8 → K) (x : K × K × K) : K :=
  k 0 + k 1 * x.1 + k 2 * x.2.1 + k 3 * x.2.2 + k 4 * x.1 * x.2.1 + k 5 * x.1 * x.2.2 +
    k 6 * x.2.1 * x.2.2 + k 7 * x.1 * x.2.1 * x.2.2

theorem hex8_der (r s t : K) (k : Fin 8 → K) :
    ∑ a, (shapeHex8 r s t).2 0 a * trilin k (hexNode a) = k 1 + k 4 * s + k 5 * t + k 7 * s * t ∧
    ∑ a, (shapeHex8 r s t).2 1 a * trilin k (hexNode a) = k 2 + k 4 * r + k 6 * t + k 7 * r * t ∧
    ∑ a, (shapeHex8 r s t).2 2 a * trilin k (hexNode a) = k 3 + k 5 * r + k 6 * s + k 7 * r * s := by
  simp only [Fin.sum_univ_eight]
  simp [shapeHex8, trilin, hexNode, lit_eighth]
  refine ⟨?_, ?_, ?_⟩ <;> ring

theorem hex8_interp (f : Fin 8 → K) : ∃ k, ∀ a, f a = trilin k (hexNode a) := by
  refine ⟨![(f 0 + f 1 + f 2 + f 3 + f 4 + f 5 + f 6 + f 7) / 8,
    (-f 0 + f 1 + f 2 - f 3 - f 4 + f 5 + f 6 - f 7) / 8,
    (-f 0 - f 1 + f 2 + f 3 - f 4 - f 5 + f 6 + f 7) / 8,
    (-f 0 - f 1 - f 2 - f 3 + f 4 + f 5 + f 6 + f 7) / 8,
    (f 0 - f 1 + f 2 - f 3 + f 4 - f 5 + f 6 - f 7) / 8,
    (f 0 - f 1 - f 2 + f 3 - f 4 + f 5 + f 6 - f 7) / 8,
    (f 0 + f 1 - f 2 - f 3 - f 4 - f 5 + f 6 + f 7) / 8,
    (-f 0 + f 1 - f 2 + f 3 + f 4 - f 5 + f 6 - f 7) / 8], fun a => ?_⟩
  fin_cases a <;> simp [trilin, hexNode] <;> ring

/-- Coordinates of a point. -/
def tuple3 (x : K × K × K) : Fin 3 → K := ![x.1, x.2.1, x.2.2]

theorem hex8_flat_ref {g : K} (hg : g ≠ 0) (v : Fin 3 → Fin 8 → K)
    (h : ∀ r s t, (r = g ∨ r = -g) → (s = g ∨ s = -g) → (t = g ∨ t = -g) → ∀ p q,
      ∑ a, (shapeHex8 r s t).2 q a * v p a + ∑ a, (shapeHex8 r s t).2 p a * v q a = 0) :
    ∃ (α : Fin 3 → K) (W : Matrix (Fin 3) (Fin 3) K), Skew W ∧
      ∀ p a, v p a = α p + ∑ q, W p q * tuple3 (hexNode a) q := by
  obtain ⟨k, hk⟩ := hex8_interp (v 0)
  obtain ⟨l, hl⟩ := hex8_interp (v 1)
  obtain ⟨m, hm⟩ := hex8_interp (v 2)
  have h2 : (2 : K) ≠ 0 := two_ne_zero
  have hg2 := mul_ne_zero h2 hg
  have lin : ∀ {x y : K}, (∀ z, (z = g ∨ z = -g) → x + y * z = 0) → x = 0 ∧ y = 0 := by
    intro x y hxy
    have a := hxy g (.inl rfl)
    have b := hxy (-g) (.inr rfl)
    have hy : y = 0 := mul_right_cancel₀ hg2 (by linear_combination a - b)
    exact ⟨by linear_combination a - g * hy, hy⟩
  have bil : ∀ {x y z w : K}, (∀ s t, (s = g ∨ s = -g) → (t = g ∨ t = -g) →
      x + y * s + z * t + w * s * t = 0) → x = 0 ∧ y = 0 ∧ z = 0 ∧ w = 0 := by
    intro x y z w hx
    have hA : ∀ t, (t = g ∨ t = -g) → x + z * t = 0 ∧ y + w * t = 0 := by
      intro t ht
      exact lin (x := x + z * t) (y := y + w * t) fun s hs => by linear_combination hx s t hs ht
    obtain ⟨a, b⟩ := lin fun t ht => (hA t ht).1
    obtain ⟨c, d⟩ := lin fun t ht => (hA t ht).2
    exact ⟨a, c, b, d⟩
  have e00 := bil (x := k 1) (y := k 4) (z := k 5) (w := k 7) fun s t hs ht => by
    have := h g s t (.inl rfl) hs ht 0 0
    simp only [hk, (hex8_der g s t k).1] at this
    linarith
  have e11 := bil (x := l 2) (y := l 4) (z := l 6) (w := l 7) fun r t hr ht => by
    have := h r g t hr (.inl rfl) ht 1 1
    simp only [hl, (hex8_der r g t l).2.1] at this
    linarith
  have e22 := bil (x := m 3) (y := m 5) (z := m 6) (w := m 7) fun r s hr hs => by
    have := h r s g hr hs (.inl rfl) 2 2
    simp only [hm, (hex8_der r s g m).2.2] at this
    linarith
  obtain ⟨k1, k4, k5, k7⟩ := e00
  obtain ⟨l2, l4, l6, l7⟩ := e11
  obtain ⟨m3, m5, m6, m7⟩ := e22
  have e01 := lin (x := k 2 + l 1) (y := k 6 + l 5) fun t ht => by
    have := h g g t (.inl rfl) (.inl rfl) ht 0 1
    simp only [hk, hl, (hex8_der g g t k).2.1, (hex8_der g g t l).1, k4, k7, l4, l7] at this
    linear_combination this
  have e02 := lin (x := k 3 + m 1) (y := k 6 + m 4) fun s hs => by
    have := h g s g (.inl rfl) hs (.inl rfl) 0 2
    simp only [hk, hm, (hex8_der g s g k).2.2, (hex8_der g s g m).1, k5, k7, m5, m7] at this
    linear_combination this
  have e12 := lin (x := l 3 + m 2) (y := l 5 + m 4) fun r hr => by
    have := h r g g hr (.inl rfl) (.inl rfl) 1 2
    simp only [hl, hm, (hex8_der r g g l).2.2, (hex8_der r g g m).2.1, l6, l7, m6, m7] at this
    linear_combination this
  have k6 : k 6 = 0 := by linarith [e01.2, e02.2, e12.2]
  have l5 : l 5 = 0 := by linarith [e01.2]
  have m4 : m 4 = 0 := by linarith [e02.2]
  refine ⟨![k 0, l 0, m 0], !![0, k 2, k 3; -k 2, 0, l 3; -k 3, -l 3, 0], ?_, ?_⟩
  · intro i j
    fin_cases i <;> fin_cases j <;> simp
  · have l1 : l 1 = -k 2 := by linarith [e01.1]
    have m1 : m 1 = -k 3 := by linarith [e02.1]
    have m2 : m 2 = -l 3 := by linarith [e12.1]
    intro p a
    simp only [Fin.sum_univ_three]
    fin_cases p
    · simp [hk, trilin, tuple3, k1, k4, k5, k6, k7]
      ring
    · simp [hl, trilin, tuple3, l1, l2, l4, l5, l6, l7]
      ring
    · simp [hm, trilin, tuple3, m1, m2, m3, m4, m5, m6, m7]
      ring

theorem hex8_jac {c A} {X : Matrix (Fin 8) (Fin 3) K} (hX : AffineSolid hexNode c A X) (r s t : K)
    (p i : Fin 3) : ((shapeHex8 r s t).2 * X) p i = A i p := by
  have hXl : ∀ a, X a i = trilin ![c i, A i 0, A i 1, A i 2, 0, 0, 0, 0] (hexNode a) := by
    intro a
    rw [hX a i]
    simp [trilin]
  obtain ⟨h0, h1, h2⟩ := hex8_der r s t ![c i, A i 0, A i 1, A i 2, 0, 0, 0, 0]
  rw [Matrix.mul_apply]
  simp only [hXl]
  fin_cases p
  · rw [show ((⟨0, by norm_num⟩ : Fin 3)) = 0 from rfl, h0]; simp
  · rw [show ((⟨1, by norm_num⟩ : Fin 3)) = 1 from rfl, h1]; simp
  · rw [show ((⟨2, by norm_num⟩ : Fin 3)) = 2 from rfl, h2]; simp

theorem hex8_flat {c A} {X : Matrix (Fin 8) (Fin 3) K} (hX : AffineSolid hexNode c A X) (hA : A.det ≠ 0)
    {g : K} (hg : g ≠ 0) {u : Fin 8 × Fin 3 → K}
    (hu : ∀ r s t, (r = g ∨ r = -g) → (s = g ∨ s = -g) → (t = g ∨ t = -g) →
      (bMat3 (grad (shapeHex8 r s t).2 X)).mulVec u = 0) :
    ∃ c G, Skew G ∧ u = sample X (affine c G) := by
  have hJ : ∀ r s t, (shapeHex8 r s t).2 * X = A.transpose := by
    intro r s t
    ext p i
    rw [hex8_jac hX, Matrix.transpose_apply]
  obtain ⟨α, W, hW, hv⟩ := hex8_flat_ref hg (fun p a => ∑ k, A k p * u (a, k)) (by
    intro r s t hr hs ht p q
    have := pull_of_skew (by rw [hJ, Matrix.det_transpose]; exact hA)
      (skew_of_strain (hu r s t hr hs ht)) p q
    simp only [hJ, Matrix.transpose_apply] at this
    rw [← this]
    congr 1 <;>
    · simp only [Finset.mul_sum]
      rw [Finset.sum_comm]
      exact Finset.sum_congr rfl fun k _ => Finset.sum_congr rfl fun a _ => by ring)
  have hB : A * A⁻¹ = 1 := Matrix.mul_nonsing_inv _ (isUnit_iff_ne_zero.2 hA)
  have hB' : A⁻¹ * A = 1 := Matrix.nonsing_inv_mul _ (isUnit_iff_ne_zero.2 hA)
  have hG : Skew (A⁻¹.transpose * W * A⁻¹) := by
    have hWt : W.transpose = -W := by
      ext i j
      rw [Matrix.transpose_apply, Matrix.neg_apply, hW]
    intro i j
    have : (A⁻¹.transpose * W * A⁻¹).transpose = -(A⁻¹.transpose * W * A⁻¹) := by
      rw [Matrix.transpose_mul, Matrix.transpose_mul, Matrix.transpose_transpose, hWt]
      simp [Matrix.mul_assoc]
    rw [← Matrix.neg_apply, ← this, Matrix.transpose_apply]
  refine ⟨A⁻¹.transpose.mulVec α - (A⁻¹.transpose * W * A⁻¹).mulVec c, _, hG, ?_⟩
  funext ⟨a, k⟩
  have hx : X a = c + A.mulVec (tuple3 (hexNode a)) := by
    funext i
    rw [hX a i, Pi.add_apply]
    simp [Matrix.mulVec, dotProduct, Fin.sum_univ_three, tuple3]
    ring
  have hva : A.transpose.mulVec (fun k => u (a, k)) = α + W.mulVec (tuple3 (hexNode a)) := by
    funext p
    exact hv p a
  have hua : (fun k => u (a, k)) = A⁻¹.transpose.mulVec (α + W.mulVec (tuple3 (hexNode a))) := by
    rw [← hva, Matrix.mulVec_mulVec, ← Matrix.transpose_mul, hB, Matrix.transpose_one, Matrix.one_mulVec]
  have : sample X (affine (A⁻¹.transpose.mulVec α - (A⁻¹.transpose * W * A⁻¹).mulVec c)
      (A⁻¹.transpose * W * A⁻¹)) (a, k) =
      (A⁻¹.transpose.mulVec α - (A⁻¹.transpose * W * A⁻¹).mulVec c +
        (A⁻¹.transpose * W * A⁻¹).mulVec (X a)) k := rfl
  rw [this, hx, Matrix.mulVec_add, Matrix.mulVec_mulVec, Matrix.mul_assoc _ _ A, hB', Matrix.mul_one]
  rw [show u (a, k) = (fun k => u (a, k)) k from rfl, hua, Matrix.mulVec_add, Matrix.mulVec_mulVec]
  simp only [Pi.add_apply, Pi.sub_apply]
  ring

end

end SolidsPy
