import Verif.Props.Beams
import Mathlib.Analysis.SpecialFunctions.Integrals.Basic
import Mathlib.Analysis.Calculus.Deriv.Polynomial
import Mathlib.Topology.Algebra.Polynomial

/-! # C121: the matrices of the beams are the energies of cubic curves -/

set_option linter.unusedSectionVars false

namespace SolidsPy
open Spec Fem Uel Matrix

namespace Spec
section
variable {K : Type} [Field K]

/-- Displacement of an end along a bar that runs from `(0, 0)` to the mirror image of `X 1 - X 0` in the first axis.  (The bar of the
routines, see C56.) -/
def along (X : Matrix (Fin 2) (Fin 2) K) (L : K) (u : Fin 2 × Fin 3 → K) (a : Fin 2) : K :=
  ((X 1 0 - X 0 0) * u (a, 0) - (X 1 1 - X 0 1) * u (a, 1)) / L

/-- Displacement of an end across that bar. -/
def across (X : Matrix (Fin 2) (Fin 2) K) (L : K) (u : Fin 2 × Fin 3 → K) (a : Fin 2) : K :=
  ((X 1 1 - X 0 1) * u (a, 0) + (X 1 0 - X 0 0) * u (a, 1)) / L

/-- The displacements and rotations `u` of the ends are those of the cubic deflection `P`. -/
structure BendsTo (X : Matrix (Fin 2) (Fin 2) K) (L : K) (u : Fin 2 × Fin 3 → K) (P : Polynomial K) : Prop where
  cubic : P.natDegree ≤ 3
  start : across X L u 0 = P.eval 0
  slope : u (0, 2) = P.derivative.eval 0
  stop : across X L u 1 = P.eval L
  slope' : u (1, 2) = P.derivative.eval L

/-- The displacements of the ends along the bar are those of the linear function `A`. -/
structure StretchesTo (X : Matrix (Fin 2) (Fin 2) K) (L : K) (u : Fin 2 × Fin 3 → K) (A : Polynomial K) : Prop where
  linear : A.natDegree ≤ 1
  start : along X L u 0 = A.eval 0
  stop : along X L u 1 = A.eval L

end
end Spec

section
variable {K : Type} [Field K] [LinearOrder K] [IsStrictOrderedRing K]

theorem linear_form {P : Polynomial K} (hP : P.natDegree ≤ 1) :
    P = Polynomial.C (P.coeff 0) + Polynomial.C (P.coeff 1) * Polynomial.X := by
  conv_lhs => rw [P.as_sum_range_C_mul_X_pow' (n := 2) (by omega)]
  simp [Finset.sum_range_succ]

theorem eval_cubic {P : Polynomial K} (hP : P.natDegree ≤ 3) (s : K) :
    P.eval s = P.coeff 0 + P.coeff 1 * s + P.coeff 2 * s ^ 2 + P.coeff 3 * s ^ 3 ∧
    P.derivative.eval s = P.coeff 1 + 2 * P.coeff 2 * s + 3 * P.coeff 3 * s ^ 2 ∧
    P.derivative.derivative.eval s = 2 * P.coeff 2 + 6 * P.coeff 3 * s := by
  generalize e : P.coeff 0 = c0
  generalize e1 : P.coeff 1 = c1
  generalize e2 : P.coeff 2 = c2
  generalize e3 : P.coeff 3 = c3
  rw [cubic_form hP, e, e1, e2, e3]
  refine ⟨?_, ?_, ?_⟩ <;> simp <;> ring

theorem eval_linear {P : Polynomial K} (hP : P.natDegree ≤ 1) (s : K) :
    P.eval s = P.coeff 0 + P.coeff 1 * s ∧ P.derivative.eval s = P.coeff 1 := by
  generalize e : P.coeff 0 = c0
  generalize e1 : P.coeff 1 = c1
  rw [linear_form hP, e, e1]
  refine ⟨?_, ?_⟩ <;> simp

/-- Local components of `beam2DU` of a bent bar. -/
theorem Spec.BendsTo.frameU {X : Matrix (Fin 2) (Fin 2) K} {L : K} {u : Fin 2 × Fin 3 → K} {P : Polynomial K} (h : BendsTo X L u P) :
    (frameU ((X 1 0 - X 0 0) / L) ((X 1 1 - X 0 1) / L)).mulVec u = ![P.eval 0, P.derivative.eval 0, P.eval L, P.derivative.eval L] := by
  rw [frameU_mulVec, ← h.start, ← h.slope, ← h.stop, ← h.slope']
  unfold across
  funext r
  fin_cases r <;> simp <;> ring

theorem Spec.BendsTo.frame {X : Matrix (Fin 2) (Fin 2) K} {L : K} {u : Fin 2 × Fin 3 → K} {P A : Polynomial K} (h : BendsTo X L u P)
    (h' : StretchesTo X L u A) :
    (frame ((X 1 0 - X 0 0) / L) ((X 1 1 - X 0 1) / L)).mulVec u =
      ![A.eval 0, P.eval 0, P.derivative.eval 0, A.eval L, P.eval L, P.derivative.eval L] := by
  rw [frame_mulVec, ← h.start, ← h.slope, ← h.stop, ← h.slope', ← h'.start, ← h'.stop]
  unfold across along
  funext r
  fin_cases r <;> simp <;> ring

/-- Integral over `0 ≤ s ≤ L` of the product of the second derivatives of two cubics, through their coefficients. -/
def bendInt (L : K) (P Q : Polynomial K) : K :=
  4 * (P.coeff 2 * Q.coeff 2) * L + 6 * (P.coeff 2 * Q.coeff 3 + P.coeff 3 * Q.coeff 2) * L ^ 2 + 12 * (P.coeff 3 * Q.coeff 3) * L ^ 3

/-- Integral over `0 ≤ s ≤ L` of the product of two cubics, through their coefficients. -/
def prodInt (L : K) (P Q : Polynomial K) : K :=
  P.coeff 0 * Q.coeff 0 * L + (P.coeff 0 * Q.coeff 1 + P.coeff 1 * Q.coeff 0) * (L ^ 2 / 2) +
  (P.coeff 0 * Q.coeff 2 + P.coeff 1 * Q.coeff 1 + P.coeff 2 * Q.coeff 0) * (L ^ 3 / 3) +
  (P.coeff 0 * Q.coeff 3 + P.coeff 1 * Q.coeff 2 + P.coeff 2 * Q.coeff 1 + P.coeff 3 * Q.coeff 0) * (L ^ 4 / 4) +
  (P.coeff 1 * Q.coeff 3 + P.coeff 2 * Q.coeff 2 + P.coeff 3 * Q.coeff 1) * (L ^ 5 / 5) +
  (P.coeff 2 * Q.coeff 3 + P.coeff 3 * Q.coeff 2) * (L ^ 6 / 6) + P.coeff 3 * Q.coeff 3 * (L ^ 7 / 7)

theorem coreU_cubic {P Q : Polynomial K} (hP : P.natDegree ≤ 3) (hQ : Q.natDegree ≤ 3) {L : K} (hL : L ≠ 0) (b : K) :
    ![P.eval 0, P.derivative.eval 0, P.eval L, P.derivative.eval L] ⬝ᵥ
      (beamUCore (b / L ^ 3) L).mulVec ![Q.eval 0, Q.derivative.eval 0, Q.eval L, Q.derivative.eval L] = b * bendInt L P Q := by
  rw [coreU_mulVec]
  obtain ⟨p1, p2, -⟩ := eval_cubic hP 0
  obtain ⟨p3, p4, -⟩ := eval_cubic hP L
  obtain ⟨q1, q2, -⟩ := eval_cubic hQ 0
  obtain ⟨q3, q4, -⟩ := eval_cubic hQ L
  rw [p1, p2, p3, p4, q1, q2, q3, q4]
  unfold bendInt
  generalize P.coeff 0 = c0
  generalize P.coeff 1 = c1
  generalize P.coeff 2 = c2
  generalize P.coeff 3 = c3
  generalize Q.coeff 0 = d0
  generalize Q.coeff 1 = d1
  generalize Q.coeff 2 = d2
  generalize Q.coeff 3 = d3
  simp [dotProduct, Fin.sum_univ_four]
  field_simp
  ring

theorem massU_cubic {P Q : Polynomial K} (hP : P.natDegree ≤ 3) (hQ : Q.natDegree ≤ 3) (μ L : K) :
    ![P.eval 0, P.derivative.eval 0, P.eval L, P.derivative.eval L] ⬝ᵥ
      (beamUMassCore (μ * L) L).mulVec ![Q.eval 0, Q.derivative.eval 0, Q.eval L, Q.derivative.eval L] = μ * prodInt L P Q := by
  rw [massU_mulVec]
  obtain ⟨p1, p2, -⟩ := eval_cubic hP 0
  obtain ⟨p3, p4, -⟩ := eval_cubic hP L
  obtain ⟨q1, q2, -⟩ := eval_cubic hQ 0
  obtain ⟨q3, q4, -⟩ := eval_cubic hQ L
  rw [p1, p2, p3, p4, q1, q2, q3, q4]
  unfold prodInt
  generalize P.coeff 0 = c0
  generalize P.coeff 1 = c1
  generalize P.coeff 2 = c2
  generalize P.coeff 3 = c3
  generalize Q.coeff 0 = d0
  generalize Q.coeff 1 = d1
  generalize Q.coeff 2 = d2
  generalize Q.coeff 3 = d3
  simp [dotProduct, Fin.sum_univ_four]
  ring

theorem core_cubic {P Q A B : Polynomial K} (hP : P.natDegree ≤ 3) (hQ : Q.natDegree ≤ 3) (hA : A.natDegree ≤ 1) (hB : B.natDegree ≤ 1)
    {L : K} (hL : L ≠ 0) {I : K} (hI : I ≠ 0) (E S : K) :
    ![A.eval 0, P.eval 0, P.derivative.eval 0, A.eval L, P.eval L, P.derivative.eval L] ⬝ᵥ
      (beamCore (I * E / L ^ 3) (S / I) L).mulVec ![B.eval 0, Q.eval 0, Q.derivative.eval 0, B.eval L, Q.eval L, Q.derivative.eval L] =
        E * I * bendInt L P Q + E * S * (A.coeff 1 * B.coeff 1 * L) := by
  rw [core_mulVec]
  obtain ⟨p1, p2, -⟩ := eval_cubic hP 0
  obtain ⟨p3, p4, -⟩ := eval_cubic hP L
  obtain ⟨q1, q2, -⟩ := eval_cubic hQ 0
  obtain ⟨q3, q4, -⟩ := eval_cubic hQ L
  rw [p1, p2, p3, p4, q1, q2, q3, q4, (eval_linear hA 0).1, (eval_linear hA L).1, (eval_linear hB 0).1, (eval_linear hB L).1]
  unfold bendInt
  generalize P.coeff 0 = c0
  generalize P.coeff 1 = c1
  generalize P.coeff 2 = c2
  generalize P.coeff 3 = c3
  generalize Q.coeff 0 = d0
  generalize Q.coeff 1 = d1
  generalize Q.coeff 2 = d2
  generalize Q.coeff 3 = d3
  simp [dotProduct, Fin.sum_univ_six]
  field_simp
  ring

theorem mass_cubic {P Q A B : Polynomial K} (hP : P.natDegree ≤ 3) (hQ : Q.natDegree ≤ 3) (hA : A.natDegree ≤ 1) (hB : B.natDegree ≤ 1)
    (μ L : K) :
    ![A.eval 0, P.eval 0, P.derivative.eval 0, A.eval L, P.eval L, P.derivative.eval L] ⬝ᵥ
      ((μ * L / 420) • beamMassArr L).mulVec ![B.eval 0, Q.eval 0, Q.derivative.eval 0, B.eval L, Q.eval L, Q.derivative.eval L] =
        μ * (prodInt L P Q + prodInt L A B) := by
  rw [mass_mulVec]
  obtain ⟨p1, p2, -⟩ := eval_cubic hP 0
  obtain ⟨p3, p4, -⟩ := eval_cubic hP L
  obtain ⟨q1, q2, -⟩ := eval_cubic hQ 0
  obtain ⟨q3, q4, -⟩ := eval_cubic hQ L
  rw [p1, p2, p3, p4, q1, q2, q3, q4, (eval_linear hA 0).1, (eval_linear hA L).1, (eval_linear hB 0).1, (eval_linear hB L).1]
  unfold prodInt
  rw [Polynomial.coeff_eq_zero_of_natDegree_lt (p := A) (n := 2) (by omega), Polynomial.coeff_eq_zero_of_natDegree_lt (p := A) (n := 3) (by omega),
    Polynomial.coeff_eq_zero_of_natDegree_lt (p := B) (n := 2) (by omega), Polynomial.coeff_eq_zero_of_natDegree_lt (p := B) (n := 3) (by omega)]
  generalize P.coeff 0 = c0
  generalize P.coeff 1 = c1
  generalize P.coeff 2 = c2
  generalize P.coeff 3 = c3
  generalize Q.coeff 0 = d0
  generalize Q.coeff 1 = d1
  generalize Q.coeff 2 = d2
  generalize Q.coeff 3 = d3
  simp [dotProduct, Fin.sum_univ_six]
  ring

/-- The cubic with given values and slopes at the ends. -/
noncomputable def hermite (L v0 t0 v1 t1 : K) : Polynomial K :=
  Polynomial.C v0 + Polynomial.C t0 * Polynomial.X + Polynomial.C ((3 * (v1 - v0) - L * (2 * t0 + t1)) / L ^ 2) * Polynomial.X ^ 2 +
    Polynomial.C ((2 * (v0 - v1) + L * (t0 + t1)) / L ^ 3) * Polynomial.X ^ 3

theorem hermite_spec {L : K} (hL : L ≠ 0) (v0 t0 v1 t1 : K) : (hermite L v0 t0 v1 t1).natDegree ≤ 3 ∧
    (hermite L v0 t0 v1 t1).eval 0 = v0 ∧ (hermite L v0 t0 v1 t1).derivative.eval 0 = t0 ∧
    (hermite L v0 t0 v1 t1).eval L = v1 ∧ (hermite L v0 t0 v1 t1).derivative.eval L = t1 := by
  refine ⟨by unfold hermite; compute_degree, ?_, ?_, ?_, ?_⟩ <;> unfold hermite <;> simp <;> field_simp <;> ring

/-- C121.  Whatever the displacements and rotations of the ends, one cubic and one linear function have them. -/
theorem C121_curves (X : Matrix (Fin 2) (Fin 2) K) {L : K} (hL : L ≠ 0) (u : Fin 2 × Fin 3 → K) :
    (∃! P, BendsTo X L u P) ∧ ∃! A, StretchesTo X L u A := by
  constructor
  · obtain ⟨h0, h1, h2, h3, h4⟩ := hermite_spec hL (across X L u 0) (u (0, 2)) (across X L u 1) (u (1, 2))
    refine ⟨_, ⟨h0, h1.symm, h2.symm, h3.symm, h4.symm⟩, fun P hP => ?_⟩
    obtain ⟨p1, p2, -⟩ := eval_cubic hP.cubic 0
    obtain ⟨p3, p4, -⟩ := eval_cubic hP.cubic L
    unfold hermite
    rw [hP.start, hP.slope, hP.stop, hP.slope', p1, p2, p3, p4]
    conv_lhs => rw [cubic_form hP.cubic]
    have e2 : (3 * (P.coeff 0 + P.coeff 1 * L + P.coeff 2 * L ^ 2 + P.coeff 3 * L ^ 3 - (P.coeff 0 + P.coeff 1 * 0 + P.coeff 2 * 0 ^ 2 +
        P.coeff 3 * 0 ^ 3)) - L * (2 * (P.coeff 1 + 2 * P.coeff 2 * 0 + 3 * P.coeff 3 * 0 ^ 2) + (P.coeff 1 + 2 * P.coeff 2 * L +
        3 * P.coeff 3 * L ^ 2))) / L ^ 2 = P.coeff 2 := by
      field_simp
      ring
    have e3 : (2 * (P.coeff 0 + P.coeff 1 * 0 + P.coeff 2 * 0 ^ 2 + P.coeff 3 * 0 ^ 3 - (P.coeff 0 + P.coeff 1 * L + P.coeff 2 * L ^ 2 +
        P.coeff 3 * L ^ 3)) + L * (P.coeff 1 + 2 * P.coeff 2 * 0 + 3 * P.coeff 3 * 0 ^ 2 + (P.coeff 1 + 2 * P.coeff 2 * L +
        3 * P.coeff 3 * L ^ 2))) / L ^ 3 = P.coeff 3 := by
      field_simp
      ring
    rw [e2, e3]
    simp
  · refine ⟨Polynomial.C (along X L u 0) + Polynomial.C ((along X L u 1 - along X L u 0) / L) * Polynomial.X,
      ⟨by compute_degree, by simp, by simp; field_simp; ring⟩, fun A hA => ?_⟩
    conv_lhs => rw [linear_form hA.linear]
    rw [hA.start, hA.stop, (eval_linear hA.linear 0).1, (eval_linear hA.linear L).1]
    congr 2
    · simp
    · rw [mul_zero, add_zero, add_sub_cancel_left, mul_div_cancel_right₀ _ hL]

end

section
variable {sq : ℝ → ℝ} {X : Matrix (Fin 2) (Fin 2) ℝ} {L : ℝ} {params : List ℝ} {E I A μ : ℝ} {k m : Matrix (Fin 2 × Fin 3) (Fin 2 × Fin 3) ℝ}
  {u v : Fin 2 × Fin 3 → ℝ} {P Q R S : Polynomial ℝ}

theorem integral_seven (a0 a1 a2 a3 a4 a5 a6 L : ℝ) :
    ∫ s in (0 : ℝ)..L, (a0 + a1 * s + a2 * s ^ 2 + a3 * s ^ 3 + a4 * s ^ 4 + a5 * s ^ 5 + a6 * s ^ 6) =
      a0 * L + a1 * (L ^ 2 / 2) + a2 * (L ^ 3 / 3) + a3 * (L ^ 4 / 4) + a4 * (L ^ 5 / 5) + a5 * (L ^ 6 / 6) + a6 * (L ^ 7 / 7) := by
  have key : ∀ s : ℝ, HasDerivAt (fun s => a0 * s + a1 * (s ^ 2 / 2) + a2 * (s ^ 3 / 3) + a3 * (s ^ 4 / 4) + a4 * (s ^ 5 / 5) +
      a5 * (s ^ 6 / 6) + a6 * (s ^ 7 / 7)) (a0 + a1 * s + a2 * s ^ 2 + a3 * s ^ 3 + a4 * s ^ 4 + a5 * s ^ 5 + a6 * s ^ 6) s := by
    intro s
    have p : ∀ n : ℕ, HasDerivAt (fun s : ℝ => s ^ n) (n * s ^ (n - 1)) s := fun n => hasDerivAt_pow n s
    refine (((((((((hasDerivAt_id s).const_mul a0).add (((p 2).div_const 2).const_mul a1)).add (((p 3).div_const 3).const_mul a2)).add
      (((p 4).div_const 4).const_mul a3)).add (((p 5).div_const 5).const_mul a4)).add (((p 6).div_const 6).const_mul a5)).add
      (((p 7).div_const 7).const_mul a6))).congr_deriv ?_
    norm_num
  rw [intervalIntegral.integral_eq_sub_of_hasDerivAt (fun s _ => key s) (Continuous.intervalIntegrable (by fun_prop) _ _)]
  simp

theorem bend_integral (hP : P.natDegree ≤ 3) (hQ : Q.natDegree ≤ 3) (L : ℝ) :
    ∫ s in (0 : ℝ)..L, P.derivative.derivative.eval s * Q.derivative.derivative.eval s = bendInt L P Q := by
  have := integral_seven (4 * (P.coeff 2 * Q.coeff 2)) (12 * (P.coeff 2 * Q.coeff 3 + P.coeff 3 * Q.coeff 2)) (36 * (P.coeff 3 * Q.coeff 3))
    0 0 0 0 L
  unfold bendInt
  refine Eq.trans ?_ (this.trans (by ring))
  refine intervalIntegral.integral_congr fun s _ => ?_
  rw [(eval_cubic hP s).2.2, (eval_cubic hQ s).2.2]
  ring

theorem prod_integral (hP : P.natDegree ≤ 3) (hQ : Q.natDegree ≤ 3) (L : ℝ) :
    ∫ s in (0 : ℝ)..L, P.eval s * Q.eval s = prodInt L P Q := by
  unfold prodInt
  rw [← integral_seven]
  refine intervalIntegral.integral_congr fun s _ => ?_
  rw [(eval_cubic hP s).1, (eval_cubic hQ s).1]
  ring

theorem stretch_integral (hP : P.natDegree ≤ 1) (hQ : Q.natDegree ≤ 1) (L : ℝ) :
    ∫ s in (0 : ℝ)..L, P.derivative.eval s * Q.derivative.eval s = P.coeff 1 * Q.coeff 1 * L := by
  have : ∀ s, P.derivative.eval s * Q.derivative.eval s = P.coeff 1 * Q.coeff 1 := fun s => by
    rw [(eval_linear hP s).2, (eval_linear hQ s).2]
  simp only [this, intervalIntegral.integral_const, sub_zero, smul_eq_mul]
  ring

/-- C121.  The stiffness of `beam2DU` is the bending energy, and its mass the kinetic energy, of the cubic curves of the ends. -/
theorem C121_beam2DU (hs : SqrtFn sq) (hL : IsLength X L) (hp : BeamUParams params E I μ)
    (h : Gives (beam2DU sq) (matRows X) params k m) (hu : BendsTo X L u P) (hv : BendsTo X L v Q) :
    v ⬝ᵥ k.mulVec u = E * I * ∫ s in (0 : ℝ)..L, Q.derivative.derivative.eval s * P.derivative.derivative.eval s ∧
    v ⬝ᵥ m.mulVec u = μ * ∫ s in (0 : ℝ)..L, Q.eval s * P.eval s := by
  obtain ⟨rfl, rfl⟩ := (beamU_returns hs hL hp).1 h
  rw [triple_form, triple_form, hu.frameU, hv.frameU, coreU_cubic hv.cubic hu.cubic hL.1.ne', massU_cubic hv.cubic hu.cubic,
    bend_integral hv.cubic hu.cubic, prod_integral hv.cubic hu.cubic, mul_comm I E]
  exact ⟨rfl, rfl⟩

/-- C121.  The stiffness of `beam2D` is the energy of bending and stretching, and its mass the kinetic energy, of the cubic and linear
functions of the ends. -/
theorem C121_beam2D (hs : SqrtFn sq) (hL : IsLength X L) (hp : BeamParams params E I A μ)
    (h : Gives (beam2D sq) (matRows X) params k m) (hu : BendsTo X L u P) (hv : BendsTo X L v Q) (hu' : StretchesTo X L u R)
    (hv' : StretchesTo X L v S) :
    v ⬝ᵥ k.mulVec u = (E * I * ∫ s in (0 : ℝ)..L, Q.derivative.derivative.eval s * P.derivative.derivative.eval s) +
      (E * A * ∫ s in (0 : ℝ)..L, S.derivative.eval s * R.derivative.eval s) ∧
    v ⬝ᵥ m.mulVec u = μ * ((∫ s in (0 : ℝ)..L, Q.eval s * P.eval s) + ∫ s in (0 : ℝ)..L, S.eval s * R.eval s) := by
  obtain ⟨rfl, rfl⟩ := (beam_returns hs hL hp).1 h
  have l1 : S.natDegree ≤ 3 := hv'.linear.trans (by norm_num)
  have l2 : R.natDegree ≤ 3 := hu'.linear.trans (by norm_num)
  rw [triple_form, triple_form, hu.frame hu', hv.frame hv', core_cubic hv.cubic hu.cubic hv'.linear hu'.linear hL.1.ne' hp.1,
    mass_cubic hv.cubic hu.cubic hv'.linear hu'.linear, bend_integral hv.cubic hu.cubic, prod_integral hv.cubic hu.cubic,
    stretch_integral hv'.linear hu'.linear, prod_integral l1 l2]
  exact ⟨rfl, rfl⟩

/-- C121.  No curve with the same ends stores less bending energy than the cubic. -/
theorem C121_least (hL : IsLength X L) (hu : BendsTo X L u P) {f f' f'' : ℝ → ℝ} (h1 : ∀ s, HasDerivAt f (f' s) s)
    (h2 : ∀ s, HasDerivAt f' (f'' s) s) (hc : Continuous f'') (e0 : f 0 = across X L u 0) (e1 : f' 0 = u (0, 2))
    (e2 : f L = across X L u 1) (e3 : f' L = u (1, 2)) :
    ∫ s in (0 : ℝ)..L, P.derivative.derivative.eval s * P.derivative.derivative.eval s ≤ ∫ s in (0 : ℝ)..L, f'' s * f'' s := by
  have hP := fun s => (eval_cubic hu.cubic s).2.2
  have d0 : ∀ s, HasDerivAt (fun s => P.eval s) (P.derivative.eval s) s := fun s => P.hasDerivAt s
  have d1 : ∀ s, HasDerivAt (fun s => P.derivative.eval s) (P.derivative.derivative.eval s) s := fun s => P.derivative.hasDerivAt s
  have d2 : ∀ s, HasDerivAt (fun s => P.derivative.derivative.eval s) (6 * P.coeff 3) s := by
    intro s
    refine (P.derivative.derivative.hasDerivAt s).congr_deriv ?_
    conv_lhs => rw [cubic_form hu.cubic]
    simp
    ring
  have cP : Continuous fun s => P.derivative.derivative.eval s := P.derivative.derivative.continuous
  have cross : ∫ s in (0 : ℝ)..L, (P.derivative.derivative.eval s * (f'' s - P.derivative.derivative.eval s)) = 0 := by
    have key : ∀ s, HasDerivAt (fun s => P.derivative.derivative.eval s * (f' s - P.derivative.eval s) - 6 * P.coeff 3 * (f s - P.eval s))
        (P.derivative.derivative.eval s * (f'' s - P.derivative.derivative.eval s)) s := by
      intro s
      refine (((d2 s).mul ((h2 s).sub (d1 s))).sub (((h1 s).sub (d0 s)).const_mul (6 * P.coeff 3))).congr_deriv ?_
      rw [Pi.sub_apply]
      ring
    rw [intervalIntegral.integral_eq_sub_of_hasDerivAt (fun s _ => key s) (Continuous.intervalIntegrable (by fun_prop) _ _)]
    rw [e0, e1, e2, e3, hu.start, hu.slope, hu.stop, hu.slope']
    ring
  have split : ∫ s in (0 : ℝ)..L, f'' s * f'' s = (∫ s in (0 : ℝ)..L, P.derivative.derivative.eval s * P.derivative.derivative.eval s) +
      2 * (∫ s in (0 : ℝ)..L, (P.derivative.derivative.eval s * (f'' s - P.derivative.derivative.eval s))) +
      ∫ s in (0 : ℝ)..L, (f'' s - P.derivative.derivative.eval s) * (f'' s - P.derivative.derivative.eval s) := by
    rw [← intervalIntegral.integral_const_mul, ← intervalIntegral.integral_add, ← intervalIntegral.integral_add]
    · exact intervalIntegral.integral_congr fun s _ => by ring
    all_goals exact Continuous.intervalIntegrable (by fun_prop) _ _
  rw [split, cross, mul_zero, add_zero]
  exact le_add_of_nonneg_right (intervalIntegral.integral_nonneg hL.1.le fun s _ => mul_self_nonneg _)

/-- An inclined beam whose ends turn by one and whose first end moves. -/
example : ∃ P A, BendsTo (!![0, 0; 3, 4] : Matrix (Fin 2) (Fin 2) ℝ) 5 (fun q => ![![5, 0, 1], ![0, 0, 1]] q.1 q.2) P ∧
    StretchesTo (!![0, 0; 3, 4] : Matrix (Fin 2) (Fin 2) ℝ) 5 (fun q => ![![5, 0, 1], ![0, 0, 1]] q.1 q.2) A ∧
    IsLength (!![0, 0; 3, 4] : Matrix (Fin 2) (Fin 2) ℝ) 5 ∧ P.eval 0 = 4 ∧ A.eval 0 = 3 ∧ ∃ k m : Matrix (Fin 2 × Fin 3) (Fin 2 × Fin 3) ℝ,
      Gives (beam2D Real.sqrt) (matRows (!![0, 0; 3, 4] : Matrix (Fin 2) (Fin 2) ℝ)) [2, 3, 7] k m := by
  obtain ⟨⟨P, hP, -⟩, A, hA, -⟩ := C121_curves (!![0, 0; 3, 4] : Matrix (Fin 2) (Fin 2) ℝ) (L := 5) (by norm_num)
    fun q => ![![5, 0, 1], ![0, 0, 1]] q.1 q.2
  have hL : IsLength (!![0, 0; 3, 4] : Matrix (Fin 2) (Fin 2) ℝ) 5 := ⟨by norm_num, by norm_num⟩
  refine ⟨P, A, hP, hA, hL, ?_, ?_, _, _, (beam_returns sqrtFn_real hL ⟨by norm_num, .inl ⟨rfl, rfl⟩⟩).2 ⟨rfl, rfl⟩⟩
  · rw [← hP.start]
    norm_num [across]
  · rw [← hA.start]
    norm_num [along]

end
end SolidsPy
