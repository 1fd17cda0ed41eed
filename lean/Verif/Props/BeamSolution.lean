import Verif.Model.Examples
import Verif.Props.Materials
import Mathlib.Analysis.Calculus.Deriv.Pow
import Mathlib.Analysis.Calculus.Deriv.Mul
import Mathlib.Analysis.Calculus.Deriv.Add
import Mathlib.MeasureTheory.Integral.IntervalIntegral.FundThmCalculus
import Mathlib.Tactic.LinearCombination

/-! # C131: the analytic solution of the cantilever in the notebook -/

set_option linter.unusedSectionVars false

namespace SolidsPy
open Spec Fem Examples

variable {nu P E I L h : ℝ}

/-- The five functions of the notebook. -/
noncomputable def beamU (nu P E I L h x y : ℝ) : ℝ := (beamSln x y nu P E I L h).1
noncomputable def beamV (nu P E I L h x y : ℝ) : ℝ := (beamSln x y nu P E I L h).2.1
noncomputable def beamExx (nu P E I L h x y : ℝ) : ℝ := (beamSln x y nu P E I L h).2.2.1
noncomputable def beamEyy (nu P E I L h x y : ℝ) : ℝ := (beamSln x y nu P E I L h).2.2.2.1
noncomputable def beamGxy (nu P E I L h x y : ℝ) : ℝ := (beamSln x y nu P E I L h).2.2.2.2

theorem cubic_deriv (a b c d x : ℝ) :
    HasDerivAt (fun x : ℝ => a * x ^ 3 + b * x ^ 2 + c * x + d) (3 * a * x ^ 2 + 2 * b * x + c) x := by
  have h3 := (hasDerivAt_pow 3 x).const_mul a
  have h2 := (hasDerivAt_pow 2 x).const_mul b
  have h1 := (hasDerivAt_id x).const_mul c
  exact (((h3.add h2).add h1).add_const d).congr_deriv (by norm_num; ring)

/-- Derivative of a function that is a cubic. -/
theorem deriv_of_cubic {f : ℝ → ℝ} {a b c d x e : ℝ} (hf : ∀ x, f x = a * x ^ 3 + b * x ^ 2 + c * x + d)
    (he : e = 3 * a * x ^ 2 + 2 * b * x + c) : HasDerivAt f e x := by
  rw [show f = fun x : ℝ => a * x ^ 3 + b * x ^ 2 + c * x + d from funext hf, he]
  exact cubic_deriv a b c d x

/-- C131.  The reported normal strains are the derivatives of the reported displacements. -/
theorem C131_normal (nu P E I L h x y : ℝ) :
    HasDerivAt (fun x => beamU nu P E I L h x y) (beamExx nu P E I L h x y) x ∧
    HasDerivAt (fun y => beamV nu P E I L h x y) (beamEyy nu P E I L h x y) y := by
  constructor
  · refine deriv_of_cubic (a := 0) (b := -P / (2 * E * I) * y) (c := 0) (d := beamU nu P E I L h 0 y) ?_ ?_
    · intro x
      simp only [beamU, beamSln]
      ring
    · simp only [beamExx, beamSln]
      rcases eq_or_ne (E * I) 0 with h0 | h0
      · rw [mul_assoc 2 E I, h0]; simp
      · rw [mul_assoc 2 E I]; field_simp; ring
  · refine deriv_of_cubic (a := 0) (b := nu * P / (2 * E * I) * x) (c := 0) (d := beamV nu P E I L h x 0) ?_ ?_
    · intro y
      simp only [beamV, beamSln]
      ring
    · simp only [beamEyy, beamSln]
      rcases eq_or_ne (E * I) 0 with h0 | h0
      · rw [mul_assoc 2 E I, h0]; simp
      · rw [mul_assoc 2 E I]; field_simp; ring

/-- C131.  The reported shear strain is not that of the reported displacements: the exact difference. -/
theorem C131_shear (hE : E ≠ 0) (hI : I ≠ 0) (L h x y : ℝ) :
    ∃ uy vx, HasDerivAt (fun y => beamU nu P E I L h x y) uy y ∧ HasDerivAt (fun x => beamV nu P E I L h x y) vx x ∧
      uy + vx = beamGxy nu P E I L h x y + 2 * (1 + nu) * P / (E * I) * (y ^ 2 - (h / 2) ^ 2 / 2) := by
  refine ⟨_, _, deriv_of_cubic (a := -(nu * P) / (6 * E * I) + P / (2 * I * (E / (2 * (1 + nu))))) (b := 0)
    (c := -P / (2 * E * I) * x ^ 2 + (-(P * (h / 2) ^ 2) / (2 * I * (E / (2 * (1 + nu)))) +
      ((P * L ^ 2) / (2 * E * I) + -(P * (h / 2) ^ 2) / (2 * I * (E / (2 * (1 + nu))))))) (d := 0) ?_ rfl,
    deriv_of_cubic (a := P / (6 * E * I)) (b := 0) (c := nu * P / (2 * E * I) * y ^ 2 + -(P * L ^ 2) / (2 * E * I))
      (d := (P * L ^ 3) / (3 * E * I)) ?_ rfl, ?_⟩
  · intro y
    simp only [beamU, beamSln]
    ring
  · intro x
    simp only [beamV, beamSln]
    ring
  · simp only [beamGxy, beamSln]
    field_simp
    ring

/-- C131.  So, with a load, the shear strain agrees with the displacements exactly on the two lines
`y² = c²/2`. -/
theorem C131_shear_iff (hE : E ≠ 0) (hI : I ≠ 0) (hnu : 1 + nu ≠ 0) (hP : P ≠ 0) (L h x y : ℝ) {uy vx : ℝ}
    (h1 : HasDerivAt (fun y => beamU nu P E I L h x y) uy y) (h2 : HasDerivAt (fun x => beamV nu P E I L h x y) vx x) :
    uy + vx = beamGxy nu P E I L h x y ↔ y ^ 2 = (h / 2) ^ 2 / 2 := by
  obtain ⟨uy', vx', h1', h2', he⟩ := C131_shear (nu := nu) (P := P) hE hI L h x y
  rw [h1.unique h1', h2.unique h2', he]
  have hk : 2 * (1 + nu) * P / (E * I) ≠ 0 := by positivity
  constructor
  · intro hz
    have : 2 * (1 + nu) * P / (E * I) * (y ^ 2 - (h / 2) ^ 2 / 2) = 0 := by linarith
    have := (mul_eq_zero.1 this).resolve_left hk
    linarith
  · intro hy
    rw [hy]
    ring

/-- C131.  What would have to be changed: a third of the cubic shear term, and one of the two terms `-P c²/(2IG)`. -/
theorem C131_corrected (hE : E ≠ 0) (hI : I ≠ 0) (L h x y : ℝ) :
    ∃ uy vx, HasDerivAt (fun y => beamU nu P E I L h x y - (1 + nu) * P / (E * I) * (2 / 3 * y ^ 3 - (h / 2) ^ 2 * y)) uy y ∧
      HasDerivAt (fun x => beamV nu P E I L h x y) vx x ∧ uy + vx = beamGxy nu P E I L h x y := by
  obtain ⟨uy, vx, h1, h2, he⟩ := C131_shear (nu := nu) (P := P) hE hI L h x y
  refine ⟨_, vx, h1.sub (deriv_of_cubic (a := (1 + nu) * P / (E * I) * (2 / 3)) (b := 0)
    (c := -((1 + nu) * P / (E * I) * (h / 2) ^ 2)) (d := 0) (fun y => by ring) rfl), h2, ?_⟩
  linear_combination he

/-- The stresses of the reported strains in plane stress. -/
theorem beam_stress (hE : E ≠ 0) (hI : I ≠ 0) (h1 : 1 + nu ≠ 0) (h2 : 1 - nu ≠ 0) (L h x y : ℝ)
    {C : Matrix (Fin 3) (Fin 3) ℝ} (hC : umat [E, nu] = .ok C) :
    C.mulVec ![beamExx nu P E I L h x y, beamEyy nu P E I L h x y, beamGxy nu P E I L h x y] =
      ![-(P / I) * x * y, 0, P / (2 * I) * (y ^ 2 - (h / 2) ^ 2)] := by
  obtain ⟨E', nu', e1, e2, rfl⟩ := umat_ok.1 hC
  simp only [List.cons.injEq, and_true] at e1
  obtain ⟨rfl, rfl⟩ := e1
  have h3 : 1 - nu ^ 2 ≠ 0 := by
    have : 1 - nu ^ 2 = (1 + nu) * (1 - nu) := by ring
    rw [this]
    exact mul_ne_zero h1 h2
  funext i
  fin_cases i
  · simp [Matrix.mulVec, dotProduct, Fin.sum_univ_three, beamExx, beamEyy, beamGxy, beamSln]
    field_simp
    ring
  · simp [Matrix.mulVec, dotProduct, Fin.sum_univ_three, beamExx, beamEyy, beamGxy, beamSln]
    field_simp
    ring
  · simp [Matrix.mulVec, dotProduct, Fin.sum_univ_three, beamExx, beamEyy, beamGxy, beamSln]
    field_simp
    ring

/-- C131.  The reported strains do come from a stress field in equilibrium that leaves the faces `y = ±h/2` free. -/
theorem C131_equilibrium (hE : E ≠ 0) (hI : I ≠ 0) (h1 : 1 + nu ≠ 0) (h2 : 1 - nu ≠ 0) (L h : ℝ)
    {C : Matrix (Fin 3) (Fin 3) ℝ} (hC : umat [E, nu] = .ok C) :
    let s := fun x y => C.mulVec ![beamExx nu P E I L h x y, beamEyy nu P E I L h x y, beamGxy nu P E I L h x y]
    (∀ x y, ∃ sx ty tx sy, HasDerivAt (fun x => s x y 0) sx x ∧ HasDerivAt (fun y => s x y 2) ty y ∧
      HasDerivAt (fun x => s x y 2) tx x ∧ HasDerivAt (fun y => s x y 1) sy y ∧ sx + ty = 0 ∧ tx + sy = 0) ∧
    ∀ x, s x (h / 2) 1 = 0 ∧ s x (h / 2) 2 = 0 ∧ s x (-(h / 2)) 1 = 0 ∧ s x (-(h / 2)) 2 = 0 := by
  intro s
  have hs : ∀ x y, s x y = ![-(P / I) * x * y, 0, P / (2 * I) * (y ^ 2 - (h / 2) ^ 2)] :=
    fun x y => beam_stress hE hI h1 h2 L h x y hC
  constructor
  · intro x y
    refine ⟨_, _, _, _, deriv_of_cubic (a := 0) (b := 0) (c := -(P / I) * y) (d := 0) ?_ rfl,
      deriv_of_cubic (a := 0) (b := P / (2 * I)) (c := 0) (d := -(P / (2 * I) * (h / 2) ^ 2)) ?_ rfl,
      deriv_of_cubic (a := 0) (b := 0) (c := 0) (d := P / (2 * I) * (y ^ 2 - (h / 2) ^ 2)) ?_ rfl,
      deriv_of_cubic (a := 0) (b := 0) (c := 0) (d := 0) ?_ rfl, ?_, ?_⟩
    · intro x
      rw [hs]
      simp
      ring
    · intro y
      rw [hs]
      simp
      ring
    · intro x
      rw [hs]
      simp
    · intro y
      rw [hs]
      simp
    · field_simp
      ring
    · ring
  · intro x
    rw [hs, hs]
    simp

/-- C131.  The resultant of the shear stress on a section is `-P` if and only if `I` is the moment of inertia of a
section of height `h`. -/
theorem C131_resultant (hE : E ≠ 0) (hI : I ≠ 0) (h1 : 1 + nu ≠ 0) (h2 : 1 - nu ≠ 0) (hP : P ≠ 0) (L h x : ℝ)
    {C : Matrix (Fin 3) (Fin 3) ℝ} (hC : umat [E, nu] = .ok C) :
    (∫ y in -(h / 2)..(h / 2),
      C.mulVec ![beamExx nu P E I L h x y, beamEyy nu P E I L h x y, beamGxy nu P E I L h x y] 2) =
        -(P * (h ^ 3 / 12) / I) ∧
    ((∫ y in -(h / 2)..(h / 2),
      C.mulVec ![beamExx nu P E I L h x y, beamEyy nu P E I L h x y, beamGxy nu P E I L h x y] 2) = -P ↔
        I = h ^ 3 / 12) := by
  have hint : (∫ y in -(h / 2)..(h / 2),
      C.mulVec ![beamExx nu P E I L h x y, beamEyy nu P E I L h x y, beamGxy nu P E I L h x y] 2) =
        -(P * (h ^ 3 / 12) / I) := by
    simp only [fun y => beam_stress (P := P) hE hI h1 h2 L h x y hC]
    have key : ∀ y : ℝ, HasDerivAt (fun y => P / (6 * I) * y ^ 3 + 0 * y ^ 2 + -(P / (2 * I) * (h / 2) ^ 2) * y + 0)
        ((![-(P / I) * x * y, 0, P / (2 * I) * (y ^ 2 - (h / 2) ^ 2)] : Fin 3 → ℝ) 2) y := fun y =>
      (cubic_deriv _ _ _ _ y).congr_deriv (by simp; field_simp; ring)
    rw [intervalIntegral.integral_eq_sub_of_hasDerivAt (fun y _ => key y)]
    · field_simp
      ring
    · refine Continuous.intervalIntegrable ?_ _ _
      simp
      fun_prop
  refine ⟨hint, ?_⟩
  rw [hint, neg_inj]
  constructor
  · intro he
    field_simp at he
    linarith
  · intro he
    rw [← he]
    field_simp

/-! ## Cases -/

/-- Case for C131: the values of the notebook (`h = 4`, `I = 42.67`, the moment of inertia for a height of 8 up to
rounding): the section carries about an eighth of the load. -/
example (x : ℝ) {C : Matrix (Fin 3) (Fin 3) ℝ} (hC : umat [(1000 : ℝ), 3 / 10] = .ok C) :
    (∫ y in -((4 : ℝ) / 2)..(4 / 2), C.mulVec ![beamExx (3 / 10) (-50) 1000 (4267 / 100) 24 4 x y,
      beamEyy (3 / 10) (-50) 1000 (4267 / 100) 24 4 x y, beamGxy (3 / 10) (-50) 1000 (4267 / 100) 24 4 x y] 2) =
      80000 / 12801 := by
  rw [(C131_resultant (by norm_num) (by norm_num) (by norm_num) (by norm_num) (by norm_num) 24 4 x hC).1]
  norm_num

/-- Case for C131: such a `C` exists, and at the axis the two shear strains differ. -/
example : (∃ C, umat [(1000 : ℝ), 3 / 10] = .ok C) ∧
    ¬ (0 : ℝ) ^ 2 = (4 / 2) ^ 2 / 2 :=
  ⟨(C35_returns_iff _).2 ⟨_, _, rfl, by norm_num⟩, by norm_num⟩

end SolidsPy
