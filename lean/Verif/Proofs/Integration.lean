import Verif.Spec.Integration
import Mathlib.Tactic.NormNum
import Mathlib.Tactic.FieldSimp

/-! Moments of the monomials, and extension of error bounds from monomials to polynomials. -/

namespace SolidsPy
open Spec

theorem quad1_sum {ι : Type} (p w : List ℚ) (s : Finset ι) (c : ι → ℝ) (φ : ι → ℝ → ℝ) :
    quad1 p w (fun x => ∑ i ∈ s, c i * φ i x) = ∑ i ∈ s, c i * quad1 p w (φ i) := by
  unfold quad1
  induction p generalizing w with
  | nil => simp
  | cons x p ih =>
    cases w with
    | nil => simp
    | cons a w =>
      simp only [List.zipWith_cons_cons, List.sum_cons]
      rw [ih w]
      simp only [mul_add, Finset.sum_add_distrib, Finset.mul_sum]
      congr 1
      refine Finset.sum_congr rfl fun i _ => ?_
      ring

theorem quad2_sum {ι : Type} (p : List (ℚ × ℚ)) (w : List ℚ) (s : Finset ι) (c : ι → ℝ)
    (φ : ι → ℝ → ℝ → ℝ) :
    quad2 p w (fun x y => ∑ i ∈ s, c i * φ i x y) = ∑ i ∈ s, c i * quad2 p w (φ i) := by
  unfold quad2
  induction p generalizing w with
  | nil => simp
  | cons x p ih =>
    cases w with
    | nil => simp
    | cons a w =>
      simp only [List.zipWith_cons_cons, List.sum_cons]
      rw [ih w]
      simp only [mul_add, Finset.sum_add_distrib, Finset.mul_sum]
      congr 1
      refine Finset.sum_congr rfl fun i _ => ?_
      ring

theorem quad3_sum {ι : Type} (p : List (ℚ × ℚ × ℚ)) (w : List ℚ) (s : Finset ι) (c : ι → ℝ)
    (φ : ι → ℝ → ℝ → ℝ → ℝ) :
    quad3 p w (fun x y z => ∑ i ∈ s, c i * φ i x y z) = ∑ i ∈ s, c i * quad3 p w (φ i) := by
  unfold quad3
  induction p generalizing w with
  | nil => simp
  | cons x p ih =>
    cases w with
    | nil => simp
    | cons a w =>
      simp only [List.zipWith_cons_cons, List.sum_cons]
      rw [ih w]
      simp only [mul_add, Finset.sum_add_distrib, Finset.mul_sum]
      congr 1
      refine Finset.sum_congr rfl fun i _ => ?_
      ring

theorem quad1_pow (p w : List ℚ) (k : ℕ) : quad1 p w (fun x => x ^ k) =
    (((List.zipWith (fun x c => c * x ^ k) p w).sum : ℚ) : ℝ) := by
  unfold quad1
  induction p generalizing w with
  | nil => simp
  | cons x p ih =>
    cases w with
    | nil => simp
    | cons a w =>
      simp only [List.zipWith_cons_cons, List.sum_cons, ih]
      push_cast
      rfl

theorem quad2_pow (p : List (ℚ × ℚ)) (w : List ℚ) (i j : ℕ) : quad2 p w (fun x y => x ^ i * y ^ j) =
    (((List.zipWith (fun (x : ℚ × ℚ) c => c * (x.1 ^ i * x.2 ^ j)) p w).sum : ℚ) : ℝ) := by
  unfold quad2
  induction p generalizing w with
  | nil => simp
  | cons x p ih =>
    cases w with
    | nil => simp
    | cons a w =>
      simp only [List.zipWith_cons_cons, List.sum_cons, ih]
      push_cast
      rfl

theorem quad3_pow (p : List (ℚ × ℚ × ℚ)) (w : List ℚ) (i j k : ℕ) :
    quad3 p w (fun x y z => x ^ i * (y ^ j * z ^ k)) =
    (((List.zipWith (fun (x : ℚ × ℚ × ℚ) c => c * (x.1 ^ i * (x.2.1 ^ j * x.2.2 ^ k))) p w).sum : ℚ) : ℝ) := by
  unfold quad3
  induction p generalizing w with
  | nil => simp
  | cons x p ih =>
    cases w with
    | nil => simp
    | cons a w =>
      simp only [List.zipWith_cons_cons, List.sum_cons, ih]
      push_cast
      rfl

/-- An error bound on each term extends to combinations. -/
theorem combine {ι : Type} (s : Finset ι) (c A B : ι → ℝ) {ε : ℝ} (h : ∀ i ∈ s, |A i - B i| ≤ ε) :
    |∑ i ∈ s, c i * A i - ∑ i ∈ s, c i * B i| ≤ ε * ∑ i ∈ s, |c i| := by
  rw [← Finset.sum_sub_distrib, Finset.mul_sum]
  refine (Finset.abs_sum_le_sum_abs _ _).trans (Finset.sum_le_sum fun i hi => ?_)
  rw [← mul_sub, abs_mul, mul_comm]
  exact mul_le_mul_of_nonneg_right (h i hi) (abs_nonneg _)

theorem int_pow (k : ℕ) : ∫ x in (-1 : ℝ)..1, x ^ k = (((1 - (-1) ^ (k + 1)) / (k + 1) : ℚ) : ℝ) := by
  rw [integral_pow]
  push_cast
  rw [one_pow]

/-- `∫_0^c x^a (c-x)^b dx = a! b! / (a+b+1)! c^(a+b+1)`. -/
theorem int_beta (a b : ℕ) (c : ℝ) : ∫ x in (0 : ℝ)..c, x ^ a * (c - x) ^ b =
    (a.factorial * b.factorial : ℝ) / (a + b + 1).factorial * c ^ (a + b + 1) := by
  induction b generalizing a with
  | zero =>
    simp only [pow_zero, mul_one, integral_pow, Nat.factorial_zero, Nat.cast_one, Nat.add_zero]
    rw [Nat.factorial_succ]
    have h1 : (a.factorial : ℝ) ≠ 0 := by positivity
    have h2 : ((a : ℝ) + 1) ≠ 0 := by positivity
    push_cast
    field_simp
    ring
  | succ b ih =>
    have hd : ∀ x ∈ Set.uIcc (0 : ℝ) c, HasDerivAt (fun x : ℝ => x ^ (a + 1) * (c - x) ^ (b + 1))
        ((a + 1 : ℝ) * (x ^ a * (c - x) ^ (b + 1)) - (b + 1 : ℝ) * (x ^ (a + 1) * (c - x) ^ b)) x := by
      intro x _
      have h1 := hasDerivAt_pow (a + 1) x
      have h2 := ((hasDerivAt_id x).const_sub c).pow (b + 1)
      refine (h1.mul h2).congr_deriv ?_
      simp
      ring
    have hi := intervalIntegral.integral_eq_sub_of_hasDerivAt hd
      (Continuous.intervalIntegrable (by fun_prop) _ _)
    rw [intervalIntegral.integral_sub (Continuous.intervalIntegrable (by fun_prop) _ _)
      (Continuous.intervalIntegrable (by fun_prop) _ _), intervalIntegral.integral_const_mul,
      intervalIntegral.integral_const_mul, ih (a + 1)] at hi
    simp only [sub_self, ne_eq, Nat.add_eq_zero_iff, one_ne_zero, and_false, not_false_eq_true, zero_pow,
      mul_zero, zero_mul, sub_zero] at hi
    have h1 : (a + 1 + b + 1) = a + (b + 1) + 1 := by ring
    rw [h1] at hi
    have h2 : ((a : ℝ) + 1) ≠ 0 := by positivity
    apply mul_left_cancel₀ h2
    rw [sub_eq_zero.1 hi, Nat.factorial_succ a, Nat.factorial_succ b]
    push_cast
    ring

/-- Moments of the triangle. -/
theorem int_tri {ι : Type} (s : Finset ι) (c : ι → ℝ) (a b : ι → ℕ) :
    intTri (fun x y => ∑ i ∈ s, c i * (x ^ a i * y ^ b i)) =
      ∑ i ∈ s, c i * (((a i).factorial * (b i).factorial : ℝ) / (a i + b i + 2).factorial) := by
  unfold intTri
  have inner : ∀ r : ℝ, ∫ y in (0 : ℝ)..(1 - r), ∑ i ∈ s, c i * (r ^ a i * y ^ b i) =
      ∑ i ∈ s, c i / (b i + 1) * (r ^ a i * (1 - r) ^ (b i + 1)) := by
    intro r
    rw [intervalIntegral.integral_finsetSum fun i _ => Continuous.intervalIntegrable (by fun_prop) _ _]
    refine Finset.sum_congr rfl fun i _ => ?_
    rw [intervalIntegral.integral_const_mul, intervalIntegral.integral_const_mul, integral_pow]
    simp
    ring
  simp only [inner]
  rw [intervalIntegral.integral_finsetSum fun i _ => Continuous.intervalIntegrable (by fun_prop) _ _]
  refine Finset.sum_congr rfl fun i _ => ?_
  rw [intervalIntegral.integral_const_mul, int_beta, one_pow, mul_one]
  have h1 : ((b i : ℝ) + 1) ≠ 0 := by positivity
  have h2 : a i + (b i + 1) + 1 = a i + b i + 2 := by ring
  rw [h2, Nat.factorial_succ (b i)]
  push_cast
  field_simp

/-- Moments of the tetrahedron. -/
theorem int_tet {ι : Type} (s : Finset ι) (c : ι → ℝ) (a b d : ι → ℕ) :
    intTet (fun x y z => ∑ i ∈ s, c i * (x ^ a i * (y ^ b i * z ^ d i))) =
      ∑ i ∈ s, c i * (((a i).factorial * (b i).factorial * (d i).factorial : ℝ) /
        (a i + b i + d i + 3).factorial) := by
  unfold intTet
  have inner : ∀ r y : ℝ, ∫ z in (0 : ℝ)..(1 - r - y), ∑ i ∈ s, c i * (r ^ a i * (y ^ b i * z ^ d i)) =
      ∑ i ∈ s, c i * r ^ a i / (d i + 1) * (y ^ b i * (1 - r - y) ^ (d i + 1)) := by
    intro r y
    rw [intervalIntegral.integral_finsetSum fun i _ => Continuous.intervalIntegrable (by fun_prop) _ _]
    refine Finset.sum_congr rfl fun i _ => ?_
    rw [intervalIntegral.integral_const_mul, intervalIntegral.integral_const_mul,
      intervalIntegral.integral_const_mul, integral_pow]
    simp
    ring
  have middle : ∀ r : ℝ, ∫ y in (0 : ℝ)..(1 - r),
      ∑ i ∈ s, c i * r ^ a i / (d i + 1) * (y ^ b i * (1 - r - y) ^ (d i + 1)) =
      ∑ i ∈ s, c i * ((b i).factorial * (d i).factorial / (b i + d i + 2).factorial : ℝ) *
        (r ^ a i * (1 - r) ^ (b i + d i + 2)) := by
    intro r
    rw [intervalIntegral.integral_finsetSum fun i _ => Continuous.intervalIntegrable (by fun_prop) _ _]
    refine Finset.sum_congr rfl fun i _ => ?_
    rw [intervalIntegral.integral_const_mul, int_beta]
    have h1 : ((d i : ℝ) + 1) ≠ 0 := by positivity
    have h2 : b i + (d i + 1) + 1 = b i + d i + 2 := by ring
    rw [h2, Nat.factorial_succ (d i)]
    push_cast
    field_simp
  simp only [inner, middle]
  rw [intervalIntegral.integral_finsetSum fun i _ => Continuous.intervalIntegrable (by fun_prop) _ _]
  refine Finset.sum_congr rfl fun i _ => ?_
  rw [intervalIntegral.integral_const_mul, int_beta, one_pow, mul_one]
  have h2 : a i + (b i + d i + 2) + 1 = a i + b i + d i + 3 := by ring
  have h3 : ((b i + d i + 2).factorial : ℝ) ≠ 0 := by positivity
  rw [h2]
  field_simp

end SolidsPy
