import Verif.Proofs.Integration
import Verif.Proofs.Py
import Mathlib.Data.List.Sort

/-! # C59, C60, C63, C64: the quadrature tables -/

set_option maxRecDepth 20000

namespace SolidsPy
open Spec Gauss

/-! ## C59 -/

/-- C59.  The 1D tables exist for 2 to 10 points; every other integer is a `ValueError`. -/
theorem C59_raises (n : ℤ) (h : ¬ (2 ≤ n ∧ n ≤ 10)) : gauss1d n = .error .valueError := by
  unfold gauss1d
  split <;> first | rfl | (exfalso; omega)

/-- What is claimed of each 1D table. -/
def Good1d (n : ℤ) (p w : List ℚ) : Prop :=
  p.length = n ∧ w.length = n ∧ (∀ x ∈ p, -1 < x ∧ x < 1) ∧ p.Pairwise (· < ·) ∧
    p.reverse.map (fun x => -x) = p ∧ (∀ x ∈ w, 0 < x) ∧ w.reverse = w

instance (n : ℤ) (p w : List ℚ) : Decidable (Good1d n p w) := by
  unfold Good1d
  infer_instance

theorem good1d_ok {n : ℤ} {p w : List ℚ} (hg : Good1d n p w) :
    ∃ p' w', (.ok (p, w) : Py (List ℚ × List ℚ)) = .ok (p', w') ∧ Good1d n p' w' := ⟨p, w, rfl, hg⟩

/-- C59.  For 2 to 10 there are that many points and weights; points increase, are symmetric and inside the
interval; weights are positive and symmetric. -/
theorem C59_tables (n : ℤ) (h2 : 2 ≤ n) (h10 : n ≤ 10) :
    ∃ p w, gauss1d n = .ok (p, w) ∧ p.length = n ∧ w.length = n ∧ (∀ x ∈ p, -1 < x ∧ x < 1) ∧
      p.Pairwise (· < ·) ∧ p.reverse.map (fun x => -x) = p ∧ (∀ x ∈ w, 0 < x) ∧ w.reverse = w := by
  interval_cases n <;> exact good1d_ok (by decide +kernel)

theorem C59_only_two_to_ten (n : ℤ) {p w : List ℚ} (h : gauss1d n = .ok (p, w)) : 2 ≤ n ∧ n ≤ 10 := by
  by_contra hc
  rw [C59_raises n hc] at h
  simp at h

/-! ## C60 -/

/-- Error of a 1D rule on the monomial of degree `k`. -/
def err1 (p w : List ℚ) (k : ℕ) : ℚ :=
  (List.zipWith (fun x c => c * x ^ k) p w).sum - (1 - (-1) ^ (k + 1)) / (k + 1)

def Exact1 (n : ℕ) (p w : List ℚ) : Prop :=
  ∀ k < 2 * n, -(2 / 1000000000000000000) ≤ err1 p w k ∧ err1 p w k ≤ 2 / 1000000000000000000

instance (n : ℕ) (p w : List ℚ) : Decidable (Exact1 n p w) := by
  unfold Exact1
  infer_instance

theorem exact_tables {n : ℕ} {p w : List ℚ} (h : gauss1d n = .ok (p, w)) : Exact1 n p w := by
  obtain ⟨h2, h10⟩ := C59_only_two_to_ten n h
  have h2' : 2 ≤ n := by omega
  have h10' : n ≤ 10 := by omega
  interval_cases n <;> (cases h; decide +kernel)

theorem err1_cast (p w : List ℚ) (k : ℕ) :
    quad1 p w (fun x => x ^ k) - ∫ x in (-1 : ℝ)..1, x ^ k = ((err1 p w k : ℚ) : ℝ) := by
  rw [quad1_pow, int_pow, ← Rat.cast_sub]
  rfl

theorem monomial1 {n : ℕ} {p w : List ℚ} (h : gauss1d n = .ok (p, w)) {k : ℕ} (hk : k < 2 * n) :
    |quad1 p w (fun x => x ^ k) - ∫ x in (-1 : ℝ)..1, x ^ k| ≤ 2e-18 := by
  obtain ⟨h1, h2⟩ := exact_tables h k hk
  rw [err1_cast, abs_le]
  have e : (2e-18 : ℝ) = ((2 / 1000000000000000000 : ℚ) : ℝ) := by norm_num
  rw [e]
  constructor
  · rw [← Rat.cast_neg]
    exact_mod_cast h1
  · exact_mod_cast h2

theorem eval_support (P : Polynomial ℝ) (x : ℝ) : P.eval x = ∑ i ∈ P.support, P.coeff i * x ^ i := by
  rw [Polynomial.eval_eq_sum, Polynomial.sum]

theorem int_poly (P : Polynomial ℝ) : ∫ x in (-1 : ℝ)..1, P.eval x =
    ∑ i ∈ P.support, P.coeff i * ∫ x in (-1 : ℝ)..1, x ^ i := by
  simp only [eval_support]
  rw [intervalIntegral.integral_finsetSum fun i _ => Continuous.intervalIntegrable (by fun_prop) _ _]
  exact Finset.sum_congr rfl fun i _ => intervalIntegral.integral_const_mul _ _

/-- C60.  The n-point rule integrates every polynomial of degree at most 2n-1 over [-1,1], up to the
rounding of the table. -/
theorem C60_exact {n : ℕ} {p w : List ℚ} (h : gauss1d n = .ok (p, w)) (P : Polynomial ℝ)
    (hP : P.natDegree < 2 * n) :
    |quad1 p w (fun x => P.eval x) - ∫ x in (-1 : ℝ)..1, P.eval x| ≤ 2e-18 * coefSum P := by
  have e : (fun x => P.eval x) = fun x => ∑ i ∈ P.support, P.coeff i * x ^ i := funext (eval_support P)
  rw [int_poly, e, quad1_sum]
  refine combine _ _ _ _ fun i hi => monomial1 h ?_
  exact lt_of_le_of_lt (Polynomial.le_natDegree_of_mem_supp i hi) hP

/-- The degree is the best possible: the n-point rules do not integrate `x ^ (2 n)`. -/
theorem C60_sharp {n : ℕ} {p w : List ℚ} (h : gauss1d n = .ok (p, w)) :
    1e-6 < |quad1 p w (fun x => x ^ (2 * n)) - ∫ x in (-1 : ℝ)..1, x ^ (2 * n)| := by
  have key : err1 p w (2 * n) < -(1 / 1000000) := by
    obtain ⟨h2, h10⟩ := C59_only_two_to_ten n h
    have h2' : 2 ≤ n := by omega
    have h10' : n ≤ 10 := by omega
    interval_cases n <;> (cases h; decide +kernel)
  rw [err1_cast, lt_abs]
  right
  have e : (1e-6 : ℝ) = ((1 / 1000000 : ℚ) : ℝ) := by norm_num
  rw [e, ← Rat.cast_neg]
  have := neg_lt_neg key
  rw [neg_neg] at this
  exact_mod_cast this

/-- The cubic `x ^ 3 + 3 x ^ 2` with the two-point rule. -/
example : |quad1 pts1d2 wts1d2 (fun x => (Polynomial.X ^ 3 + 3 * Polynomial.X ^ 2 : Polynomial ℝ).eval x) -
    ∫ x in (-1 : ℝ)..1, (Polynomial.X ^ 3 + 3 * Polynomial.X ^ 2 : Polynomial ℝ).eval x| ≤
    2e-18 * coefSum (Polynomial.X ^ 3 + 3 * Polynomial.X ^ 2) := by
  refine C60_exact (n := 2) rfl _ ?_
  have : (Polynomial.X ^ 3 + 3 * Polynomial.X ^ 2 : Polynomial ℝ).natDegree ≤ 3 := by compute_degree
  omega

/-! ## C63 -/

/-- C63.  Triangle tables exist for orders 1 to 7; every other integer is a `ValueError`. -/
theorem C63_raises (n : ℤ) (h : ¬ (1 ≤ n ∧ n ≤ 7)) : gaussTri n = .error .valueError := by
  unfold gaussTri
  split <;> first | rfl | (exfalso; omega)

def GoodTri (p : List (ℚ × ℚ)) (w : List ℚ) : Prop :=
  p.length = w.length ∧ ∀ x ∈ p, 0 < x.1 ∧ 0 < x.2 ∧ x.1 + x.2 < 1

instance (p : List (ℚ × ℚ)) (w : List ℚ) : Decidable (GoodTri p w) := by
  unfold GoodTri
  infer_instance

/-- C63.  There are as many weights as points, and all points are inside the triangle. -/
theorem C63_tables (n : ℤ) (h1 : 1 ≤ n) (h7 : n ≤ 7) : ∃ p w, gaussTri n = .ok (p, w) ∧
    p.length = w.length ∧ ∀ x ∈ p, 0 < x.1 ∧ 0 < x.2 ∧ x.1 + x.2 < 1 := by
  have key : ∀ {p w}, GoodTri p w → ∃ p' w', (.ok (p, w) : Py (List (ℚ × ℚ) × List ℚ)) = .ok (p', w') ∧
    p'.length = w'.length ∧ ∀ x ∈ p', 0 < x.1 ∧ 0 < x.2 ∧ x.1 + x.2 < 1 := fun h => ⟨_, _, rfl, h⟩
  interval_cases n <;> exact key (by decide +kernel)

def errTri (p : List (ℚ × ℚ)) (w : List ℚ) (i j : ℕ) : ℚ :=
  1 / 2 * (List.zipWith (fun (x : ℚ × ℚ) c => c * (x.1 ^ i * x.2 ^ j)) p w).sum -
    (i.factorial * j.factorial : ℕ) / ((i + j + 2).factorial : ℕ)

def ExactTri (n : ℕ) (p : List (ℚ × ℚ)) (w : List ℚ) : Prop :=
  ∀ i < n + 1, ∀ j < n + 1 - i, -(1 / 1000000000000) ≤ errTri p w i j ∧ errTri p w i j ≤ 1 / 1000000000000

instance (n : ℕ) (p : List (ℚ × ℚ)) (w : List ℚ) : Decidable (ExactTri n p w) := by
  unfold ExactTri
  infer_instance

theorem exact_tri {n : ℕ} {p : List (ℚ × ℚ)} {w : List ℚ} (h : gaussTri n = .ok (p, w)) : ExactTri n p w := by
  have hn : 1 ≤ n ∧ n ≤ 7 := by
    by_contra hc
    rw [C63_raises n (by omega)] at h
    simp at h
  obtain ⟨h2', h10'⟩ := hn
  interval_cases n <;> (cases h; decide +kernel)

theorem monomial2 {n : ℕ} {p : List (ℚ × ℚ)} {w : List ℚ} (h : gaussTri n = .ok (p, w)) {i j : ℕ}
    (hk : i + j ≤ n) : |1 / 2 * quad2 p w (fun x y => x ^ i * y ^ j) -
      (i.factorial * j.factorial : ℝ) / (i + j + 2).factorial| ≤ 1e-12 := by
  obtain ⟨h1, h2⟩ := exact_tri h i (by omega) j (by omega)
  have e : (1e-12 : ℝ) = ((1 / 1000000000000 : ℚ) : ℝ) := by norm_num
  have e2 : 1 / 2 * quad2 p w (fun x y => x ^ i * y ^ j) -
      (i.factorial * j.factorial : ℝ) / (i + j + 2).factorial = ((errTri p w i j : ℚ) : ℝ) := by
    rw [quad2_pow]
    unfold errTri
    push_cast
    ring
  rw [e2, e, abs_le]
  constructor
  · rw [← Rat.cast_neg]
    exact_mod_cast h1
  · exact_mod_cast h2

theorem degree2 {P : MvPolynomial (Fin 2) ℝ} {m : Fin 2 →₀ ℕ} (hm : m ∈ P.support) :
    m 0 + m 1 ≤ P.totalDegree := by
  have h := MvPolynomial.le_totalDegree hm
  rw [Finsupp.sum_fintype _ _ fun _ => rfl, Fin.sum_univ_two] at h
  exact h

theorem degree3 {P : MvPolynomial (Fin 3) ℝ} {m : Fin 3 →₀ ℕ} (hm : m ∈ P.support) :
    m 0 + m 1 + m 2 ≤ P.totalDegree := by
  have h := MvPolynomial.le_totalDegree hm
  rw [Finsupp.sum_fintype _ _ fun _ => rfl, Fin.sum_univ_three] at h
  exact h

/-- C63.  The rule of order n integrates every polynomial of total degree at most n over the triangle, up
to the rounding of the table. -/
theorem C63_exact {n : ℕ} {p : List (ℚ × ℚ)} {w : List ℚ} (h : gaussTri n = .ok (p, w))
    (P : MvPolynomial (Fin 2) ℝ) (hP : P.totalDegree ≤ n) :
    |1 / 2 * quad2 p w (fun x y => MvPolynomial.eval ![x, y] P) -
      intTri (fun x y => MvPolynomial.eval ![x, y] P)| ≤ 1e-12 * mvCoefSum P := by
  have e : (fun x y => MvPolynomial.eval ![x, y] P) =
      fun x y => ∑ m ∈ P.support, P.coeff m * (x ^ m 0 * y ^ m 1) := by
    funext x y
    rw [MvPolynomial.eval_eq']
    simp [Fin.prod_univ_two]
  rw [e, int_tri, quad2_sum, Finset.mul_sum]
  simp only [mul_left_comm (1 / 2 : ℝ)]
  exact combine _ _ _ _ fun m hm => monomial2 h ((degree2 hm).trans hP)

/-- The order-two rule on `x y + x`. -/
example : |1 / 2 * quad2 ptsTri2 wtsTri2 (fun x y =>
      MvPolynomial.eval ![x, y] (MvPolynomial.X 0 * MvPolynomial.X 1 + MvPolynomial.X 0)) -
      intTri (fun x y => MvPolynomial.eval ![x, y] (MvPolynomial.X 0 * MvPolynomial.X 1 + MvPolynomial.X 0))| ≤
      1e-12 * mvCoefSum (n := 2) (MvPolynomial.X 0 * MvPolynomial.X 1 + MvPolynomial.X 0) := by
  refine C63_exact (n := 2) rfl _ ?_
  refine (MvPolynomial.totalDegree_add _ _).trans (max_le ?_ ?_)
  · refine (MvPolynomial.totalDegree_mul _ _).trans ?_
    simp
  · simp

/-! ## C64 -/

/-- C64.  Tetrahedron tables exist for orders 1 to 10; every other integer is a `ValueError`. -/
theorem C64_raises (n : ℤ) (h : ¬ (1 ≤ n ∧ n ≤ 10)) : gaussTet n = .error .valueError := by
  unfold gaussTet
  split <;> first | rfl | (exfalso; omega)

def GoodTet (p : List (ℚ × ℚ × ℚ)) (w : List ℚ) : Prop :=
  p.length = w.length ∧ (∀ x ∈ w, 0 < x) ∧
    ∀ x ∈ p, 0 < x.1 ∧ 0 < x.2.1 ∧ 0 < x.2.2 ∧ x.1 + x.2.1 + x.2.2 < 1

instance (p : List (ℚ × ℚ × ℚ)) (w : List ℚ) : Decidable (GoodTet p w) := by
  unfold GoodTet
  infer_instance

/-- C64.  As many weights as points, all weights positive, all points inside the tetrahedron. -/
theorem C64_tables (n : ℤ) (h1 : 1 ≤ n) (h7 : n ≤ 10) : ∃ p w, gaussTet n = .ok (p, w) ∧
    p.length = w.length ∧ (∀ x ∈ w, 0 < x) ∧
    ∀ x ∈ p, 0 < x.1 ∧ 0 < x.2.1 ∧ 0 < x.2.2 ∧ x.1 + x.2.1 + x.2.2 < 1 := by
  have key : ∀ {p w}, GoodTet p w → ∃ p' w', (.ok (p, w) : Py (List (ℚ × ℚ × ℚ) × List ℚ)) = .ok (p', w') ∧
    p'.length = w'.length ∧ (∀ x ∈ w', 0 < x) ∧
    ∀ x ∈ p', 0 < x.1 ∧ 0 < x.2.1 ∧ 0 < x.2.2 ∧ x.1 + x.2.1 + x.2.2 < 1 := fun h => ⟨_, _, rfl, h⟩
  interval_cases n <;> exact key (by decide +kernel)

def errTet (p : List (ℚ × ℚ × ℚ)) (w : List ℚ) (i j k : ℕ) : ℚ :=
  1 / 6 * (List.zipWith (fun (x : ℚ × ℚ × ℚ) c => c * (x.1 ^ i * (x.2.1 ^ j * x.2.2 ^ k))) p w).sum -
    (i.factorial * j.factorial * k.factorial : ℕ) / ((i + j + k + 3).factorial : ℕ)

def ExactTet (n : ℕ) (p : List (ℚ × ℚ × ℚ)) (w : List ℚ) : Prop :=
  ∀ i < n + 1, ∀ j < n + 1 - i, ∀ k < n + 1 - i - j,
    -(1 / 1000000000000000) ≤ errTet p w i j k ∧ errTet p w i j k ≤ 1 / 1000000000000000

instance (n : ℕ) (p : List (ℚ × ℚ × ℚ)) (w : List ℚ) : Decidable (ExactTet n p w) := by
  unfold ExactTet
  infer_instance

theorem exact_tet {n : ℕ} {p : List (ℚ × ℚ × ℚ)} {w : List ℚ} (h : gaussTet n = .ok (p, w)) :
    ExactTet n p w := by
  have hn : 1 ≤ n ∧ n ≤ 10 := by
    by_contra hc
    rw [C64_raises n (by omega)] at h
    simp at h
  obtain ⟨h2', h10'⟩ := hn
  interval_cases n <;> (cases h; decide +kernel)

theorem monomial3 {n : ℕ} {p : List (ℚ × ℚ × ℚ)} {w : List ℚ} (h : gaussTet n = .ok (p, w)) {i j k : ℕ}
    (hk : i + j + k ≤ n) : |1 / 6 * quad3 p w (fun x y z => x ^ i * (y ^ j * z ^ k)) -
      (i.factorial * j.factorial * k.factorial : ℝ) / (i + j + k + 3).factorial| ≤ 1e-15 := by
  obtain ⟨h1, h2⟩ := exact_tet h i (by omega) j (by omega) k (by omega)
  have e : (1e-15 : ℝ) = ((1 / 1000000000000000 : ℚ) : ℝ) := by norm_num
  have e2 : 1 / 6 * quad3 p w (fun x y z => x ^ i * (y ^ j * z ^ k)) -
      (i.factorial * j.factorial * k.factorial : ℝ) / (i + j + k + 3).factorial =
      ((errTet p w i j k : ℚ) : ℝ) := by
    rw [quad3_pow]
    unfold errTet
    push_cast
    ring
  rw [e2, e, abs_le]
  constructor
  · rw [← Rat.cast_neg]
    exact_mod_cast h1
  · exact_mod_cast h2

/-- C64.  The rule of order n integrates every polynomial of total degree at most n over the tetrahedron,
up to the rounding of the table. -/
theorem C64_exact {n : ℕ} {p : List (ℚ × ℚ × ℚ)} {w : List ℚ} (h : gaussTet n = .ok (p, w))
    (P : MvPolynomial (Fin 3) ℝ) (hP : P.totalDegree ≤ n) :
    |1 / 6 * quad3 p w (fun x y z => MvPolynomial.eval ![x, y, z] P) -
      intTet (fun x y z => MvPolynomial.eval ![x, y, z] P)| ≤ 1e-15 * mvCoefSum P := by
  have e : (fun x y z => MvPolynomial.eval ![x, y, z] P) =
      fun x y z => ∑ m ∈ P.support, P.coeff m * (x ^ m 0 * (y ^ m 1 * z ^ m 2)) := by
    funext x y z
    rw [MvPolynomial.eval_eq']
    simp [Fin.prod_univ_three, mul_assoc]
  rw [e, int_tet, quad3_sum, Finset.mul_sum]
  simp only [mul_left_comm (1 / 6 : ℝ)]
  exact combine _ _ _ _ fun m hm => monomial3 h ((degree3 hm).trans hP)

/-- The order-three rule on `x y z`. -/
example : |1 / 6 * quad3 ptsTet3 wtsTet3 (fun x y z =>
      MvPolynomial.eval ![x, y, z] (MvPolynomial.X 0 * MvPolynomial.X 1 * MvPolynomial.X 2)) -
      intTet (fun x y z => MvPolynomial.eval ![x, y, z]
        (MvPolynomial.X 0 * MvPolynomial.X 1 * MvPolynomial.X 2))| ≤
      1e-15 * mvCoefSum (n := 3) (MvPolynomial.X 0 * MvPolynomial.X 1 * MvPolynomial.X 2) := by
  refine C64_exact (n := 3) rfl _ ?_
  refine (MvPolynomial.totalDegree_mul _ _).trans ?_
  have := MvPolynomial.totalDegree_mul (MvPolynomial.X 0 : MvPolynomial (Fin 3) ℝ) (MvPolynomial.X 1)
  simp only [MvPolynomial.totalDegree_X] at *
  omega

end SolidsPy
