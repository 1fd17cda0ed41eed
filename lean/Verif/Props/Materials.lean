import Verif.Spec.Hooke
import Verif.Model.Fem
import Verif.Proofs.Py
import Verif.Proofs.Lits
import Mathlib.Tactic.FieldSimp
import Mathlib.Tactic.FinCases
import Mathlib.Tactic.Linarith
import Mathlib.Tactic.Positivity
import Mathlib.Tactic.LinearCombination
import Mathlib.LinearAlgebra.Matrix.Symmetric

/-! # Constitutive matrices (C34-C37) -/

set_option linter.unusedSectionVars false

namespace SolidsPy
open Spec Fem

section
variable {K : Type} [Field K] [LinearOrder K] [IsStrictOrderedRing K]

theorem umat_ok {params : List K} {C} : umat params = .ok C ↔ ∃ E nu, params = [E, nu] ∧ 1 - nu^2 ≠ 0 ∧
    C = !![E / (1 - nu^2), nu * (E / (1 - nu^2)), 0;
           nu * (E / (1 - nu^2)), E / (1 - nu^2), 0;
           0, 0, E / (1 - nu^2) * ((1 - nu) / 2)] := by
  unfold umat
  split
  · rename_i E nu
    rw [bind_ok]
    unfold pyDiv
    constructor
    · rintro ⟨a, h1, h2⟩
      split_ifs at h1 with h0
      rw [Except.ok.injEq] at h1
      rw [pure_ok] at h2
      subst h1
      exact ⟨E, nu, rfl, h0, h2.symm⟩
    · rintro ⟨E', nu', h1, h2, rfl⟩
      simp only [List.cons.injEq, and_true] at h1
      obtain ⟨rfl, rfl⟩ := h1
      exact ⟨_, if_neg h2, rfl⟩
  · rename_i h
    constructor
    · intro h1; cases h1
    · rintro ⟨E, nu, rfl, _⟩
      exact absurd rfl (h E nu)

theorem lame_ok {E nu : K} {r} : lame E nu = .ok r ↔ 1 + nu ≠ 0 ∧ 1 - 2 * nu ≠ 0 ∧
    r = (E * nu / (1 + nu) / (1 - 2 * nu), 0.5 * E / (1 + nu)) := by
  unfold lame pyDiv
  simp only [bind_ok, pure_ok]
  constructor
  · rintro ⟨a, h1, b, h2, c, h3, h4⟩
    split_ifs at h1 h2 h3 with h5 h6
    rw [Except.ok.injEq] at h1 h2 h3
    subst h1 h2 h3
    exact ⟨h5, h6, h4.symm⟩
  · rintro ⟨h1, h2, rfl⟩
    exact ⟨_, if_neg h1, _, if_neg h2, _, if_neg h1, rfl⟩

/-- `2 mu`. -/
theorem two_mu (E nu : K) : 2 * (0.5 * E / (1 + nu)) = E / (1 + nu) := by
  rw [lit_half]; ring

theorem elastMat_ok {params : List K} {C} : elastMat params = .ok C ↔ ∃ E nu, params = [E, nu] ∧
    1 + nu ≠ 0 ∧ 1 - 2 * nu ≠ 0 ∧ ∃ lam mu, lam = E * nu / (1 + nu) / (1 - 2 * nu) ∧
      2 * mu = E / (1 + nu) ∧
    C = !![2*mu + lam, lam, lam, 0, 0, 0;
            lam, 2*mu + lam, lam, 0, 0, 0;
            lam, lam, 2*mu + lam, 0, 0, 0;
            0, 0, 0, mu, 0, 0;
            0, 0, 0, 0, mu, 0;
            0, 0, 0, 0, 0, mu] := by
  unfold elastMat
  split
  · rename_i E nu
    rw [bind_ok]
    constructor
    · rintro ⟨a, h1, h2⟩
      obtain ⟨h3, h4, rfl⟩ := lame_ok.1 h1
      rw [pure_ok] at h2
      exact ⟨E, nu, rfl, h3, h4, _, _, rfl, two_mu E nu, h2.symm⟩
    · rintro ⟨E', nu', h1, h2, h3, lam, mu, h4, h5, rfl⟩
      simp only [List.cons.injEq, and_true] at h1
      obtain ⟨rfl, rfl⟩ := h1
      refine ⟨_, lame_ok.2 ⟨h2, h3, rfl⟩, ?_⟩
      have : 0.5 * E / (1 + nu) = mu := by
        have h6 := (two_mu E nu).trans h5.symm
        exact mul_left_cancel₀ two_ne_zero h6
      dsimp only
      rw [pure_ok, this, h4]
  · rename_i h
    constructor
    · intro h1; cases h1
    · rintro ⟨E, nu, rfl, _⟩
      exact absurd rfl (h E nu)

theorem elastMatAxi_ok {params : List K} {C} : elastMatAxi params = .ok C ↔ ∃ E nu, params = [E, nu] ∧
    1 + nu ≠ 0 ∧ 1 - 2 * nu ≠ 0 ∧ ∃ lam mu, lam = E * nu / (1 + nu) / (1 - 2 * nu) ∧
      2 * mu = E / (1 + nu) ∧
    C = !![2*mu + lam, lam, 0, 0;
            lam, 2*mu + lam, 0, 0;
            0, 0, mu, 0;
            0, 0, 0, 2*mu + lam] := by
  unfold elastMatAxi
  split
  · rename_i E nu
    rw [bind_ok]
    constructor
    · rintro ⟨a, h1, h2⟩
      obtain ⟨h3, h4, rfl⟩ := lame_ok.1 h1
      rw [pure_ok] at h2
      exact ⟨E, nu, rfl, h3, h4, _, _, rfl, two_mu E nu, h2.symm⟩
    · rintro ⟨E', nu', h1, h2, h3, lam, mu, h4, h5, rfl⟩
      simp only [List.cons.injEq, and_true] at h1
      obtain ⟨rfl, rfl⟩ := h1
      refine ⟨_, lame_ok.2 ⟨h2, h3, rfl⟩, ?_⟩
      have : 0.5 * E / (1 + nu) = mu := by
        have h6 := (two_mu E nu).trans h5.symm
        exact mul_left_cancel₀ two_ne_zero h6
      dsimp only
      rw [pure_ok, this, h4]
  · rename_i h
    constructor
    · intro h1; cases h1
    · rintro ⟨E, nu, rfl, _⟩
      exact absurd rfl (h E nu)

theorem umat_mulVec {a b c : K} (e : Fin 3 → K) : (!![a, b, 0; b, a, 0; 0, 0, c] :
    Matrix (Fin 3) (Fin 3) K).mulVec e = ![a * e 0 + b * e 1, b * e 0 + a * e 1, c * e 2] := by
  funext i
  fin_cases i <;> simp [Matrix.mulVec, dotProduct, Fin.sum_univ_three]

theorem elastMat_mulVec {lam mu : K} (e : Fin 6 → K) : (!![2*mu + lam, lam, lam, 0, 0, 0;
            lam, 2*mu + lam, lam, 0, 0, 0;
            lam, lam, 2*mu + lam, 0, 0, 0;
            0, 0, 0, mu, 0, 0;
            0, 0, 0, 0, mu, 0;
            0, 0, 0, 0, 0, mu] : Matrix (Fin 6) (Fin 6) K).mulVec e =
    ![2 * mu * e 0 + lam * (e 0 + e 1 + e 2), 2 * mu * e 1 + lam * (e 0 + e 1 + e 2),
      2 * mu * e 2 + lam * (e 0 + e 1 + e 2), mu * e 3, mu * e 4, mu * e 5] := by
  funext i
  fin_cases i <;> simp [Matrix.mulVec, dotProduct, Fin.sum_univ_six] <;> ring

theorem elastAxi_mulVec {lam mu : K} (e : Fin 4 → K) : (!![2*mu + lam, lam, 0, 0;
            lam, 2*mu + lam, 0, 0;
            0, 0, mu, 0;
            0, 0, 0, 2*mu + lam] : Matrix (Fin 4) (Fin 4) K).mulVec e =
    ![2 * mu * e 0 + lam * (e 0 + e 1), 2 * mu * e 1 + lam * (e 0 + e 1), mu * e 2,
      2 * mu * e 3 + lam * e 3] := by
  funext i
  fin_cases i <;> simp [Matrix.mulVec, dotProduct, Fin.sum_univ_four] <;> ring

/-! ## C36 -/

/-- `elast_mat` is Hooke's law: the stress it gives is the one and only stress related to the strain by
the isotropic compliance. -/
theorem C36_elast_mat_is_hooke {E nu : K} {D : Matrix (Fin 6) (Fin 6) K}
    (h : elastMat [E, nu] = .ok D) (hE : E ≠ 0) (e s : Fin 6 → K) :
    D.mulVec e = s ↔ Hooke E nu (strainTensor e) (stressTensor s) := by
  obtain ⟨E', nu', h1, h2, h3, lam, mu, h4, h5, rfl⟩ := elastMat_ok.1 h
  simp only [List.cons.injEq, and_true] at h1
  obtain ⟨rfl, rfl⟩ := h1
  have h5' : (1 + nu) * (2 * mu) = E := by rw [h5]; field_simp
  have h4' : (1 - 2 * nu) * ((1 + nu) * lam) = E * nu := by rw [h4]; field_simp
  have hlm : (1 - 2 * nu) * lam = nu * (2 * mu) := by
    have : (1 + nu) * ((1 - 2 * nu) * lam) = (1 + nu) * (nu * (2 * mu)) := by
      linear_combination h4' - nu * h5'
    exact mul_left_cancel₀ h2 this
  rw [elastMat_mulVec]
  unfold Hooke
  constructor
  · rintro rfl
    ext i j
    fin_cases i <;> fin_cases j <;>
      simp [strainTensor, stressTensor, Matrix.trace, Fin.sum_univ_three]
    · linear_combination (-e 0) * h5' - (e 0 + e 1 + e 2) * hlm
    · linear_combination (- e 5 / 2) * h5'
    · linear_combination (- e 4 / 2) * h5'
    · linear_combination (- e 5 / 2) * h5'
    · linear_combination (-e 1) * h5' - (e 0 + e 1 + e 2) * hlm
    · linear_combination (- e 3 / 2) * h5'
    · linear_combination (- e 4 / 2) * h5'
    · linear_combination (- e 3 / 2) * h5'
    · linear_combination (-e 2) * h5' - (e 0 + e 1 + e 2) * hlm
  · intro hh
    have ent := fun i j => congrFun (congrFun hh i) j
    have e00 := ent 0 0
    have e11 := ent 1 1
    have e22 := ent 2 2
    have e12 := ent 1 2
    have e02 := ent 0 2
    have e01 := ent 0 1
    simp [strainTensor, stressTensor, Matrix.trace, Fin.sum_univ_three] at e00 e11 e22 e12 e02 e01
    -- trace
    have htr : E * (e 0 + e 1 + e 2) = (1 - 2 * nu) * (s 0 + s 1 + s 2) := by
      linear_combination e00 + e11 + e22
    have hlam : lam * (e 0 + e 1 + e 2) * ((1 + nu) * E) = nu * E * (s 0 + s 1 + s 2) := by
      have : (1 - 2 * nu) * (lam * (e 0 + e 1 + e 2) * ((1 + nu) * E)) =
          (1 - 2 * nu) * (nu * E * (s 0 + s 1 + s 2)) := by
        linear_combination (E * (e 0 + e 1 + e 2)) * h4' + nu * E * htr
      exact mul_left_cancel₀ h3 this
    have key : ∀ x y : K, (1 + nu) * E * x = (1 + nu) * E * y → x = y := fun x y hxy =>
      mul_left_cancel₀ (mul_ne_zero h2 hE) hxy
    funext i
    fin_cases i <;> simp <;> apply key
    · linear_combination (E * e 0) * h5' + hlam + E * e00
    · linear_combination (E * e 1) * h5' + hlam + E * e11
    · linear_combination (E * e 2) * h5' + hlam + E * e22
    · linear_combination (E * e 3 / 2) * h5' + E * e12
    · linear_combination (E * e 4 / 2) * h5' + E * e02
    · linear_combination (E * e 5 / 2) * h5' + E * e01

/-- It is symmetric. -/
theorem C36_symmetric {params : List K} {D : Matrix (Fin 6) (Fin 6) K} (h : elastMat params = .ok D) :
    D.IsSymm := by
  obtain ⟨E', nu', h1, h2, h3, lam, mu, h4, h5, rfl⟩ := elastMat_ok.1 h
  ext i j
  fin_cases i <;> fin_cases j <;> rfl

theorem dot6 (a b : Fin 6 → K) : dotProduct a b =
    a 0 * b 0 + a 1 * b 1 + a 2 * b 2 + a 3 * b 3 + a 4 * b 4 + a 5 * b 5 := by
  simp [dotProduct, Fin.sum_univ_six]

theorem dot3 (a b : Fin 3 → K) : dotProduct a b = a 0 * b 0 + a 1 * b 1 + a 2 * b 2 := by
  simp [dotProduct, Fin.sum_univ_three]

/-- It is positive definite exactly for `E > 0`, `-1 < nu < 1/2`. -/
theorem C36_positive_definite_iff {E nu : K} {D : Matrix (Fin 6) (Fin 6) K}
    (h : elastMat [E, nu] = .ok D) : PosForm D ↔ 0 < E ∧ -1 < nu ∧ nu < 1 / 2 := by
  obtain ⟨E', nu', h1, h2, h3, lam, mu, h4, h5, rfl⟩ := elastMat_ok.1 h
  simp only [List.cons.injEq, and_true] at h1
  obtain ⟨rfl, rfl⟩ := h1
  have h5' : (1 + nu) * (2 * mu) = E := by rw [h5]; field_simp
  have h4' : (1 - 2 * nu) * ((1 + nu) * lam) = E * nu := by rw [h4]; field_simp
  have hbulk : (1 - 2 * nu) * (2 * mu + 3 * lam) = E := by
    have : (1 + nu) * ((1 - 2 * nu) * (2 * mu + 3 * lam)) = (1 + nu) * E := by
      linear_combination (1 - 2 * nu) * h5' + 3 * h4'
    exact mul_left_cancel₀ h2 this
  unfold PosForm
  constructor
  · intro H
    have hmu : 0 < mu := by
      have := H ![0, 0, 0, 1, 0, 0] (fun h => by simpa using congrFun h 3)
      rw [elastMat_mulVec, dot6] at this
      simpa using this
    have hb : 0 < 2 * mu + 3 * lam := by
      have := H ![1, 1, 1, 0, 0, 0] (fun h => by simpa using congrFun h 0)
      rw [elastMat_mulVec, dot6] at this
      simp at this
      linarith
    -- (1+nu)(2mu) = (1-2nu)(2mu+3lam) = E
    have hE : 0 < E := by
      by_contra hE
      push Not at hE
      have h6 : 1 + nu ≤ 0 := by
        by_contra h7
        push Not at h7
        have := mul_pos h7 (mul_pos two_pos hmu)
        linarith
      have h7 : 1 - 2 * nu ≤ 0 := by
        by_contra h7
        push Not at h7
        have := mul_pos h7 hb
        linarith
      linarith
    refine ⟨hE, ?_, ?_⟩
    · have : 0 < 1 + nu := by
        by_contra h7
        push Not at h7
        have := mul_nonpos_of_nonpos_of_nonneg h7 (mul_pos two_pos hmu).le
        linarith
      linarith
    · have : 0 < 1 - 2 * nu := by
        by_contra h7
        push Not at h7
        have := mul_nonpos_of_nonpos_of_nonneg h7 hb.le
        linarith
      linarith
  · rintro ⟨hE, hn1, hn2⟩ e he
    have hmu : 0 < mu := by
      have h6 : 0 < 1 + nu := by linarith
      by_contra h7
      push Not at h7
      have := mul_nonpos_of_nonneg_of_nonpos h6.le (by linarith : 2 * mu ≤ 0)
      linarith
    have hb : 0 < 2 * mu + 3 * lam := by
      have h6 : 0 < 1 - 2 * nu := by linarith
      by_contra h7
      push Not at h7
      have := mul_nonpos_of_nonneg_of_nonpos h6.le h7
      linarith
    rw [elastMat_mulVec, dot6]
    simp
    have hid : 3 * (e 0 * (2 * mu * e 0 + lam * (e 0 + e 1 + e 2)) +
        e 1 * (2 * mu * e 1 + lam * (e 0 + e 1 + e 2)) +
        e 2 * (2 * mu * e 2 + lam * (e 0 + e 1 + e 2)) + e 3 * (mu * e 3) + e 4 * (mu * e 4) +
        e 5 * (mu * e 5)) = (2 * mu + 3 * lam) * (e 0 + e 1 + e 2)^2 +
        2 * mu * ((e 0 - e 1)^2 + (e 1 - e 2)^2 + (e 0 - e 2)^2) +
        3 * mu * (e 3 ^ 2 + e 4 ^ 2 + e 5 ^ 2) := by ring
    have hnn : 0 ≤ (2 * mu + 3 * lam) * (e 0 + e 1 + e 2)^2 +
        2 * mu * ((e 0 - e 1)^2 + (e 1 - e 2)^2 + (e 0 - e 2)^2) +
        3 * mu * (e 3 ^ 2 + e 4 ^ 2 + e 5 ^ 2) := by positivity
    rcases hnn.lt_or_eq with hlt | heq
    · linarith
    · exfalso
      have a1 : 0 ≤ (2 * mu + 3 * lam) * (e 0 + e 1 + e 2)^2 := by positivity
      have a2 : 0 ≤ 2 * mu * ((e 0 - e 1)^2 + (e 1 - e 2)^2 + (e 0 - e 2)^2) := by positivity
      have a3 : 0 ≤ 3 * mu * (e 3 ^ 2 + e 4 ^ 2 + e 5 ^ 2) := by positivity
      have b1 : (2 * mu + 3 * lam) * (e 0 + e 1 + e 2)^2 = 0 := by linarith
      have b2 : 2 * mu * ((e 0 - e 1)^2 + (e 1 - e 2)^2 + (e 0 - e 2)^2) = 0 := by linarith
      have b3 : 3 * mu * (e 3 ^ 2 + e 4 ^ 2 + e 5 ^ 2) = 0 := by linarith
      have c1 : e 0 + e 1 + e 2 = 0 := by
        rcases mul_eq_zero.1 b1 with h | h
        · exact absurd h hb.ne'
        · exact pow_eq_zero_iff (two_ne_zero) |>.1 h
      have c2 : (e 0 - e 1)^2 + (e 1 - e 2)^2 + (e 0 - e 2)^2 = 0 := by
        rcases mul_eq_zero.1 b2 with h | h
        · exact absurd h (by positivity)
        · exact h
      have c3 : e 3 ^ 2 + e 4 ^ 2 + e 5 ^ 2 = 0 := by
        rcases mul_eq_zero.1 b3 with h | h
        · exact absurd h (by positivity)
        · exact h
      have s3 := sq_nonneg (e 3)
      have s4 := sq_nonneg (e 4)
      have s5 := sq_nonneg (e 5)
      have s01 := sq_nonneg (e 0 - e 1)
      have s12 := sq_nonneg (e 1 - e 2)
      have s02 := sq_nonneg (e 0 - e 2)
      have z : ∀ x : K, x ^ 2 ≤ 0 → x = 0 := fun x hx =>
        (pow_eq_zero_iff (two_ne_zero)).1 (le_antisymm hx (sq_nonneg x))
      have z3 := z (e 3) (by linarith)
      have z4 := z (e 4) (by linarith)
      have z5 := z (e 5) (by linarith)
      have z01 := z (e 0 - e 1) (by linarith)
      have z12 := z (e 1 - e 2) (by linarith)
      apply he
      funext i
      fin_cases i <;> simp
      · linarith
      · linarith
      · linarith
      · exact z3
      · exact z4
      · exact z5

/-- Steel-like constants. -/
example : ∃ D, elastMat ([200, 3/10] : List ℚ) = .ok D ∧ PosForm D := by
  have h : elastMat ([200, 3/10] : List ℚ) = .ok _ :=
    elastMat_ok.2 ⟨200, 3/10, rfl, by norm_num, by norm_num, _, 1000/13, rfl, by norm_num, rfl⟩
  exact ⟨_, h, (C36_positive_definite_iff h).2 (by norm_num)⟩

/-! ## C34 -/

/-- Plane stress: for every in-plane strain exactly one thickness strain makes `sigma_zz` vanish in the
three-dimensional law, and then `umat` gives the in-plane stresses (the out-of-plane shears vanish). -/
theorem C34_umat_condenses_elast_mat {E nu : K} {C : Matrix (Fin 3) (Fin 3) K}
    {D : Matrix (Fin 6) (Fin 6) K} (hC : umat [E, nu] = .ok C) (hD : elastMat [E, nu] = .ok D)
    (hE : E ≠ 0) (exx eyy gxy : K) :
    (∃! ez, D.mulVec ![exx, eyy, ez, 0, 0, gxy] 2 = 0) ∧
    ∀ ez, D.mulVec ![exx, eyy, ez, 0, 0, gxy] 2 = 0 →
      D.mulVec ![exx, eyy, ez, 0, 0, gxy] =
        ![C.mulVec ![exx, eyy, gxy] 0, C.mulVec ![exx, eyy, gxy] 1, 0, 0, 0,
          C.mulVec ![exx, eyy, gxy] 2] := by
  obtain ⟨E', nu', h1, h2, h3, lam, mu, h4, h5, rfl⟩ := elastMat_ok.1 hD
  simp only [List.cons.injEq, and_true] at h1
  obtain ⟨rfl, rfl⟩ := h1
  obtain ⟨E', nu', h1, h6, rfl⟩ := umat_ok.1 hC
  simp only [List.cons.injEq, and_true] at h1
  obtain ⟨rfl, rfl⟩ := h1
  have h7 : 1 - nu ≠ 0 := fun h => h6 (by linear_combination (1 + nu) * h)
  have h5' : (1 + nu) * (2 * mu) = E := by rw [h5]; field_simp
  have h4' : (1 - 2 * nu) * ((1 + nu) * lam) = E * nu := by rw [h4]; field_simp
  have hP : (1 - 2 * nu) * ((1 + nu) * (2 * mu + lam)) = E * (1 - nu) := by
    linear_combination (1 - 2 * nu) * h5' + h4'
  have hP0 : 2 * mu + lam ≠ 0 := by
    intro h
    rw [h, mul_zero, mul_zero] at hP
    exact mul_ne_zero hE h7 hP.symm
  have hlam : lam * (1 - nu) = nu * (2 * mu + lam) := by
    have : (1 - 2 * nu) * ((1 + nu) * (lam * (1 - nu))) =
        (1 - 2 * nu) * ((1 + nu) * (nu * (2 * mu + lam))) := by
      linear_combination (1 - nu) * h4' - nu * hP
    exact mul_left_cancel₀ h2 (mul_left_cancel₀ h3 this)
  have hCe : (1 - nu) * (E / (1 - nu^2)) = 2 * mu := by
    rw [h5]
    have : (1 - nu^2) = (1 - nu) * (1 + nu) := by ring
    rw [this]
    field_simp
  rw [umat_mulVec]
  simp only [elastMat_mulVec]
  refine ⟨⟨-(lam * (exx + eyy)) / (2 * mu + lam), ?_, ?_⟩, ?_⟩
  · simp
    field_simp
    ring
  · intro ez hz
    simp at hz
    rw [eq_div_iff hP0]
    linear_combination hz
  · intro ez hz
    simp at hz
    have hz' : (1 - nu) * ez = - (nu * (exx + eyy)) := by
      have : (2 * mu + lam) * ((1 - nu) * ez) = (2 * mu + lam) * (-(nu * (exx + eyy))) := by
        linear_combination (1 - nu) * hz - (exx + eyy) * hlam
      exact mul_left_cancel₀ hP0 this
    funext i
    have k : ∀ x y : K, (1 - nu) * x = (1 - nu) * y → x = y := fun x y hxy => mul_left_cancel₀ h7 hxy
    fin_cases i <;> simp
    · apply k
      linear_combination (-exx - nu * eyy) * hCe + lam * hz' + (exx + eyy) * hlam + 0 * hz
    · apply k
      linear_combination (-eyy - nu * exx) * hCe + lam * hz' + (exx + eyy) * hlam
    · linear_combination hz
    · left
      linear_combination (-1 / 2) * hCe

/-- In particular `umat` is Hooke's law with the out-of-plane stresses set to zero. -/
theorem C34_umat_is_plane_stress_hooke {E nu : K} {C : Matrix (Fin 3) (Fin 3) K}
    (hC : umat [E, nu] = .ok C) (hE : E ≠ 0) (exx eyy gxy : K) :
    ∃! ez, Hooke E nu (strainTensor ![exx, eyy, ez, 0, 0, gxy])
      (stressTensor ![C.mulVec ![exx, eyy, gxy] 0, C.mulVec ![exx, eyy, gxy] 1, 0, 0, 0,
        C.mulVec ![exx, eyy, gxy] 2]) := by
  obtain ⟨E', nu', h1, h6, rfl⟩ := umat_ok.1 hC
  simp only [List.cons.injEq, and_true] at h1
  obtain ⟨rfl, rfl⟩ := h1
  rw [umat_mulVec]
  generalize hq : E / (1 - nu^2) = q
  have hq' : (1 - nu^2) * q = E := by rw [← hq]; field_simp
  refine ⟨-(nu * (1 + nu) * q * (exx + eyy)) / E, ?_, ?_⟩
  · unfold Hooke
    ext i j
    fin_cases i <;> fin_cases j <;>
      simp [strainTensor, stressTensor, Matrix.trace, Fin.sum_univ_three]
    · linear_combination (-exx) * hq'
    · linear_combination (-gxy/2) * hq'
    · linear_combination (-gxy/2) * hq'
    · linear_combination (-eyy) * hq'
    · field_simp
      ring
  · intro ez hz
    have := congrFun (congrFun hz 2) 2
    simp [strainTensor, stressTensor, Matrix.trace, Fin.sum_univ_three] at this
    rw [eq_div_iff hE]
    linear_combination this

/-- Steel-like constants. -/
example : (∃ C, umat ([200, 3/10] : List ℚ) = .ok C) ∧ ∃ D, elastMat ([200, 3/10] : List ℚ) = .ok D :=
  ⟨⟨_, umat_ok.2 ⟨200, 3/10, rfl, by norm_num, rfl⟩⟩,
   ⟨_, elastMat_ok.2 ⟨200, 3/10, rfl, by norm_num, by norm_num, _, 1000/13, rfl, by norm_num, rfl⟩⟩⟩

/-! ## C35 -/

/-- `umat` is symmetric. -/
theorem C35_symmetric {params : List K} {C : Matrix (Fin 3) (Fin 3) K} (h : umat params = .ok C) :
    C.IsSymm := by
  obtain ⟨E', nu', h1, h2, rfl⟩ := umat_ok.1 h
  ext i j
  fin_cases i <;> fin_cases j <;> rfl

/-- It is positive definite exactly for `E > 0`, `-1 < nu < 1`. -/
theorem C35_positive_definite_iff {E nu : K} {C : Matrix (Fin 3) (Fin 3) K}
    (h : umat [E, nu] = .ok C) : PosForm C ↔ 0 < E ∧ -1 < nu ∧ nu < 1 := by
  obtain ⟨E', nu', h1, h6, rfl⟩ := umat_ok.1 h
  simp only [List.cons.injEq, and_true] at h1
  obtain ⟨rfl, rfl⟩ := h1
  generalize hq : E / (1 - nu^2) = q
  have hq' : (1 - nu) * (1 + nu) * q = E := by rw [← hq]; field_simp; ring
  unfold PosForm
  constructor
  · intro H
    have hq0 : 0 < q := by
      have := H ![1, 0, 0] (fun h => by simpa using congrFun h 0)
      rw [umat_mulVec, dot3] at this
      simpa using this
    have hp : 0 < 1 + nu := by
      have := H ![1, 1, 0] (fun h => by simpa using congrFun h 0)
      rw [umat_mulVec, dot3] at this
      simp at this
      have h2 : 0 < (1 + nu) * q := by linarith
      exact pos_of_mul_pos_left h2 hq0.le
    have hm : 0 < 1 - nu := by
      have := H ![1, -1, 0] (fun h => by simpa using congrFun h 0)
      rw [umat_mulVec, dot3] at this
      simp at this
      have h2 : 0 < (1 - nu) * q := by linarith
      exact pos_of_mul_pos_left h2 hq0.le
    refine ⟨?_, by linarith, by linarith⟩
    rw [← hq']
    positivity
  · rintro ⟨hE, hn1, hn2⟩ e he
    have hp : 0 < 1 + nu := by linarith
    have hm : 0 < 1 - nu := by linarith
    have hq0 : 0 < q := by
      rw [← hq]
      apply div_pos hE
      have : 1 - nu^2 = (1 - nu) * (1 + nu) := by ring
      rw [this]
      exact mul_pos hm hp
    rw [umat_mulVec, dot3]
    simp
    have hid : 2 * (e 0 * (q * e 0 + nu * q * e 1) + e 1 * (nu * q * e 0 + q * e 1) +
        e 2 * (q * ((1 - nu) / 2) * e 2)) =
        q * ((1 + nu) * (e 0 + e 1)^2 + (1 - nu) * (e 0 - e 1)^2 + (1 - nu) * e 2 ^ 2) := by ring
    have a1 : 0 ≤ (1 + nu) * (e 0 + e 1)^2 := by positivity
    have a2 : 0 ≤ (1 - nu) * (e 0 - e 1)^2 := by positivity
    have a3 : 0 ≤ (1 - nu) * e 2 ^ 2 := by positivity
    have hS : 0 < (1 + nu) * (e 0 + e 1)^2 + (1 - nu) * (e 0 - e 1)^2 + (1 - nu) * e 2 ^ 2 := by
      by_contra hS
      push Not at hS
      have z : ∀ c x : K, 0 < c → c * x ^ 2 ≤ 0 → x = 0 := fun c x hc hx => by
        by_contra h0
        have : 0 < c * x ^ 2 := by positivity
        linarith
      have z1 := z _ _ hp (by linarith : (1 + nu) * (e 0 + e 1)^2 ≤ 0)
      have z2 := z _ _ hm (by linarith : (1 - nu) * (e 0 - e 1)^2 ≤ 0)
      have z3 := z _ _ hm (by linarith : (1 - nu) * e 2 ^ 2 ≤ 0)
      apply he
      funext i
      fin_cases i <;> simp
      · linarith
      · linarith
      · exact z3
    have := mul_pos hq0 hS
    linarith

/-- `umat` returns exactly for two parameters with `nu^2 ≠ 1`. -/
theorem C35_returns_iff (params : List K) :
    (∃ C, umat params = .ok C) ↔ ∃ E nu, params = [E, nu] ∧ nu ^ 2 ≠ 1 := by
  constructor
  · rintro ⟨C, h⟩
    obtain ⟨E, nu, h1, h2, _⟩ := umat_ok.1 h
    exact ⟨E, nu, h1, fun h => h2 (by rw [h, sub_self])⟩
  · rintro ⟨E, nu, h1, h2⟩
    exact ⟨_, umat_ok.2 ⟨E, nu, h1, fun h => h2 (sub_eq_zero.1 h).symm, rfl⟩⟩

/-- Steel-like constants. -/
example : ∃ C, umat ([200, 3/10] : List ℚ) = .ok C ∧ PosForm C := by
  have h : umat ([200, 3/10] : List ℚ) = .ok _ := umat_ok.2 ⟨200, 3/10, rfl, by norm_num, rfl⟩
  exact ⟨_, h, (C35_positive_definite_iff h).2 (by norm_num)⟩

/-! ## C37

The intended statement would be: for all strains the axisymmetric law agrees with Hooke's law. -/

/-- Stresses `rr, zz, rz, tt` agree with Hooke's law for the strains `rr, zz, rz, tt` (the coordinates
`r`, `z`, `theta` being `x`, `y`, `z` of the tensors). -/
def AxiHooke (E nu : K) (C : Matrix (Fin 4) (Fin 4) K) (e : Fin 4 → K) : Prop :=
  Hooke E nu (strainTensor ![e 0, e 1, e 3, 0, 0, e 2])
    (stressTensor ![C.mulVec e 0, C.mulVec e 1, C.mulVec e 3, 0, 0, C.mulVec e 2])

/-- The two axisymmetric/plane strain matrices are the same. -/
theorem C37_same_matrices (params : List K) : elastMat2d params = elastMatAxi params := rfl

/-- The law agrees with Hooke's for a strain state exactly when `nu = 0`, or both the hoop strain and
the sum of the radial and axial strains vanish. -/
theorem C37_agrees_iff_partial {E nu : K} {C : Matrix (Fin 4) (Fin 4) K}
    (h : elastMatAxi [E, nu] = .ok C) (hE : E ≠ 0) (e : Fin 4 → K) :
    AxiHooke E nu C e ↔ nu = 0 ∨ (e 3 = 0 ∧ e 0 + e 1 = 0) := by
  obtain ⟨E', nu', h1, h2, h3, lam, mu, h4, h5, rfl⟩ := elastMatAxi_ok.1 h
  simp only [List.cons.injEq, and_true] at h1
  obtain ⟨rfl, rfl⟩ := h1
  have h5' : (1 + nu) * (2 * mu) = E := by rw [h5]; field_simp
  have h4' : (1 - 2 * nu) * ((1 + nu) * lam) = E * nu := by rw [h4]; field_simp
  have hl : nu ≠ 0 → lam ≠ 0 := by
    intro hn hl
    rw [hl, mul_zero, mul_zero] at h4'
    exact mul_ne_zero hE hn h4'.symm
  have hl0 : nu = 0 → lam = 0 := by
    intro hn
    rw [h4, hn, mul_zero, zero_div, zero_div]
  have hlm : (1 - 2 * nu) * lam = nu * (2 * mu) := by
    have : (1 + nu) * ((1 - 2 * nu) * lam) = (1 + nu) * (nu * (2 * mu)) := by
      linear_combination h4' - nu * h5'
    exact mul_left_cancel₀ h2 this
  unfold AxiHooke Hooke
  rw [elastAxi_mulVec]
  constructor
  · intro hh
    by_cases hn : nu = 0
    · exact Or.inl hn
    right
    have ent := fun i j => congrFun (congrFun hh i) j
    have e00 := ent 0 0
    have e11 := ent 1 1
    have e22 := ent 2 2
    simp [strainTensor, stressTensor, Matrix.trace, Fin.sum_univ_three] at e00 e11 e22
    have r0 : (1 + nu) * (lam * e 3) - nu * (lam * (2 * e 3 + e 0 + e 1)) = 0 := by
      linear_combination (e 0) * h5' + (e 0 + e 1 + e 3) * hlm + e00
    have r3 : (1 + nu) * (lam * (e 0 + e 1)) - nu * (lam * (2 * e 3 + e 0 + e 1)) = 0 := by
      linear_combination (e 3) * h5' + (e 0 + e 1 + e 3) * hlm + e22
    have m : (1 + nu) * ((1 - 2 * nu) * (lam * e 3)) = 0 ∧
        (1 + nu) * ((1 - 2 * nu) * (lam * (e 0 + e 1))) = 0 := by
      constructor
      · linear_combination (1 - 2 * nu) * r0 + nu * (2 * r0 + r3)
      · linear_combination (1 - 2 * nu) * r3 + nu * (2 * r0 + r3)
    have c : ∀ x, (1 + nu) * ((1 - 2 * nu) * (lam * x)) = 0 → x = 0 := by
      intro x hx
      have := (mul_eq_zero.1 hx).resolve_left h2
      have := (mul_eq_zero.1 this).resolve_left h3
      exact (mul_eq_zero.1 this).resolve_left (hl hn)
    exact ⟨c _ m.1, c _ m.2⟩
  · rintro (hn | ⟨h6, h7⟩)
    · have hlz := hl0 hn
      subst hn
      subst hlz
      have h5'' : 2 * mu = E := by linear_combination h5'
      ext i j
      fin_cases i <;> fin_cases j <;>
        simp [strainTensor, stressTensor, Matrix.trace, Fin.sum_univ_three]
      · exact Or.inl h5''.symm
      · linear_combination (-e 2 / 2) * h5''
      · linear_combination (-e 2 / 2) * h5''
      · exact Or.inl h5''.symm
      · exact Or.inl h5''.symm
    · have h8 : e 1 = - e 0 := by linear_combination h7
      ext i j
      fin_cases i <;> fin_cases j <;>
        simp [strainTensor, stressTensor, Matrix.trace, Fin.sum_univ_three, h6, h8]
      · linear_combination (-e 0) * h5'
      · linear_combination (-e 2 / 2) * h5'
      · linear_combination (-e 2 / 2) * h5'
      · linear_combination (-e 0) * h5'

/-- Hence for every material with `nu ≠ 0` the intended statement is false. -/
theorem C37_axisymmetric_law_wrong {E nu : K} {C : Matrix (Fin 4) (Fin 4) K}
    (h : elastMatAxi [E, nu] = .ok C) (hE : E ≠ 0) : (∀ e, AxiHooke E nu C e) ↔ nu = 0 := by
  constructor
  · intro H
    rcases (C37_agrees_iff_partial h hE ![0, 0, 0, 1]).1 (H _) with h1 | h1
    · exact h1
    · simp at h1
  · intro hn e
    exact (C37_agrees_iff_partial h hE e).2 (Or.inl hn)

/-- With `nu = 3/10` the law is wrong. -/
example : ∃ C, elastMatAxi ([200, 3/10] : List ℚ) = .ok C ∧ ¬ ∀ e, AxiHooke 200 (3/10) C e := by
  have h : elastMatAxi ([200, 3/10] : List ℚ) = .ok _ :=
    elastMatAxi_ok.2 ⟨200, 3/10, rfl, by norm_num, by norm_num, _, 1000/13, rfl, by norm_num, rfl⟩
  refine ⟨_, h, fun H => ?_⟩
  have := (C37_axisymmetric_law_wrong h (by norm_num)).1 H
  norm_num at this

end

end SolidsPy
