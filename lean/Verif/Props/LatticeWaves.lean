import Verif.Props.BlochChain
import Verif.Props.PureBending

/-! # Plane waves on a grid of equal cells -/

set_option linter.unusedSectionVars false

namespace SolidsPy
open Spec Fem Uel Gauss Pre Assem Matrix Bloch

/-- Row and column of the `i`-th corner of a cell, from its lower left corner. -/
def upOf : Fin 4 → ℕ := ![0, 0, 1, 1]
def rightOf : Fin 4 → ℕ := ![0, 1, 1, 0]

/-- Values of a field on the grid at the corners of a cell. -/
def cellOf {α : Type} (U : ℕ → ℕ → Fin 2 → α) (r c : ℕ) : Fin 4 × Fin 2 → α :=
  fun s => U (r + upOf s.1) (c + rightOf s.1) s.2

/-- The wave with amplitude `a` that is multiplied by `z` from column to column and by `y` from row to row. -/
def planeWave (z y : ℂ) (a : Fin 2 → ℂ) : ℕ → ℕ → Fin 2 → ℂ := fun r c j => a j * (z ^ c * y ^ r)

/-- Amplitude of a field in a wave. -/
def amplitude (nx ny : ℕ) (z y : ℂ) (V : ℕ → ℕ → Fin 2 → ℂ) : Fin 2 → ℂ :=
  fun j => ∑ r ∈ Finset.range ny, ∑ c ∈ Finset.range nx, star (z ^ c * y ^ r) * V r c j

/-- The field is multiplied by `z ^ nx` and by `y ^ ny` from side to side. -/
def Carried (nx ny : ℕ) (z y : ℂ) (V : ℕ → ℕ → Fin 2 → ℂ) : Prop :=
  (∀ r ≤ ny, ∀ j, V r nx j = z ^ nx * V r 0 j) ∧ ∀ c ≤ nx, ∀ j, V ny c j = y ^ ny * V 0 c j

/-- The cell matrix on waves. -/
def waveMat (κ : Matrix (Fin 4 × Fin 2) (Fin 4 × Fin 2) ℂ) (z y : ℂ) : Matrix (Fin 2) (Fin 2) ℂ :=
  fun i j => ∑ s : Fin 4, ∑ t : Fin 4, star (z ^ rightOf s * y ^ upOf s) * κ (s, i) (t, j) * (z ^ rightOf t * y ^ upOf t)

theorem planeWave_carried (nx ny : ℕ) (z y : ℂ) (a : Fin 2 → ℂ) : Carried nx ny z y (planeWave z y a) := by
  constructor <;> intros <;> simp [planeWave] <;> ring

theorem sum_shift {n : ℕ} {f : ℕ → ℂ} (h : f n = f 0) : ∑ i ∈ Finset.range n, f (i + 1) = ∑ i ∈ Finset.range n, f i := by
  have h1 := Finset.sum_range_succ f n
  have h2 := Finset.sum_range_succ' f n
  rw [h1, h] at h2
  exact (add_right_cancel h2).symm

theorem sum_shift_of {n k : ℕ} (hk : k ≤ 1) {f : ℕ → ℂ} (h : f n = f 0) :
    ∑ i ∈ Finset.range n, f (i + k) = ∑ i ∈ Finset.range n, f i := by
  rcases (by omega : k = 0 ∨ k = 1) with rfl | rfl
  · rfl
  · exact sum_shift h

theorem unit_pow {z : ℂ} (hz : star z * z = 1) (n : ℕ) : star (z ^ n) * z ^ n = 1 := by
  rw [star_pow, ← mul_pow, hz, one_pow]

/-- The form of a wave and a field carried like it, summed over the cells. -/
theorem wave_form {nx ny : ℕ} {z y : ℂ} (hz : star z * z = 1) (hy : star y * y = 1) (κ : Matrix (Fin 4 × Fin 2) (Fin 4 × Fin 2) ℂ)
    {V : ℕ → ℕ → Fin 2 → ℂ} (hV : Carried nx ny z y V) (a : Fin 2 → ℂ) :
    ∑ r ∈ Finset.range ny, ∑ c ∈ Finset.range nx, star (cellOf V r c) ⬝ᵥ κ.mulVec (cellOf (planeWave z y a) r c) =
      star (amplitude nx ny z y V) ⬝ᵥ (waveMat κ z y).mulVec a := by
  let W : ℕ → ℕ → Fin 2 → ℂ := fun r c j => star (V r c j) * (z ^ c * y ^ r)
  have hW1 : ∀ r ≤ ny, ∀ j, W r nx j = W r 0 j := by
    intro r hr j
    simp only [W, hV.1 r hr j, star_mul', pow_zero, one_mul]
    linear_combination star (V r 0 j) * y ^ r * unit_pow hz nx
  have hW2 : ∀ c ≤ nx, ∀ j, W ny c j = W 0 c j := by
    intro c hc j
    simp only [W, hV.2 c hc j, star_mul', pow_zero, mul_one]
    linear_combination star (V 0 c j) * z ^ c * unit_pow hy ny
  have hS : ∀ (s : Fin 4) (j : Fin 2), ∑ r ∈ Finset.range ny, ∑ c ∈ Finset.range nx, W (r + upOf s) (c + rightOf s) j =
      star (amplitude nx ny z y V j) := by
    intro s j
    have hu : upOf s ≤ 1 := by revert s; decide
    have hr : rightOf s ≤ 1 := by revert s; decide
    have e1 : ∀ r ∈ Finset.range ny, ∑ c ∈ Finset.range nx, W (r + upOf s) (c + rightOf s) j =
        ∑ c ∈ Finset.range nx, W (r + upOf s) c j := by
      intro r hr'
      rw [Finset.mem_range] at hr'
      exact sum_shift_of (f := fun c => W (r + upOf s) c j) hr (hW1 _ (by omega) j)
    rw [Finset.sum_congr rfl e1, sum_shift_of (f := fun r => ∑ c ∈ Finset.range nx, W r c j) hu
      (Finset.sum_congr rfl fun c hc => hW2 c (by rw [Finset.mem_range] at hc; omega) j)]
    simp only [amplitude, star_sum, star_mul', star_star, W]
    exact Finset.sum_congr rfl fun r _ => Finset.sum_congr rfl fun c _ => by ring
  have hterm : ∀ (r c : ℕ) (s t : Fin 4) (i j : Fin 2), star (V (r + upOf s) (c + rightOf s) i) * (κ (s, i) (t, j) *
      (a j * (z ^ (c + rightOf t) * y ^ (r + upOf t)))) =
      W (r + upOf s) (c + rightOf s) i * (star (z ^ rightOf s * y ^ upOf s) * κ (s, i) (t, j) * (z ^ rightOf t * y ^ upOf t) * a j) := by
    intro r c s t i j
    have h1 := unit_pow hz (rightOf s)
    have h2 := unit_pow hy (upOf s)
    simp only [W, star_mul', pow_add]
    linear_combination (-(star (V (r + upOf s) (c + rightOf s) i) * κ (s, i) (t, j) * a j * z ^ c * z ^ rightOf t * y ^ r * y ^ upOf t)) *
      (h1 * (star (y ^ upOf s) * y ^ upOf s) + h2)
  have hL : ∀ r c, star (cellOf V r c) ⬝ᵥ κ.mulVec (cellOf (planeWave z y a) r c) =
      ∑ s : Fin 4, ∑ i : Fin 2, ∑ t : Fin 4, ∑ j : Fin 2, W (r + upOf s) (c + rightOf s) i *
        (star (z ^ rightOf s * y ^ upOf s) * κ (s, i) (t, j) * (z ^ rightOf t * y ^ upOf t) * a j) := by
    intro r c
    simp only [dotProduct, Matrix.mulVec, Fintype.sum_prod_type, Finset.mul_sum, Pi.star_apply, cellOf, planeWave]
    refine Finset.sum_congr rfl fun s _ => Finset.sum_congr rfl fun i _ => Finset.sum_congr rfl fun t _ =>
      Finset.sum_congr rfl fun j _ => hterm r c s t i j
  simp only [hL]
  have hsw : ∀ F : ℕ → ℕ → Fin 4 → Fin 2 → ℂ, ∑ r ∈ Finset.range ny, ∑ c ∈ Finset.range nx, ∑ s : Fin 4, ∑ i : Fin 2, F r c s i =
      ∑ s : Fin 4, ∑ i : Fin 2, ∑ r ∈ Finset.range ny, ∑ c ∈ Finset.range nx, F r c s i := by
    intro F
    simp only [Fin.sum_univ_four, Fin.sum_univ_two, Finset.sum_add_distrib]
  rw [hsw]
  simp only [← Finset.mul_sum, ← Finset.sum_mul, hS]
  simp only [dotProduct, Matrix.mulVec, waveMat, Fin.sum_univ_four, Fin.sum_univ_two, Pi.star_apply]
  ring

/-- A field whose amplitudes in all waves vanish is zero. -/
theorem amplitude_zero {nx ny : ℕ} {z y : ℕ → ℂ} (hz : Function.Injective fun m : Fin nx => z m)
    (hy : Function.Injective fun l : Fin ny => y l) {V : ℕ → ℕ → Fin 2 → ℂ}
    (h : ∀ m < nx, ∀ l < ny, amplitude nx ny (z m) (y l) V = 0) {r c : ℕ} (hr : r < ny) (hc : c < nx) (j : Fin 2) : V r c j = 0 := by
  have hz' : Function.Injective fun m : Fin nx => star (z m) := fun a b e => hz (star_injective e)
  have hy' : Function.Injective fun l : Fin ny => star (y l) := fun a b e => hy (star_injective e)
  have h1 : ∀ l < ny, ∀ c < nx, ∑ r ∈ Finset.range ny, star (y l) ^ r * V r c j = 0 := by
    intro l hl c hc
    have := Matrix.eq_zero_of_forall_index_sum_pow_mul_eq_zero hz'
      (v := fun c : Fin nx => ∑ r ∈ Finset.range ny, star (y l) ^ r * V r c j) ?_
    · exact congrFun this ⟨c, hc⟩
    · intro m
      have h2 := congrFun (h m m.2 l hl) j
      simp only [amplitude, Pi.zero_apply] at h2
      rw [Finset.sum_comm, Finset.sum_range] at h2
      rw [← h2]
      refine Finset.sum_congr rfl fun c _ => ?_
      rw [Finset.mul_sum]
      refine Finset.sum_congr rfl fun r _ => ?_
      rw [star_mul', star_pow, star_pow]
      ring
  have := Matrix.eq_zero_of_forall_index_sum_pow_mul_eq_zero hy' (v := fun r : Fin ny => V r c j) ?_
  · exact congrFun this ⟨r, hr⟩
  · intro l
    rw [← h1 l l.2 c hc, Finset.sum_range]

/-- A real matrix between complex vectors. -/
theorem complex_bilin {ι : Type} [Fintype ι] (A : Matrix ι ι ℝ) (v u : ι → ℂ) :
    star v ⬝ᵥ (A.map Complex.ofReal).mulVec u =
      (((fun i => (v i).re) ⬝ᵥ A.mulVec (fun i => (u i).re) + (fun i => (v i).im) ⬝ᵥ A.mulVec (fun i => (u i).im) : ℝ) : ℂ) +
      Complex.I * (((fun i => (v i).re) ⬝ᵥ A.mulVec (fun i => (u i).im) - (fun i => (v i).im) ⬝ᵥ A.mulVec (fun i => (u i).re) : ℝ) : ℂ) := by
  have hm : ∀ i, (A.map Complex.ofReal).mulVec u i = ⟨A.mulVec (fun i => (u i).re) i, A.mulVec (fun i => (u i).im) i⟩ := by
    intro i
    apply Complex.ext <;> simp [Matrix.mulVec, dotProduct]
  apply Complex.ext
  · simp only [dotProduct, Complex.re_sum, hm, Pi.star_apply]
    simp [Finset.sum_add_distrib]
  · simp only [dotProduct, Complex.im_sum, hm, Pi.star_apply]
    simp [Finset.sum_add_distrib, sub_eq_add_neg]

theorem waveMat_entry (κ : Matrix (Fin 4 × Fin 2) (Fin 4 × Fin 2) ℂ) (z y : ℂ) (i j : Fin 2) :
    waveMat κ z y i j = star (cellOf (planeWave z y (Pi.single i 1)) 0 0) ⬝ᵥ κ.mulVec (cellOf (planeWave z y (Pi.single j 1)) 0 0) := by
  simp only [waveMat, dotProduct, Matrix.mulVec, Fintype.sum_prod_type, Pi.star_apply, cellOf, planeWave, zero_add, star_mul']
  refine Finset.sum_congr rfl fun s _ => ?_
  fin_cases i <;> fin_cases j <;> simp [Fin.sum_univ_two, Finset.mul_sum] <;>
    exact Finset.sum_congr rfl fun t _ => by ring

/-- Energy of waves in a cell: the average of the square of the wave over the two Gauss points between two nodes. -/
noncomputable def Spec.waveMean (θ : ℝ) : ℝ := ((1 + (gaussPt : ℝ) ^ 2) + (1 - (gaussPt : ℝ) ^ 2) * Real.cos θ) / 2

section
variable {a b : ℝ} {α β : ℝ}

/-- The wave of unit amplitude in a cell, its real and its imaginary part. -/
noncomputable def cosCell (α β : ℝ) (j : Fin 2) : Fin 4 × Fin 2 → ℝ := fun s =>
  if s.2 = j then ![1, Real.cos α, Real.cos α * Real.cos β - Real.sin α * Real.sin β, Real.cos β] s.1 else 0

noncomputable def sinCell (α β : ℝ) (j : Fin 2) : Fin 4 × Fin 2 → ℝ := fun s =>
  if s.2 = j then ![0, Real.sin α, Real.sin α * Real.cos β + Real.cos α * Real.sin β, Real.sin β] s.1 else 0

theorem turn_eq (θ : ℝ) : Complex.exp (Complex.I * (θ : ℂ)) = ⟨Real.cos θ, Real.sin θ⟩ := by
  rw [mul_comm, Complex.exp_mul_I]
  apply Complex.ext
  · rw [Complex.add_re, Complex.mul_re, Complex.cos_ofReal_re, Complex.sin_ofReal_re, Complex.sin_ofReal_im]
    simp
  · rw [Complex.add_im, Complex.mul_im, Complex.cos_ofReal_im, Complex.sin_ofReal_re, Complex.sin_ofReal_im]
    simp

theorem waveCell_parts (α β : ℝ) (j : Fin 2) :
    (fun s => (cellOf (planeWave (Complex.exp (Complex.I * (α : ℂ))) (Complex.exp (Complex.I * (β : ℂ))) (Pi.single j 1)) 0 0 s).re) =
      cosCell α β j ∧
    (fun s => (cellOf (planeWave (Complex.exp (Complex.I * (α : ℂ))) (Complex.exp (Complex.I * (β : ℂ))) (Pi.single j 1)) 0 0 s).im) =
      sinCell α β j := by
  rw [turn_eq, turn_eq]
  constructor
  · funext ⟨s, i⟩
    fin_cases s <;> fin_cases i <;> fin_cases j <;> simp [cellOf, planeWave, upOf, rightOf, cosCell]
  · funext ⟨s, i⟩
    fin_cases s <;> fin_cases i <;> fin_cases j <;> simp [cellOf, planeWave, upOf, rightOf, sinCell] <;> ring

theorem waveMat_real (k : Matrix (Fin 4 × Fin 2) (Fin 4 × Fin 2) ℝ) (i j : Fin 2) {x w : ℝ}
    (h1 : cosCell α β i ⬝ᵥ k.mulVec (cosCell α β j) + sinCell α β i ⬝ᵥ k.mulVec (sinCell α β j) = x)
    (h2 : cosCell α β i ⬝ᵥ k.mulVec (sinCell α β j) - sinCell α β i ⬝ᵥ k.mulVec (cosCell α β j) = w) :
    waveMat (k.map Complex.ofReal) (Complex.exp (Complex.I * (α : ℂ))) (Complex.exp (Complex.I * (β : ℂ))) i j = (x : ℂ) + Complex.I * w := by
  obtain ⟨r1, i1⟩ := waveCell_parts α β i
  obtain ⟨r2, i2⟩ := waveCell_parts α β j
  rw [waveMat_entry, complex_bilin, r1, r2, i1, i2, h1, h2]

/-- Stiffness of a rectangle on waves. -/
theorem wave_stiff (ha : a ≠ 0) (hb : b ≠ 0) (x y c11 c12 c33 : ℝ) (α β : ℝ) :
    waveMat ((stiff2 (ruleQuad shapeQuad4 pts1d2 wts1d2) (rectAt x y a b) !![c11, c12, 0; c12, c11, 0; 0, 0, c33]).map Complex.ofReal)
      (Complex.exp (Complex.I * (α : ℂ))) (Complex.exp (Complex.I * (β : ℂ))) =
    (!![a * b * (c11 * (2 * (1 - Real.cos α)) / a ^ 2 * waveMean β + c33 * (2 * (1 - Real.cos β)) / b ^ 2 * waveMean α),
        (c12 + c33) * (Real.sin α * Real.sin β);
        (c12 + c33) * (Real.sin α * Real.sin β),
        a * b * (c11 * (2 * (1 - Real.cos β)) / b ^ 2 * waveMean α + c33 * (2 * (1 - Real.cos α)) / a ^ 2 * waveMean β)] :
          Matrix (Fin 2) (Fin 2) ℝ).map Complex.ofReal := by
  have hα := Real.sin_sq_add_cos_sq α
  have hβ := Real.sin_sq_add_cos_sq β
  have re : ∀ i j, cosCell α β i ⬝ᵥ (stiff2 (ruleQuad shapeQuad4 pts1d2 wts1d2) (rectAt x y a b)
        !![c11, c12, 0; c12, c11, 0; 0, 0, c33]).mulVec (cosCell α β j) +
      sinCell α β i ⬝ᵥ (stiff2 (ruleQuad shapeQuad4 pts1d2 wts1d2) (rectAt x y a b)
        !![c11, c12, 0; c12, c11, 0; 0, 0, c33]).mulVec (sinCell α β j) =
      (!![a * b * (c11 * (2 * (1 - Real.cos α)) / a ^ 2 * waveMean β + c33 * (2 * (1 - Real.cos β)) / b ^ 2 * waveMean α),
        (c12 + c33) * (Real.sin α * Real.sin β);
        (c12 + c33) * (Real.sin α * Real.sin β),
        a * b * (c11 * (2 * (1 - Real.cos β)) / b ^ 2 * waveMean α + c33 * (2 * (1 - Real.cos α)) / a ^ 2 * waveMean β)] :
          Matrix (Fin 2) (Fin 2) ℝ) i j := by
    intro i j
    rw [rect_form ha hb, rect_form ha hb]
    unfold waveMean
    generalize (gaussPt : ℝ) ^ 2 = g
    fin_cases i <;> fin_cases j <;>
      simp [centreStrain, upStrain, rightStrain, cosCell, sinCell, dotProduct, Matrix.mulVec, Fin.sum_univ_three] <;>
      generalize Real.cos α = p at * <;> generalize Real.sin α = q at * <;> generalize Real.cos β = t at * <;>
      generalize Real.sin β = s at * <;> field_simp
    · linear_combination (b ^ 2 * c11 * (((1 + t) ^ 2 + s ^ 2) + g * ((1 - t) ^ 2 + s ^ 2)) + a ^ 2 * c33 * (((1 - t) ^ 2 + s ^ 2) * (1 + g))) * hα +
        (b ^ 2 * c11 * (2 - 2 * p) * (1 + g) + a ^ 2 * c33 * ((2 + 2 * p) + g * (2 - 2 * p))) * hβ
    · linear_combination (c12 + c33) * (s ^ 2 + t ^ 2 - 1) * hα
    · linear_combination (c12 + c33) * (s ^ 2 + t ^ 2 - 1) * hα
    · linear_combination (b ^ 2 * c33 * (((1 + t) ^ 2 + s ^ 2) + g * ((1 - t) ^ 2 + s ^ 2)) + a ^ 2 * c11 * (((1 - t) ^ 2 + s ^ 2) * (1 + g))) * hα +
        (b ^ 2 * c33 * (2 - 2 * p) * (1 + g) + a ^ 2 * c11 * ((2 + 2 * p) + g * (2 - 2 * p))) * hβ
  have im : ∀ i j, cosCell α β i ⬝ᵥ (stiff2 (ruleQuad shapeQuad4 pts1d2 wts1d2) (rectAt x y a b)
        !![c11, c12, 0; c12, c11, 0; 0, 0, c33]).mulVec (sinCell α β j) -
      sinCell α β i ⬝ᵥ (stiff2 (ruleQuad shapeQuad4 pts1d2 wts1d2) (rectAt x y a b)
        !![c11, c12, 0; c12, c11, 0; 0, 0, c33]).mulVec (cosCell α β j) = 0 := by
    intro i j
    rw [rect_form ha hb, rect_form ha hb]
    generalize (gaussPt : ℝ) ^ 2 = g
    fin_cases i <;> fin_cases j <;>
      simp [centreStrain, upStrain, rightStrain, cosCell, sinCell, dotProduct, Matrix.mulVec, Fin.sum_univ_three] <;>
      generalize Real.cos α = p at * <;> generalize Real.sin α = q at * <;> generalize Real.cos β = t at * <;>
      generalize Real.sin β = s at * <;> field_simp
    · ring
    · linear_combination 2 * (c12 - c33) * (s * hα - q * hβ)
    · linear_combination 2 * (c33 - c12) * (s * hα - q * hβ)
    · ring
  ext i j
  rw [waveMat_real _ i j (re i j) (im i j), Complex.ofReal_zero, mul_zero, add_zero]
  rfl

theorem rect_mass_form (x y ρ : ℝ) (v u : Fin 4 × Fin 2 → ℝ) :
    v ⬝ᵥ (mass2 (ruleQuad shapeQuad4 pts1d2 wts1d2) (rectAt x y a b) ρ).mulVec u =
      ρ * (a * b / 4) * (([(-gaussPt, -gaussPt), (-gaussPt, gaussPt), (gaussPt, -gaussPt), (gaussPt, gaussPt)] : List (ℚ × ℚ)).map fun p =>
        (fun i => ∑ t, (shapeQuad4 (p.1 : ℝ) (p.2 : ℝ)).1 t * v (t, i)) ⬝ᵥ
          fun i : Fin 2 => ∑ t, (shapeQuad4 (p.1 : ℝ) (p.2 : ℝ)).1 t * u (t, i)).sum := by
  unfold mass2
  rw [mass_form]
  have h1 : pts1d2 = [-gaussPt, gaussPt] := by decide +kernel
  have h2 : wts1d2 = [1, 1] := by decide +kernel
  have hj : ∀ r s : ℝ, jdet (shapeQuad4 r s) (rectAt x y a b) = a * b / 4 := by
    intro r s
    unfold jdet
    rw [rect_jac, Matrix.det_fin_two]
    simp
    ring
  simp only [ruleQuad, at2, List.map_map, Function.comp_def, hj, hMat2_mulVec]
  rw [h1, h2]
  simp [prodRepeat]
  ring

/-- Mass of a rectangle on waves. -/
theorem wave_mass (x y ρ : ℝ) (α β : ℝ) :
    waveMat ((mass2 (ruleQuad shapeQuad4 pts1d2 wts1d2) (rectAt x y a b) ρ).map Complex.ofReal)
      (Complex.exp (Complex.I * (α : ℂ))) (Complex.exp (Complex.I * (β : ℂ))) =
    ((ρ * (a * b) * (waveMean α * waveMean β) : ℝ) : ℂ) • (1 : Matrix (Fin 2) (Fin 2) ℂ) := by
  have hα := Real.sin_sq_add_cos_sq α
  have hβ := Real.sin_sq_add_cos_sq β
  have re : ∀ i j, cosCell α β i ⬝ᵥ (mass2 (ruleQuad shapeQuad4 pts1d2 wts1d2) (rectAt x y a b) ρ).mulVec (cosCell α β j) +
      sinCell α β i ⬝ᵥ (mass2 (ruleQuad shapeQuad4 pts1d2 wts1d2) (rectAt x y a b) ρ).mulVec (sinCell α β j) =
      ρ * (a * b) * (waveMean α * waveMean β) * if i = j then 1 else 0 := by
    intro i j
    rw [rect_mass_form, rect_mass_form]
    unfold waveMean
    fin_cases i <;> fin_cases j <;>
      simp [cosCell, sinCell, dotProduct, Fin.sum_univ_four, shapeQuad4, lit_quarter] <;>
      generalize Real.cos α = p at * <;> generalize Real.sin α = q at * <;> generalize Real.cos β = t at * <;>
      generalize Real.sin β = s at * <;> generalize (gaussPt : ℝ) = g
    · linear_combination ρ * (a * b / 4) * ((1 + g ^ 2) / 2 * (((1 + g ^ 2) + (1 - g ^ 2) * t) + (1 + g ^ 2) / 2 * (s ^ 2 + t ^ 2 - 1)) * hα +
        ((1 + g ^ 2) + (1 - g ^ 2) * p) * ((1 + g ^ 2) / 2) * hβ)
    · linear_combination ρ * (a * b / 4) * ((1 + g ^ 2) / 2 * (((1 + g ^ 2) + (1 - g ^ 2) * t) + (1 + g ^ 2) / 2 * (s ^ 2 + t ^ 2 - 1)) * hα +
        ((1 + g ^ 2) + (1 - g ^ 2) * p) * ((1 + g ^ 2) / 2) * hβ)
  have im : ∀ i j, cosCell α β i ⬝ᵥ (mass2 (ruleQuad shapeQuad4 pts1d2 wts1d2) (rectAt x y a b) ρ).mulVec (sinCell α β j) -
      sinCell α β i ⬝ᵥ (mass2 (ruleQuad shapeQuad4 pts1d2 wts1d2) (rectAt x y a b) ρ).mulVec (cosCell α β j) = 0 := by
    intro i j
    rw [rect_mass_form, rect_mass_form]
    fin_cases i <;> fin_cases j <;>
      simp [cosCell, sinCell, dotProduct, Fin.sum_univ_four, shapeQuad4, lit_quarter] <;> ring
  ext i j
  rw [waveMat_real _ i j (re i j) (im i j), Complex.ofReal_zero, mul_zero, add_zero, Matrix.smul_apply, Matrix.one_apply]
  split <;> simp

end

end SolidsPy
