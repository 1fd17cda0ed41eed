import Verif.Props.Tuning
import Verif.Props.Sensitivity

/-! # C170: the rate at which natural frequencies change -/

set_option linter.unusedSectionVars false

namespace SolidsPy
open Filter Topology Asymptotics
open Spec Fem Uel Assem Matrix Gauss

/-! ## Pairs of matrices -/

section
variable {N : ℕ} {K M A B : Matrix (Fin N) (Fin N) ℝ} {w l : Fin N → ℝ} {φ ψ : Fin N → Fin N → ℝ}

theorem Spec.Modes.stiff_part (h : Modes A B l ψ) (x : Fin N → ℝ) (k : Fin N) :
    ψ k ⬝ᵥ A.mulVec x = l k * (ψ k ⬝ᵥ B.mulVec x) := by
  have e1 : A.mulVec x = ∑ k, (ψ k ⬝ᵥ B.mulVec x) • l k • B.mulVec (ψ k) := by
    conv_lhs => rw [h.expand x]
    rw [Matrix.mulVec_sum]
    exact Finset.sum_congr rfl fun k _ => by rw [Matrix.mulVec_smul, h.motion]
  rw [e1, dotProduct_sum]
  simp only [dotProduct_smul, h.normal, smul_eq_mul]
  rw [Finset.sum_eq_single k]
  · rw [if_pos rfl]; ring
  · intro b _ hb
    rw [if_neg hb.symm]; ring
  · simp

theorem dot_sq_le (y r : Fin N → ℝ) : (y ⬝ᵥ r) ^ 2 ≤ (y ⬝ᵥ y) * (r ⬝ᵥ r) := by
  have := Finset.sum_mul_sq_le_sq_mul_sq Finset.univ y r
  unfold dotProduct
  simpa [pow_two] using this

/-- The components of a vector along modes of large enough mass are bounded. -/
theorem parts_le (h : Modes K M w φ) (h' : Modes A B l ψ) (hB : ∀ x, |x ⬝ᵥ B.mulVec x - x ⬝ᵥ M.mulVec x| ≤ 1 / 2 * (x ⬝ᵥ M.mulVec x))
    (r : Fin N → ℝ) : ∑ k, (ψ k ⬝ᵥ r) ^ 2 ≤ 2 * (∑ k, ∑ j, |φ k ⬝ᵥ (1 : Matrix (Fin N) (Fin N) ℝ).mulVec (φ j)|) * (r ⬝ᵥ r) := by
  set S := ∑ k, ∑ j, |φ k ⬝ᵥ (1 : Matrix (Fin N) (Fin N) ℝ).mulVec (φ j)| with hS
  have hS0 : 0 ≤ S := Finset.sum_nonneg fun _ _ => Finset.sum_nonneg fun _ _ => abs_nonneg _
  set y : Fin N → ℝ := ∑ k, (ψ k ⬝ᵥ r) • ψ k with hy
  set ρ := ∑ k, (ψ k ⬝ᵥ r) ^ 2 with hρ
  have hρ0 : 0 ≤ ρ := Finset.sum_nonneg fun _ _ => sq_nonneg _
  have a1 : y ⬝ᵥ r = ρ := by
    rw [hy, sum_dotProduct]
    exact Finset.sum_congr rfl fun k _ => by rw [smul_dotProduct, smul_eq_mul, pow_two]
  have a2 : y ⬝ᵥ B.mulVec y = ρ := by
    rw [h'.form_mass y]
    refine Finset.sum_congr rfl fun k _ => ?_
    congr 1
    rw [hy, Matrix.mulVec_sum, dotProduct_sum]
    simp only [Matrix.mulVec_smul, dotProduct_smul, h'.normal, smul_eq_mul]
    simp
  have a3 := form_le_mass h 1 y
  rw [Matrix.one_mulVec] at a3
  have a4 := (abs_le.1 (hB y)).1
  have a5 := dot_sq_le y r
  have a6 := le_abs_self (y ⬝ᵥ y)
  have r0 : 0 ≤ r ⬝ᵥ r := by
    unfold dotProduct
    exact Finset.sum_nonneg fun _ _ => mul_self_nonneg _
  rw [a1] at a5
  rw [a2] at a4
  have b1 : y ⬝ᵥ M.mulVec y ≤ 2 * ρ := by linarith
  have b2 : y ⬝ᵥ y ≤ S * (2 * ρ) := (a6.trans a3).trans (mul_le_mul_of_nonneg_left b1 hS0)
  have b3 : ρ * ρ ≤ ρ * (2 * S * (r ⬝ᵥ r)) := by nlinarith [mul_le_mul_of_nonneg_right b2 r0]
  rcases hρ0.eq_or_lt with e | e
  · rw [← e]; positivity
  · exact le_of_mul_le_mul_left b3 e

/-- The quotient of a vector that nearly vibrates differs from the next frequency by the square of what is missing. -/
theorem quotient_close {μ g : ℝ} (c : Fin N → ℝ) (k : Fin N) (hg : 0 < g) (hgap : ∀ j, j ≠ k → g ≤ |l j - μ|)
    (hμ : ∑ j, (l j - μ) * c j ^ 2 = 0) (hsmall : ∑ j, ((l j - μ) * c j) ^ 2 ≤ g ^ 2 * (∑ j, c j ^ 2) / 2) :
    |l k - μ| * (∑ j, c j ^ 2) ≤ 2 / g * ∑ j, ((l j - μ) * c j) ^ 2 := by
  classical
  set ρ := ∑ j, ((l j - μ) * c j) ^ 2 with hρ
  set q := ∑ j, c j ^ 2 with hq
  have part : ∑ j ∈ Finset.univ.erase k, ((l j - μ) * c j) ^ 2 ≤ ρ :=
    Finset.sum_le_sum_of_subset_of_nonneg (Finset.erase_subset _ _) fun _ _ _ => sq_nonneg _
  have e1 : (l k - μ) * c k ^ 2 + ∑ j ∈ Finset.univ.erase k, (l j - μ) * c j ^ 2 = 0 := by
    rw [Finset.add_sum_erase _ (fun j => (l j - μ) * c j ^ 2) (Finset.mem_univ k)]
    exact hμ
  have e2 : c k ^ 2 + ∑ j ∈ Finset.univ.erase k, c j ^ 2 = q := Finset.add_sum_erase _ (fun j => c j ^ 2) (Finset.mem_univ k)
  have f1 : g * |∑ j ∈ Finset.univ.erase k, (l j - μ) * c j ^ 2| ≤ ρ := by
    refine le_trans ?_ part
    refine (mul_le_mul_of_nonneg_left (Finset.abs_sum_le_sum_abs _ _) hg.le).trans ?_
    rw [Finset.mul_sum]
    refine Finset.sum_le_sum fun j hj => ?_
    have h1 := hgap j (Finset.ne_of_mem_erase hj)
    rw [abs_mul, abs_of_nonneg (sq_nonneg (c j)), mul_pow, ← sq_abs (l j - μ)]
    nlinarith [mul_le_mul_of_nonneg_right h1 (mul_nonneg (abs_nonneg (l j - μ)) (sq_nonneg (c j)))]
  have f2 : g ^ 2 * ∑ j ∈ Finset.univ.erase k, c j ^ 2 ≤ ρ := by
    refine le_trans ?_ part
    rw [Finset.mul_sum]
    refine Finset.sum_le_sum fun j hj => ?_
    have h1 := hgap j (Finset.ne_of_mem_erase hj)
    rw [mul_pow, ← sq_abs (l j - μ)]
    exact mul_le_mul_of_nonneg_right (pow_le_pow_left₀ hg.le h1 2) (sq_nonneg _)
  have f3 : q / 2 ≤ c k ^ 2 := by
    have : g ^ 2 * ∑ j ∈ Finset.univ.erase k, c j ^ 2 ≤ g ^ 2 * (q / 2) := by linarith
    have := le_of_mul_le_mul_left this (by positivity)
    linarith
  have f4 : |l k - μ| * c k ^ 2 = |∑ j ∈ Finset.univ.erase k, (l j - μ) * c j ^ 2| := by
    rw [← abs_of_nonneg (sq_nonneg (c k)), ← abs_mul, eq_neg_of_add_eq_zero_left e1, abs_neg]
  rw [← f4] at f1
  have f5 : g * (|l k - μ| * (q / 2)) ≤ ρ :=
    (mul_le_mul_of_nonneg_left (mul_le_mul_of_nonneg_left f3 (abs_nonneg _)) hg.le).trans f1
  rw [div_mul_eq_mul_div, le_div_iff₀ hg]
  linarith

/-- The rate of change of a simple squared frequency. -/
theorem frequencies_rate {A B : ℝ → Matrix (Fin N) (Fin N) ℝ} {A' B' : Matrix (Fin N) (Fin N) ℝ} {w : ℝ → Fin N → ℝ} {w0 : Fin N → ℝ}
    (hA : ∀ i j, HasDerivAt (fun t => A t i j) (A' i j) 0) (hB : ∀ i j, HasDerivAt (fun t => B t i j) (B' i j) 0)
    (h : Modes (A 0) (B 0) w0 φ) (hi : ∀ᶠ t in 𝓝 0, (B t).IsSymm ∧ ∃ φ, Modes (A t) (B t) (w t) φ) {k : Fin N}
    (hk : ∀ j, j ≠ k → w0 j ≠ w0 k) :
    HasDerivAt (fun t => w t k) (φ k ⬝ᵥ A'.mulVec (φ k) - w0 k * (φ k ⬝ᵥ B'.mulVec (φ k))) 0 := by
  have hsym : (B 0).IsSymm := hi.self_of_nhds.1
  have tA : Tendsto A (𝓝 0) (𝓝 (A 0)) := tendsto_pi_nhds.2 fun i => tendsto_pi_nhds.2 fun j => (hA i j).continuousAt
  have tB : Tendsto B (𝓝 0) (𝓝 (B 0)) := tendsto_pi_nhds.2 fun i => tendsto_pi_nhds.2 fun j => (hB i j).continuousAt
  have tw : ∀ j, Tendsto (fun t => w t j) (𝓝 0) (𝓝 (w0 j)) := frequencies_tendsto tA tB h hsym hi
  have w00 : w 0 k = w0 k := by
    obtain ⟨-, φ', h'⟩ := hi.self_of_nhds
    have := frequencies_close h hsym h' hsym (ε := 0) le_rfl (by norm_num) (by simp) (by simp) k
    simpa [sub_eq_zero] using this
  set x := φ k with hx
  -- the quotient of the mode
  have mul_rate : ∀ {C : ℝ → Matrix (Fin N) (Fin N) ℝ} {C' : Matrix (Fin N) (Fin N) ℝ}, (∀ i j, HasDerivAt (fun t => C t i j) (C' i j) 0) → ∀ i,
      HasDerivAt (fun t => (C t).mulVec x i) (C'.mulVec x i) 0 := fun {C C'} hC i => by
    unfold Matrix.mulVec dotProduct
    exact HasDerivAt.fun_sum fun j _ => (hC i j).mul_const (x j)
  have form_rate : ∀ {C : ℝ → Matrix (Fin N) (Fin N) ℝ} {C' : Matrix (Fin N) (Fin N) ℝ}, (∀ i j, HasDerivAt (fun t => C t i j) (C' i j) 0) →
      HasDerivAt (fun t => x ⬝ᵥ (C t).mulVec x) (x ⬝ᵥ C'.mulVec x) 0 := fun {C C'} hC => by
    show HasDerivAt (fun t => ∑ i, x i * (C t).mulVec x i) (∑ i, x i * C'.mulVec x i) 0
    exact HasDerivAt.fun_sum fun i _ => (mul_rate hC i).const_mul (x i)
  have q0 : x ⬝ᵥ (B 0).mulVec x = 1 := by rw [h.normal, if_pos rfl]
  have p0 : x ⬝ᵥ (A 0).mulVec x = w0 k := by rw [h.motion, dotProduct_smul, q0, smul_eq_mul, mul_one]
  set μ : ℝ → ℝ := fun t => (x ⬝ᵥ (A t).mulVec x) / (x ⬝ᵥ (B t).mulVec x) with hμ
  have μ0 : μ 0 = w0 k := by simp only [hμ, p0, q0, div_one]
  have dμ : HasDerivAt μ (x ⬝ᵥ A'.mulVec x - w0 k * (x ⬝ᵥ B'.mulVec x)) 0 := by
    have := (form_rate hA).fun_div (form_rate hB) (by rw [q0]; exact one_ne_zero)
    rw [p0, q0] at this
    simpa using this
  -- what is missing to a mode
  set r : ℝ → Fin N → ℝ := fun t => (A t).mulVec x - μ t • (B t).mulVec x with hr
  have r0 : ∀ i, r 0 i = 0 := fun i => by
    simp only [hr, Pi.sub_apply, Pi.smul_apply, μ0]
    rw [hx, h.motion]
    simp
  have hrO : ∀ i, (fun t => r t i) =O[𝓝 0] fun t => t := fun i => by
    have d : HasDerivAt (fun t => r t i) (A'.mulVec x i - ((x ⬝ᵥ A'.mulVec x - w0 k * (x ⬝ᵥ B'.mulVec x)) * (B 0).mulVec x i +
        μ 0 * B'.mulVec x i)) 0 := (mul_rate hA i).sub (dμ.mul (mul_rate hB i))
    have := d.isBigO_sub
    simpa [r0] using this
  have rrO : (fun t => r t ⬝ᵥ r t) =o[𝓝 0] fun t => t := by
    have e : (fun t => r t ⬝ᵥ r t) = fun t => ∑ i, r t i * r t i := rfl
    rw [e]
    refine IsLittleO.fun_sum fun i _ => ?_
    have : (fun t => r t i * r t i) =O[𝓝 0] fun t : ℝ => t * t := (hrO i).mul (hrO i)
    refine this.trans_isLittleO ?_
    have h1 : (fun t : ℝ => t) =o[𝓝 0] fun _ => (1 : ℝ) := (isLittleO_one_iff ℝ).2 tendsto_id
    simpa using (isBigO_refl (fun t : ℝ => t) (𝓝 0)).mul_isLittleO h1
  have rr0 : Tendsto (fun t => r t ⬝ᵥ r t) (𝓝 0) (𝓝 0) := by
    have h1 : (fun t : ℝ => t) =o[𝓝 0] fun _ => (1 : ℝ) := (isLittleO_one_iff ℝ).2 tendsto_id
    exact (isLittleO_one_iff ℝ).1 (rrO.trans h1)
  -- the gap
  obtain ⟨g, hg, hgap⟩ : ∃ g > 0, ∀ᶠ t in 𝓝 0, ∀ j, j ≠ k → g ≤ |w t j - μ t| := by
    have each : ∀ j, ∃ g > 0, j ≠ k → ∀ᶠ t in 𝓝 0, g ≤ |w t j - μ t| := fun j => by
      by_cases e : j = k
      · exact ⟨1, one_pos, fun h => absurd e h⟩
      · have h1 : Tendsto (fun t => |w t j - μ t|) (𝓝 0) (𝓝 |w0 j - w0 k|) := by
          have := dμ.continuousAt.tendsto
          rw [μ0] at this
          exact ((tw j).sub this).abs
        have h2 : 0 < |w0 j - w0 k| := abs_pos.2 (sub_ne_zero.2 (hk j e))
        refine ⟨|w0 j - w0 k| / 2, by positivity, fun _ => ?_⟩
        exact (h1.eventually (lt_mem_nhds (by linarith : |w0 j - w0 k| / 2 < |w0 j - w0 k|))).mono fun t ht => ht.le
    choose g hg hg' using each
    have hne : (Finset.univ : Finset (Fin N)).Nonempty := ⟨k, Finset.mem_univ k⟩
    refine ⟨Finset.univ.inf' hne g, ?_, ?_⟩
    · rw [gt_iff_lt, Finset.lt_inf'_iff]
      exact fun j _ => hg j
    · rw [Filter.eventually_all]
      intro j
      by_cases e : j = k
      · exact Eventually.of_forall fun t h => absurd e h
      · filter_upwards [hg' j e] with t ht _
        exact (Finset.inf'_le _ (Finset.mem_univ j)).trans ht
  set S := ∑ k, ∑ j, |φ k ⬝ᵥ (1 : Matrix (Fin N) (Fin N) ℝ).mulVec (φ j)| with hS
  -- mass near that of the pair
  have hBM : ∀ᶠ t in 𝓝 0, ∀ x, |x ⬝ᵥ (B t).mulVec x - x ⬝ᵥ (B 0).mulVec x| ≤ 1 / 2 * (x ⬝ᵥ (B 0).mulVec x) := by
    have hc : Continuous fun C : Matrix (Fin N) (Fin N) ℝ => ∑ k, ∑ l, |φ k ⬝ᵥ C.mulVec (φ l)| := by
      refine continuous_finsetSum _ fun k _ => continuous_finsetSum _ fun l _ => Continuous.abs ?_
      unfold Matrix.mulVec dotProduct
      fun_prop
    have h1 : Tendsto (fun t => B t - B 0) (𝓝 0) (𝓝 0) := by
      have := tB.sub_const (B 0)
      rwa [sub_self] at this
    have h2 := (hc.tendsto 0).comp h1
    simp only [Matrix.zero_mulVec, dotProduct_zero, abs_zero, Finset.sum_const_zero] at h2
    filter_upwards [h2.eventually (gt_mem_nhds (by norm_num : (0 : ℝ) < 1 / 2))] with t ht x
    rw [← dotProduct_sub, ← Matrix.sub_mulVec]
    exact (form_le_mass h (B t - B 0) x).trans (mul_le_mul_of_nonneg_right ht.le (mass_form_nonneg h x))
  have hq : ∀ᶠ t in 𝓝 0, 1 / 2 ≤ x ⬝ᵥ (B t).mulVec x := by
    filter_upwards [hBM] with t ht
    have := (abs_le.1 (ht x)).1
    rw [q0] at this
    linarith
  have hsmall : ∀ᶠ t in 𝓝 0, 2 * S * (r t ⬝ᵥ r t) ≤ g ^ 2 / 4 := by
    have : Tendsto (fun t => 2 * S * (r t ⬝ᵥ r t)) (𝓝 0) (𝓝 0) := by simpa using rr0.const_mul (2 * S)
    exact (this.eventually (gt_mem_nhds (by positivity : (0 : ℝ) < g ^ 2 / 4))).mono fun t ht => ht.le
  have bound : ∀ᶠ t in 𝓝 0, |w t k - μ t| ≤ 8 / g * S * (r t ⬝ᵥ r t) := by
    filter_upwards [hi, hgap, hBM, hq, hsmall] with t ⟨hs, ψ, hm⟩ h1 h2 h3 h4
    have hparts := parts_le h hm h2 (r t)
    rw [← hS] at hparts
    have hc : ∀ j, ψ j ⬝ᵥ r t = (w t j - μ t) * (ψ j ⬝ᵥ (B t).mulVec x) := fun j => by
      simp only [hr]
      rw [dotProduct_sub, dotProduct_smul, hm.stiff_part, smul_eq_mul]
      ring
    simp only [hc] at hparts
    have hqs := hm.form_mass x
    have hps := hm.form_stiff hs x
    have hz : ∑ j, (w t j - μ t) * (ψ j ⬝ᵥ (B t).mulVec x) ^ 2 = 0 := by
      simp only [sub_mul, Finset.sum_sub_distrib]
      rw [← Finset.mul_sum, ← hqs, ← hps]
      simp only [hμ]
      rw [div_mul_cancel₀ _ (by linarith : x ⬝ᵥ (B t).mulVec x ≠ 0), sub_self]
    have key := quotient_close (fun j => ψ j ⬝ᵥ (B t).mulVec x) k hg h1 hz (by
      rw [← hqs]
      refine (hparts.trans h4).trans ?_
      have : g ^ 2 * (1 / 2) ≤ g ^ 2 * (x ⬝ᵥ (B t).mulVec x) := mul_le_mul_of_nonneg_left h3 (sq_nonneg _)
      linarith)
    rw [← hqs] at key
    have k2 : |w t k - μ t| * (1 / 2) ≤ |w t k - μ t| * (x ⬝ᵥ (B t).mulVec x) := mul_le_mul_of_nonneg_left h3 (abs_nonneg _)
    have k3 := mul_le_mul_of_nonneg_left hparts (by positivity : 0 ≤ 2 / g)
    have e : 8 / g * S * (r t ⬝ᵥ r t) = 2 * (2 / g * (2 * S * (r t ⬝ᵥ r t))) := by ring
    rw [e]
    linarith
  have small : (fun t => w t k - μ t) =o[𝓝 0] fun t => t := by
    have : (fun t => w t k - μ t) =O[𝓝 0] fun t => r t ⬝ᵥ r t := by
      refine IsBigO.of_bound (8 / g * S) ?_
      filter_upwards [bound] with t ht
      rw [Real.norm_eq_abs, Real.norm_eq_abs, abs_of_nonneg (a := r t ⬝ᵥ r t)]
      · exact ht
      · unfold dotProduct
        exact Finset.sum_nonneg fun _ _ => mul_self_nonneg _
    exact this.trans_isLittleO rrO
  have dd : HasDerivAt (fun t => w t k - μ t) 0 0 := by
    rw [hasDerivAt_iff_isLittleO]
    simpa [w00, μ0] using small
  have := dd.fun_add dμ
  simpa using this

end

/-! ## Assembled pairs -/

section
variable {nd neq : ℕ} {fn fn' : ℤ → Uel ℝ → Prop} {els : List (List ℤ)} {cons mats0 nodes0 : Table ℝ} {mats nodes : ℝ → Table ℝ}
  {bc : List (List ℤ)} {K0 M0 : Matrix (Fin neq) (Fin neq) ℝ} {ks0 ms0 : List (Member ℝ)} {w0 : Fin neq → ℝ} {φ0 : Fin neq → Fin neq → ℝ}
  {w : ℝ → Fin neq → ℝ} {k : Fin neq}

theorem setup_cell {ms : List (Member ℝ)} (s : Setup fn cons els mats0 nodes0 nd neq bc K0 ms) {E : Fin neq → ℕ → ℕ → ℝ}
    (hE : ∀ i, Completes cons bc nd neq (Pi.single i 1) (E i)) (i j : Fin neq) : K0 i j = (ms.map fun m => m.form nd (E i) (E j)).sum := by
  rw [← reduced_form s (hE i) (hE j)]
  simp [Pi.single_apply]

/-- If the stiffness and the mass forms of the models have rates of change, so have the simple squared frequencies. -/
theorem setups_rate (s0 : Setup fn cons els mats0 nodes0 nd neq bc K0 ks0) (s0' : Setup fn' cons els mats0 nodes0 nd neq bc M0 ms0)
    (hm : Modes K0 M0 w0 φ0) {F G : ℝ → (ℕ → ℕ → ℝ) → (ℕ → ℕ → ℝ) → ℝ} {F' G' : (ℕ → ℕ → ℝ) → (ℕ → ℕ → ℝ) → ℝ}
    (hF0 : ∀ V U, F 0 V U = (ks0.map fun m => m.form nd V U).sum) (hG0 : ∀ V U, G 0 V U = (ms0.map fun m => m.form nd V U).sum)
    (hF : ∀ V U, HasDerivAt (fun t => F t V U) (F' V U) 0) (hG : ∀ V U, HasDerivAt (fun t => G t V U) (G' V U) 0)
    (h : ∀ᶠ t in 𝓝 0, ∃ A B ks ms φ bc', Setup fn cons els (mats t) (nodes t) nd neq bc' A ks ∧
      Setup fn' cons els (mats t) (nodes t) nd neq bc' B ms ∧ B.IsSymm ∧ Modes A B (w t) φ ∧
      (∀ V U, (ks.map fun m => m.form nd V U).sum = F t V U) ∧ ∀ V U, (ms.map fun m => m.form nd V U).sum = G t V U)
    (hk : ∀ j, j ≠ k → w0 j ≠ w0 k) {V : ℕ → ℕ → ℝ} (hV : Completes cons bc nd neq (φ0 k) V) :
    HasDerivAt (fun t => w t k) (F' V V - w0 k * G' V V) 0 := by
  choose E hE using fun i : Fin neq => exists_completes (cons := cons) bc nd (Pi.single i (1 : ℝ))
  let A : ℝ → Matrix (Fin neq) (Fin neq) ℝ := fun t => Matrix.of fun i j => F t (E i) (E j)
  let B : ℝ → Matrix (Fin neq) (Fin neq) ℝ := fun t => Matrix.of fun i j => G t (E i) (E j)
  let A' : Matrix (Fin neq) (Fin neq) ℝ := Matrix.of fun i j => F' (E i) (E j)
  let B' : Matrix (Fin neq) (Fin neq) ℝ := Matrix.of fun i j => G' (E i) (E j)
  have a0 : A 0 = K0 := by
    ext i j
    rw [setup_cell s0 hE]
    exact hF0 _ _
  have b0 : B 0 = M0 := by
    ext i j
    rw [setup_cell s0' hE]
    exact hG0 _ _
  have near : ∀ᶠ t in 𝓝 0, φ0 k ⬝ᵥ (A t).mulVec (φ0 k) = F t V V ∧ φ0 k ⬝ᵥ (B t).mulVec (φ0 k) = G t V V ∧
      (B t).IsSymm ∧ ∃ φ, Modes (A t) (B t) (w t) φ := by
    filter_upwards [h] with t ⟨A₁, B₁, ks, ms, φ, bc', s, s', h1, h2, h3, h4⟩
    have e := s.eq
    rw [s0.eq, Except.ok.injEq, Prod.mk.injEq] at e
    obtain ⟨-, rfl⟩ := e
    have ea : A t = A₁ := by
      ext i j
      rw [setup_cell s hE]
      exact (h3 _ _).symm
    have eb : B t = B₁ := by
      ext i j
      rw [setup_cell s' hE]
      exact (h4 _ _).symm
    rw [ea, eb]
    refine ⟨?_, ?_, h1, φ, h2⟩
    · rw [← h3]
      exact reduced_form s hV hV
    · rw [← h4]
      exact reduced_form s' hV hV
  have dA : ∀ i j, HasDerivAt (fun t => A t i j) (A' i j) 0 := fun i j => hF _ _
  have dB : ∀ i j, HasDerivAt (fun t => B t i j) (B' i j) 0 := fun i j => hG _ _
  have form : ∀ {C : ℝ → Matrix (Fin neq) (Fin neq) ℝ} {C' : Matrix (Fin neq) (Fin neq) ℝ},
      (∀ i j, HasDerivAt (fun t => C t i j) (C' i j) 0) → HasDerivAt (fun t => φ0 k ⬝ᵥ (C t).mulVec (φ0 k)) (φ0 k ⬝ᵥ C'.mulVec (φ0 k)) 0 :=
    fun {C C'} hC => by
      unfold Matrix.mulVec dotProduct
      exact HasDerivAt.fun_sum fun i _ => (HasDerivAt.fun_sum fun j _ => (hC i j).mul_const _).const_mul _
  have ra : φ0 k ⬝ᵥ A'.mulVec (φ0 k) = F' V V :=
    ((form dA).congr_of_eventuallyEq (near.mono fun t ht => ht.1.symm)).unique (hF V V)
  have rb : φ0 k ⬝ᵥ B'.mulVec (φ0 k) = G' V V :=
    ((form dB).congr_of_eventuallyEq (near.mono fun t ht => ht.2.1.symm)).unique (hG V V)
  rw [← ra, ← rb]
  exact frequencies_rate dA dB (by rw [a0, b0]; exact hm) (near.mono fun t ht => ht.2.2) hk

end

/-! ## Plane models -/

namespace Spec

/-- The material table in which the modulus of row `q` is multiplied by `1 + t g(q)` and its density by `1 + t r(q)`. -/
def tuned (g r : ℕ → ℝ) (t : ℝ) (mats : List (List ℝ)) : List (List ℝ) :=
  mats.mapIdx fun q row => match row with
    | [E, x, ρ] => [(1 + t * g q) * E, x, (1 + t * r q) * ρ]
    | row => row

end Spec

section
variable {d : Gui.Data ℝ} {neq : ℕ} {Kg Mg : Matrix (Fin neq) (Fin neq) ℝ} {ks ms : List (Member ℝ)} {w0 : Fin neq → ℝ}
  {φ : Fin neq → Fin neq → ℝ} {k : Fin neq} {g r : ℕ → ℝ} {ws vs : List ℝ} {t : ℝ}

theorem tuned_row {q : ℕ} {E x ρ : ℝ} {mats : Table ℝ} (h : mats[q]? = some [E, x, ρ]) :
    (tuned g r t mats)[q]? = some [(1 + t * g q) * E, x, (1 + t * r q) * ρ] := by simp [tuned, List.getElem?_mapIdx, h]

theorem tuned_tends (g r : ℕ → ℝ) {mats : Table ℝ} (h3 : ∀ row ∈ mats, row.length = 3) : TableTends (𝓝 0) (fun t => tuned g r t mats) mats := by
  have get : ∀ q row, mats[q]? = some row → ∃ E x ρ, row = [E, x, ρ] := fun q row h => by
    have hl := h3 row (List.mem_of_getElem? h)
    match row, hl with
    | [E, x, ρ], _ => exact ⟨E, x, ρ, rfl⟩
  constructor
  · intro t
    apply List.ext_getElem?
    intro q
    simp only [List.getElem?_map]
    cases hr : mats[q]? with
    | none => simp [tuned, List.getElem?_mapIdx, hr]
    | some row =>
      obtain ⟨E, x, ρ, rfl⟩ := get q row hr
      rw [tuned_row hr]
      rfl
  · intro p j
    unfold fieldOf entry
    cases hr : mats[p]? with
    | none => simp [tuned, List.getElem?_mapIdx, hr]
    | some row =>
      obtain ⟨E, x, ρ, rfl⟩ := get p row hr
      simp only [tuned_row hr, Option.bind_some]
      rcases j with _ | _ | _ | j
      · have hc : Continuous fun t : ℝ => (1 + t * g p) * E := by fun_prop
        simpa using hc.tendsto 0
      · simp
      · have hc : Continuous fun t : ℝ => (1 + t * r p) * ρ := by fun_prop
        simpa using hc.tendsto 0
      · simp

theorem member_tuned {sq : ℝ → ℝ} (hs : SqrtFn sq) {mats nodes : Table ℝ} {el : List ℤ} {m μ m' μ' : Member ℝ} {a b : ℝ}
    (h : IsMember (Routine sq) mats nodes el m) (hμ : IsMember (MassRoutine sq) mats nodes el μ)
    (h' : IsMember (Routine sq) (tuned g r t mats) nodes el m') (hμ' : IsMember (MassRoutine sq) (tuned g r t mats) nodes el μ')
    (h3 : ∀ row ∈ nodes, row.length = 3) (hm : ∀ row ∈ mats, row.length = 3)
    (hty : ∀ ty, el[1]? = some ty → ty ∈ [(1 : ℤ), 2, 3, 4] ∨ (ty = 6 ∧ (el.drop 3).length = 2))
    (ha : ∃ mi q, el[2]? = some mi ∧ Resolves mats.length mi q ∧ a = g q)
    (hb : ∃ mi q, el[2]? = some mi ∧ Resolves mats.length mi q ∧ b = r q) (v u : ℕ → ℕ → ℝ) :
    m'.form 2 v u = (1 + t * a) * m.form 2 v u ∧ μ'.form 2 v u = (1 + t * b) * μ.form 2 v u := by
  obtain ⟨n1, n2, n3, ty, mi, q, params, params', n, f, X, X', kk, kk', mm, mm', a1, a2, a3, a4, a5, a5', a6, a7, a8, a9, b7, b8,
    b9⟩ := pairs_twin h hμ h' hμ' h3 h3 hty (by simp [tuned]) rfl
  obtain rfl := a8.coord_unique b8 n2
  obtain ⟨mi', q', e1, e2, rfl⟩ := ha
  obtain ⟨mi'', q'', f1, f2, rfl⟩ := hb
  rw [a3, Option.some.injEq] at e1 f1
  subst e1 f1
  obtain rfl := resolves_unique a4 e2
  obtain rfl := resolves_unique a4 f2
  have hl := hm params (List.mem_of_getElem? a5)
  match params, hl with
  | [E, x, ρ], _ =>
    rw [tuned_row a5, Option.some.injEq] at a5'
    subst a5'
    obtain ⟨rfl, rfl⟩ := a6.rated hs a7 b7 (e := 1 + t * r _) rfl
    have n4 : μ'.nodes = μ.nodes := n3.trans n1.symm
    rw [a8.form, b8.form, a9.form, b9.form, pick_congr n2, pick_congr n2, pick_congr n4, pick_congr n4, Matrix.smul_mulVec,
      Matrix.smul_mulVec, dotProduct_smul, dotProduct_smul, smul_eq_mul, smul_eq_mul]
    exact ⟨rfl, rfl⟩

theorem forms_tuned {sq : ℝ → ℝ} (hs : SqrtFn sq) (hp : PlaneModel d) (hm : ∀ row ∈ d.mats, row.length = 3) {ks' ms' : List (Member ℝ)}
    (hks : Members sq d ks) (hms : Masses sq d ms) (hks' : Members sq { d with mats := tuned g r t d.mats } ks')
    (hms' : Masses sq { d with mats := tuned g r t d.mats } ms') (hw : Weights g d.mats.length d.elements ws)
    (hv : Weights r d.mats.length d.elements vs) (v u : ℕ → ℕ → ℝ) :
    (ks'.map fun m => m.form 2 v u).sum = (ks.map fun m => m.form 2 v u).sum + t * weighted ws ks v u ∧
    (ms'.map fun m => m.form 2 v u).sum = (ms.map fun m => m.form 2 v u).sum + t * weighted vs ms v u := by
  unfold Members at hks hks'
  unfold Masses at hms hms'
  dsimp only at hks' hms'
  unfold Weights at hw hv
  have ht := hp.types
  unfold weighted
  generalize d.elements = els at hks hms hks' hms' hw hv ht
  induction hks generalizing ms ks' ms' ws vs with
  | nil => cases hms; cases hks'; cases hms'; cases hw; cases hv; simp
  | cons h _ ih =>
    cases hms with
    | cons hμ hms =>
    cases hks' with
    | cons h' hks' =>
    cases hms' with
    | cons hμ' hms' =>
    cases hw with
    | cons hw hws =>
    cases hv with
    | cons hv hvs =>
      obtain ⟨i1, i2⟩ := ih hms hks' hms' hws hvs fun el hel => ht el (List.mem_cons_of_mem _ hel)
      obtain ⟨j1, j2⟩ := member_tuned hs h hμ h' hμ' hp.nodes hm (ht _ List.mem_cons_self) hw hv v u
      simp only [List.map_cons, List.sum_cons, List.zipWith_cons_cons]
      rw [i1, i2, j1, j2]
      constructor <;> ring

theorem linear_rate (a b : ℝ) : HasDerivAt (fun t : ℝ => a + t * b) b 0 := by
  have := ((hasDerivAt_id (0 : ℝ)).mul_const b).const_add a
  simpa using this

/-- C170.  Plane elements and bars.  When the modulus of each material row `q` grows at the relative rate `g(q)` and its density at the
rate `r(q)`, near models vibrate with as many modes, and a simple squared frequency changes at the rate of the weighted strain energy of
its mode, less the frequency times the weighted kinetic energy. -/
theorem C170_materials (h0 : Vibrating Real.sqrt d ks ms Kg Mg) (hm : Modes Kg Mg w0 φ) (h3 : ∀ row ∈ d.mats, row.length = 3)
    (hw : Weights g d.mats.length d.elements ws) (hv : Weights r d.mats.length d.elements vs) :
    (∀ᶠ t in 𝓝 0, ∃ (A B : Matrix (Fin neq) (Fin neq) ℝ) (ks μs : _) (w : _) (φ : _),
      Vibrating Real.sqrt { d with mats := tuned g r t d.mats } ks μs A B ∧ Modes A B w φ) ∧
    ∀ w : ℝ → Fin neq → ℝ, (∀ᶠ t in 𝓝 0, ∃ (A B : Matrix (Fin neq) (Fin neq) ℝ) (ks μs : _) (φ : _),
        Vibrating Real.sqrt { d with mats := tuned g r t d.mats } ks μs A B ∧ Modes A B (w t) φ) →
      ∀ k, (∀ j, j ≠ k → w0 j ≠ w0 k) → ∀ op bc V, dme d.cons d.elements = .ok (op, bc, neq) → Completes d.cons bc 2 neq (φ k) V →
        HasDerivAt (fun t => w t k) (weighted ws ks V V - w0 k * weighted vs ms V V) 0 := by
  have ht : ModelTends (𝓝 0) (fun t => { d with mats := tuned g r t d.mats }) d :=
    ⟨fun _ => rfl, fun _ => rfl, const_tends _ _, tuned_tends g r h3, const_tends _ _, fun _ => rfl⟩
  refine ⟨(C168_plane ht h0 hm).1, fun w hwt k hk op bc V hbc hV => ?_⟩
  obtain ⟨bc', s0, s0'⟩ := h0.setups
  obtain rfl : bc = bc' := by
    have e := (dme_ok.1 hbc).1.symm.trans s0.eq
    simpa using e
  refine setups_rate (mats := fun t => tuned g r t d.mats) (nodes := fun _ => d.nodes) (F := fun t V U => (ks.map fun m => m.form 2 V U).sum + t * weighted ws ks V U)
    (G := fun t V U => (ms.map fun m => m.form 2 V U).sum + t * weighted vs ms V U) s0 s0' hm (by simp) (by simp)
    (fun V U => linear_rate _ _) (fun V U => linear_rate _ _) ?_ hk hV
  filter_upwards [hwt] with t ⟨A, B, ks', ms', φ', a1, a2⟩
  obtain ⟨bc₁, s, s'⟩ := a1.setups
  have key := fun V U => forms_tuned sqrtFn_real h0.plane h3 h0.springs h0.masses a1.springs a1.masses hw hv V U
  exact ⟨A, B, ks', ms', φ', bc₁, s, s', (a1.mass sqrtFn_real).1, a2, fun V U => (key V U).1, fun V U => (key V U).2⟩

/-- C170.  The strain energies of the elements in a mode of unit mass add up to the squared frequency: all moduli growing at the same rate
raise the squared frequency at that rate. -/
theorem C170_shares (h0 : Vibrating Real.sqrt d ks ms Kg Mg) (hm : Modes Kg Mg w0 φ) (hw : ws.length = ks.length) (hv : vs.length = ms.length)
    {a b : ℝ} (ha : ∀ x ∈ ws, x = a) (hb : ∀ x ∈ vs, x = b) {op bc : List (List ℤ)} {V : ℕ → ℕ → ℝ}
    (hbc : dme d.cons d.elements = .ok (op, bc, neq)) (hV : Completes d.cons bc 2 neq (φ k) V) :
    weighted ws ks V V - w0 k * weighted vs ms V V = (a - b) * w0 k := by
  obtain ⟨bc', s0, s0'⟩ := h0.setups
  obtain rfl : bc = bc' := by
    have e := (dme_ok.1 hbc).1.symm.trans s0.eq
    simpa using e
  have one : ∀ {ws : List ℝ} {ks : List (Member ℝ)} {a : ℝ}, ws.length = ks.length → (∀ x ∈ ws, x = a) →
      weighted ws ks V V = a * (ks.map fun m => m.form 2 V V).sum := by
    intro ws ks a hl ha
    unfold weighted
    induction ks generalizing ws with
    | nil =>
      obtain rfl : ws = [] := List.length_eq_zero_iff.1 hl
      simp
    | cons m ks ih =>
      match ws, hl with
      | x :: ws, hl =>
        rw [List.zipWith_cons_cons, List.sum_cons, List.map_cons, List.sum_cons, ih (by simpa using hl) fun y hy => ha y (List.mem_cons_of_mem _ hy),
          ha x List.mem_cons_self]
        ring
  have e1 : (ks.map fun m => m.form 2 V V).sum = w0 k := by
    rw [← reduced_form s0 hV hV]
    exact Modes.quotient hm k
  have e2 : (ms.map fun m => m.form 2 V V).sum = 1 := by
    rw [← reduced_form s0' hV hV]
    exact (hm.normal k k).trans (if_pos rfl)
  rw [one hw ha, one hv hb, e1, e2]
  ring

/-- C170.  Physical materials: a simple squared frequency never falls at first order when moduli grow, nor rises when densities grow. -/
theorem C170_sign (h0 : Vibrating Real.sqrt d ks ms Kg Mg) (hphys : Physical d) (hm : Modes Kg Mg w0 φ) {V : ℕ → ℕ → ℝ}
    (ha : ∀ x ∈ ws, 0 ≤ x) (hb : ∀ x ∈ vs, 0 ≤ x) :
    0 ≤ weighted ws ks V V ∧ - (w0 k * weighted vs ms V V) ≤ 0 := by
  refine ⟨weighted_nonneg ha fun m hk => (C93_elements sqrtFn_real h0.plane h0.springs).2 hphys m hk V, ?_⟩
  rw [neg_nonpos]
  refine mul_nonneg (C119_nonneg sqrtFn_real h0 hphys hm k) (weighted_nonneg hb fun m hk => ?_)
  obtain ⟨e, he, rfl⟩ := List.mem_iff_getElem.1 hk
  exact masses_nonneg sqrtFn_real h0.plane.nodes h0.massive h0.masses e he V

end

/-! ## Frames -/

/-- A beam whose stiffnesses and masses per length vary with a parameter. -/
structure Spec.BeamPath where
  a : ℕ
  b : ℕ
  X : Matrix (Fin 2) (Fin 2) ℝ
  L : ℝ
  EI : ℝ → ℝ
  EA : ℝ → ℝ
  γ : ℝ → ℝ
  ν : ℝ → ℝ

/-- Twice the strain energy that the beam gains per unit of the parameter at zero, its ends being held at `V`. -/
noncomputable def Spec.BeamPath.stiffens (s : BeamPath) (V : ℕ → ℕ → ℝ) : ℝ :=
  (deriv s.EI 0 * ∫ x in (0 : ℝ)..s.L, (deflection s.a s.b s.X s.L V).derivative.derivative.eval x *
      (deflection s.a s.b s.X s.L V).derivative.derivative.eval x) +
    deriv s.EA 0 * ∫ x in (0 : ℝ)..s.L, (extension s.a s.b s.X s.L V).derivative.eval x * (extension s.a s.b s.X s.L V).derivative.eval x

/-- The same for the mass. -/
noncomputable def Spec.BeamPath.loads (s : BeamPath) (V : ℕ → ℕ → ℝ) : ℝ :=
  (deriv s.γ 0 * ∫ x in (0 : ℝ)..s.L, (deflection s.a s.b s.X s.L V).eval x * (deflection s.a s.b s.X s.L V).eval x) +
    deriv s.ν 0 * ∫ x in (0 : ℝ)..s.L, (extension s.a s.b s.X s.L V).eval x * (extension s.a s.b s.X s.L V).eval x

/-- The parameters of the beam have derivatives at zero. -/
structure Spec.BeamPath.Smooth (s : BeamPath) : Prop where
  EI : DifferentiableAt ℝ s.EI 0
  EA : DifferentiableAt ℝ s.EA 0
  γ : DifferentiableAt ℝ s.γ 0
  ν : DifferentiableAt ℝ s.ν 0

/-- The rows of the element table are the beams of the list. -/
def Spec.BeamRows (mats nodes : Table ℝ) (els : List (List ℤ)) (ss : List BeamPath) (t : ℝ) : Prop :=
  List.Forall₂ (fun el s => IsBeam mats nodes el s.a s.b s.X s.L (s.EI t) (s.EA t) (s.γ t) (s.ν t)) els ss

section
variable {cons nodes : Table ℝ} {mats : ℝ → Table ℝ} {els : List (List ℤ)} {neq : ℕ} {Kg Mg : Matrix (Fin neq) (Fin neq) ℝ}
  {ks ms : List (Member ℝ)} {w0 : Fin neq → ℝ} {φ : Fin neq → Fin neq → ℝ} {k : Fin neq} {ss : List BeamPath} {t : ℝ}

theorem forms_beams (hks : List.Forall₂ (IsMember (Routine Real.sqrt) (mats t) nodes) els ks)
    (hms : List.Forall₂ (IsMember (MassRoutine Real.sqrt) (mats t) nodes) els ms) (h : BeamRows (mats t) nodes els ss t) (V U : ℕ → ℕ → ℝ) :
    (ks.map fun m => m.form 3 V U).sum = (ss.map fun s => s.EI t * bendInt s.L (deflection s.a s.b s.X s.L V) (deflection s.a s.b s.X s.L U) +
      s.EA t * ((extension s.a s.b s.X s.L V).coeff 1 * (extension s.a s.b s.X s.L U).coeff 1 * s.L)).sum ∧
    (ms.map fun m => m.form 3 V U).sum = (ss.map fun s => s.γ t * prodInt s.L (deflection s.a s.b s.X s.L V) (deflection s.a s.b s.X s.L U) +
      s.ν t * prodInt s.L (extension s.a s.b s.X s.L V) (extension s.a s.b s.X s.L U)).sum := by
  unfold BeamRows at h
  induction h generalizing ks ms with
  | nil => cases hks; cases hms; simp
  | cons hb _ ih =>
    cases hks with
    | cons hk hks =>
    cases hms with
    | cons hm hms =>
      obtain ⟨i1, i2⟩ := ih hks hms
      simp only [List.map_cons, List.sum_cons]
      rw [i1, i2, (hb.spring sqrtFn_real hk).2, (hb.mass sqrtFn_real hm).2]
      exact ⟨rfl, rfl⟩

theorem list_rate {α : Type} {f : α → ℝ → ℝ} {f' : α → ℝ} (l : List α) (h : ∀ x ∈ l, HasDerivAt (f x) (f' x) 0) :
    HasDerivAt (fun t => (l.map fun x => f x t).sum) (l.map f').sum 0 := by
  induction l with
  | nil => simpa using hasDerivAt_const (0 : ℝ) (0 : ℝ)
  | cons x l ih =>
    simp only [List.map_cons, List.sum_cons]
    exact (h x List.mem_cons_self).fun_add (ih fun y hy => h y (List.mem_cons_of_mem _ hy))

/-- C170.  Frames.  When the stiffnesses and masses per length of the beams vary smoothly with a parameter, a simple squared frequency
changes at the rate of the strain energy that the beams, bent as in the mode, gain, less the frequency times the kinetic energy. -/
theorem C170_frames (h0 : BeamModel Real.sqrt cons (mats 0) nodes els ks ms Kg Mg) (hm : Modes Kg Mg w0 φ) (hs : ∀ s ∈ ss, s.Smooth)
    (hb : ∀ᶠ t in 𝓝 0, BeamRows (mats t) nodes els ss t) {w : ℝ → Fin neq → ℝ}
    (hw : ∀ᶠ t in 𝓝 0, ∃ (A B : Matrix (Fin neq) (Fin neq) ℝ) (ks μs : _) (φ : _), BeamModel Real.sqrt cons (mats t) nodes els ks μs A B ∧
      Modes A B (w t) φ) (hk : ∀ j, j ≠ k → w0 j ≠ w0 k) {op bc : List (List ℤ)} {V : ℕ → ℕ → ℝ}
    (hbc : dme cons els 3 = .ok (op, bc, neq)) (hV : Completes cons bc 3 neq (φ k) V) :
    HasDerivAt (fun t => w t k) ((ss.map fun s => s.stiffens V).sum - w0 k * (ss.map fun s => s.loads V).sum) 0 := by
  obtain ⟨bc', s0, s0'⟩ := h0.setups
  obtain rfl : bc = bc' := by
    have e := (dme_ok.1 hbc).1.symm.trans s0.eq
    simpa using e
  have hb0 := hb.self_of_nhds
  have key := setups_rate (mats := mats) (nodes := fun _ => nodes)
    (F := fun t V U => (ss.map fun s => s.EI t * bendInt s.L (deflection s.a s.b s.X s.L V) (deflection s.a s.b s.X s.L U) +
      s.EA t * ((extension s.a s.b s.X s.L V).coeff 1 * (extension s.a s.b s.X s.L U).coeff 1 * s.L)).sum)
    (G := fun t V U => (ss.map fun s => s.γ t * prodInt s.L (deflection s.a s.b s.X s.L V) (deflection s.a s.b s.X s.L U) +
      s.ν t * prodInt s.L (extension s.a s.b s.X s.L V) (extension s.a s.b s.X s.L U)).sum)
    (w := w) s0 s0' hm (fun V U => (forms_beams h0.springs h0.masses hb0 V U).1.symm) (fun V U => (forms_beams h0.springs h0.masses hb0 V U).2.symm)
    (fun V U => list_rate ss fun s hs' => ((hs s hs').EI.hasDerivAt.mul_const _).fun_add ((hs s hs').EA.hasDerivAt.mul_const _))
    (fun V U => list_rate ss fun s hs' => ((hs s hs').γ.hasDerivAt.mul_const _).fun_add ((hs s hs').ν.hasDerivAt.mul_const _))
    (by
      filter_upwards [hw, hb] with t ⟨A, B, ks', ms', φ', a1, a2⟩ hbt
      obtain ⟨bc₁, s, s'⟩ := a1.setups
      exact ⟨A, B, ks', ms', φ', bc₁, s, s', (a1.symm sqrtFn_real).2, a2, fun V U => (forms_beams a1.springs a1.masses hbt V U).1,
        fun V U => (forms_beams a1.springs a1.masses hbt V U).2⟩) hk hV
  have pos : ∀ s ∈ ss, s.L ≠ 0 := fun s hs' => by
    obtain ⟨el, hel, hr⟩ := forall₂_mem hb0 hs'
    exact hr.length.1.ne'
  have e1 : (ss.map fun s => s.stiffens V) = ss.map fun s => deriv s.EI 0 * bendInt s.L (deflection s.a s.b s.X s.L V) (deflection s.a s.b s.X s.L V) +
      deriv s.EA 0 * ((extension s.a s.b s.X s.L V).coeff 1 * (extension s.a s.b s.X s.L V).coeff 1 * s.L) := List.map_congr_left fun s hs' => by
    have c := (deflection_bends (X := s.X) (a := s.a) (b := s.b) (pos s hs') V).cubic
    have l := (extension_stretches (X := s.X) (a := s.a) (b := s.b) (pos s hs') V).linear
    unfold BeamPath.stiffens
    rw [bend_integral c c, stretch_integral l l]
  have e2 : (ss.map fun s => s.loads V) = ss.map fun s => deriv s.γ 0 * prodInt s.L (deflection s.a s.b s.X s.L V) (deflection s.a s.b s.X s.L V) +
      deriv s.ν 0 * prodInt s.L (extension s.a s.b s.X s.L V) (extension s.a s.b s.X s.L V) := List.map_congr_left fun s hs' => by
    have c := (deflection_bends (X := s.X) (a := s.a) (b := s.b) (pos s hs') V).cubic
    have l := (extension_stretches (X := s.X) (a := s.a) (b := s.b) (pos s hs') V).linear.trans (by norm_num : 1 ≤ 3)
    unfold BeamPath.loads
    rw [prod_integral c c, prod_integral l l]
  rw [e1, e2]
  exact key

end

/-! ## The user's elements -/

namespace Spec

/-- Stiffness proportional to the first of three parameters, mass to the last. -/
def Proportional (f : Uel ℝ) : Prop :=
  ∀ ⦃coord : List (List ℝ)⦄ ⦃E x ρ c e : ℝ⦄ ⦃A B A' B' : NdArr ℝ⦄, f coord [E, x, ρ] = .ok (A, B) → f coord [c * E, x, e * ρ] = .ok (A', B') →
    ∀ i j, cell A' i j = c * cell A i j ∧ cell B' i j = e * cell B i j

/-- The weighted sum of the energies of the elements. -/
noncomputable def weightedIn (nd : ℕ) (ws : List ℝ) (ms : List (Member ℝ)) (v u : ℕ → ℕ → ℝ) : ℝ :=
  (List.zipWith (fun w m => w * m.form nd v u) ws ms).sum

end Spec

section
variable {n nd : ℕ} {f : Uel ℝ}

theorem cell_ofBlocks_smul {n d : ℕ} (c : ℝ) (k : Matrix (Fin n × Fin d) (Fin n × Fin d) ℝ) (i j : ℕ) :
    cell (NdArr.ofBlocks (c • k)) i j = c * cell (NdArr.ofBlocks k) i j := by
  simp only [NdArr.ofBlocks, cell]
  split
  · simp
  · simp

theorem elastMat_young {E nu c : ℝ} {C D} (h : elastMat [E, nu] = .ok C) (h' : elastMat [c * E, nu] = .ok D) : D = c • C := by
  obtain ⟨E', nu', h1, -, -, lam, mu, h2, h3, rfl⟩ := elastMat_ok.1 h
  simp only [List.cons.injEq, and_true] at h1
  obtain ⟨rfl, rfl⟩ := h1
  obtain ⟨E', nu', h1, -, -, lam', mu', h4, h5, rfl⟩ := elastMat_ok.1 h'
  simp only [List.cons.injEq, and_true] at h1
  obtain ⟨rfl, rfl⟩ := h1
  have e1 : lam' = c * lam := by rw [h4, h2]; ring
  have e2 : mu' = c * mu := by
    have : 2 * mu' = c * (2 * mu) := by rw [h5, h3]; ring
    linarith
  rw [e1, e2]
  ext i j
  fin_cases i <;> fin_cases j <;> simp <;> ring1

theorem elastMatAxi_young {E nu c : ℝ} {C D} (h : elastMatAxi [E, nu] = .ok C) (h' : elastMatAxi [c * E, nu] = .ok D) : D = c • C := by
  obtain ⟨E', nu', h1, -, -, lam, mu, h2, h3, rfl⟩ := elastMatAxi_ok.1 h
  simp only [List.cons.injEq, and_true] at h1
  obtain ⟨rfl, rfl⟩ := h1
  obtain ⟨E', nu', h1, -, -, lam', mu', h4, h5, rfl⟩ := elastMatAxi_ok.1 h'
  simp only [List.cons.injEq, and_true] at h1
  obtain ⟨rfl, rfl⟩ := h1
  have e1 : lam' = c * lam := by rw [h4, h2]; ring
  have e2 : mu' = c * mu := by
    have : 2 * mu' = c * (2 * mu) := by rw [h5, h3]; ring
    linarith
  rw [e1, e2]
  ext i j
  fin_cases i <;> fin_cases j <;> simp <;> ring1

theorem proportional_solid (hf : SolidElement n f) : Proportional f := by
  intro coord E x ρ c e A B A' B' h h' i j
  obtain ⟨R, hr, hg⟩ := solid_rep hf
  obtain ⟨X, rfl⟩ := hr.coord _ _ _ h
  obtain ⟨C, σ, ⟨-, a1, a2⟩, -, a3⟩ := (hr.ok _ _ _).1 h
  obtain ⟨C', σ', ⟨-, b1, b2⟩, -, b3⟩ := (hr.ok _ _ _).1 h'
  rw [Prod.mk.injEq] at a3 b3
  obtain ⟨rfl, rfl⟩ := a3
  obtain ⟨rfl, rfl⟩ := b3
  obtain rfl := elastMat_young a1 b1
  rw [densOf_eq, Except.ok.injEq] at a2 b2
  simp [density] at a2 b2
  subst a2 b2
  rw [stiff_young, mass_density]
  exact ⟨cell_ofBlocks_smul _ _ _ _, cell_ofBlocks_smul _ _ _ _⟩

/-- C170.  The routines of `uelutil` that must be passed as `uel` are proportional. -/
theorem C170_proportional (hf : Unlisted nd n f) : Proportional f := by
  cases hf with
  | quad8 =>
    intro coord E x ρ c e A B A' B' h h' i j
    obtain ⟨R, st, hr, hg⟩ := plane_rep (K := ℝ) .quad8
    obtain ⟨X, rfl⟩ := hr.coord _ _ _ h
    obtain ⟨C, σ, a1, -, a3⟩ := (hr.ok _ _ _).1 h
    obtain ⟨C', σ', b1, -, b3⟩ := (hr.ok _ _ _).1 h'
    obtain ⟨-, a1, a2⟩ := mat2_cons.1 a1
    obtain ⟨-, b1, b2⟩ := mat2_cons.1 b1
    rw [Prod.mk.injEq] at a3 b3
    obtain ⟨rfl, rfl⟩ := a3
    obtain ⟨rfl, rfl⟩ := b3
    rw [umat_young a1, Except.ok.injEq] at b1
    subst b1
    simp [density] at a2 b2
    subst a2 b2
    rw [stiff_young, mass_density]
    exact ⟨cell_ofBlocks_smul _ _ _ _, cell_ofBlocks_smul _ _ _ _⟩
  | axi =>
    intro coord E x ρ c e A B A' B' h h' i j
    obtain ⟨X, rfl⟩ := repAxi_coord h
    obtain ⟨C, σ, ⟨-, a1, a2⟩, -, a3⟩ := repAxi_ok.1 h
    obtain ⟨C', σ', ⟨-, b1, b2⟩, -, b3⟩ := repAxi_ok.1 h'
    rw [Prod.mk.injEq] at a3 b3
    obtain ⟨rfl, rfl⟩ := a3
    obtain ⟨rfl, rfl⟩ := b3
    obtain rfl := elastMatAxi_young a1 b1
    rw [densOf_eq, Except.ok.injEq] at a2 b2
    simp [density] at a2 b2
    subst a2 b2
    rw [stiff_young, mass_density]
    exact ⟨cell_ofBlocks_smul _ _ _ _, cell_ofBlocks_smul _ _ _ _⟩
  | tet4 => exact proportional_solid .tet4
  | hex8 => exact proportional_solid .hex8

variable {tab : ℤ → Py (Uel ℝ)} {tab' : ℝ → ℤ → Py (Uel ℝ)} {m : ℕ} {count : ℤ → Py ℕ} {cons mats nodes : Table ℝ} {els : List (List ℤ)} {neq : ℕ}
  {Kg Mg : Matrix (Fin neq) (Fin neq) ℝ} {ks ms : List (Member ℝ)} {w0 : Fin neq → ℝ} {φ : Fin neq → Fin neq → ℝ} {k : Fin neq}
  {g r : ℕ → ℝ} {ws vs : List ℝ} {t : ℝ}

theorem form_of_cells {m m' : Member ℝ} {c : ℝ} (hn : m'.nodes = m.nodes) (hk : ∀ i j, m'.k i j = c * m.k i j) (v u : ℕ → ℕ → ℝ) :
    m'.form nd v u = c * m.form nd v u := by
  unfold Member.form Member.force
  rw [hn]
  simp only [hk, Finset.mul_sum]
  refine Finset.sum_congr rfl fun a _ => Finset.sum_congr rfl fun j _ => Finset.sum_congr rfl fun b _ => Finset.sum_congr rfl fun l _ => ?_
  ring

theorem described_tuned (hf : Proportional f) (hm : ∀ row ∈ mats, row.length = 3) {el : List ℤ} {m μ m' μ' : Member ℝ} {a b : ℝ}
    (h : Describes f mats nodes el m) (hμ : Weighs f mats nodes el μ) (h' : Describes f (tuned g r t mats) nodes el m')
    (hμ' : Weighs f (tuned g r t mats) nodes el μ') (ha : ∃ mi q, el[2]? = some mi ∧ Resolves mats.length mi q ∧ a = g q)
    (hb : ∃ mi q, el[2]? = some mi ∧ Resolves mats.length mi q ∧ b = r q) (v u : ℕ → ℕ → ℝ) :
    m'.form nd v u = (1 + t * a) * m.form nd v u ∧ μ'.form nd v u = (1 + t * b) * μ.form nd v u := by
  obtain ⟨mi, q, e1, e2, rfl⟩ := ha
  obtain ⟨mi', q', f1, f2, rfl⟩ := hb
  rw [e1, Option.some.injEq] at f1
  subst f1
  obtain rfl := resolves_unique e2 f2
  have hlen : (tuned g r t mats).length = mats.length := by simp [tuned]
  have open_up : ∀ {f₁ : Uel ℝ} {mats : Table ℝ} {m : Member ℝ}, Describes f₁ mats nodes el m → Resolves mats.length mi q →
      ∃ params rows kl ml, mats[q]? = some params ∧ List.Forall₂ (Resolves nodes.length) (el.drop 3) m.nodes ∧
        List.Forall₂ (fun p row => nodes[p]? = some row) m.nodes rows ∧ f₁ (rows.map (List.drop 1)) params = .ok (kl, ml) ∧ m.k = cell kl := by
    rintro f₁ mats m ⟨ty, mi₁, params, rows, f₂, kl, ml, a1, a2, ⟨q₁, a3, a4⟩, a5, a6, rfl, a8, a9⟩ hq
    rw [e1, Option.some.injEq] at a2
    subst a2
    obtain rfl := resolves_unique a3 hq
    exact ⟨params, rows, kl, ml, a4, a5, a6, a8, a9⟩
  have rows_unique : ∀ {ps : List ℕ} {r1 r2 : List (List ℝ)}, List.Forall₂ (fun p row => nodes[p]? = some row) ps r1 →
      List.Forall₂ (fun p row => nodes[p]? = some row) ps r2 → r1 = r2 := by
    intro ps r1 r2 h1
    induction h1 generalizing r2 with
    | nil => intro h2; cases h2; rfl
    | cons x _ ih =>
      intro h2
      cases h2 with
      | cons y t => rw [Option.some.inj (x.symm.trans y), ih t]
  obtain ⟨p1, rows1, kl1, ml1, a1, a2, a3, a4, a5⟩ := open_up h e2
  obtain ⟨p2, rows2, kl2, ml2, b1, b2, b3, b4, b5⟩ := open_up hμ e2
  obtain ⟨p3, rows3, kl3, ml3, c1, c2, c3, c4, c5⟩ := open_up h' (by rw [hlen]; exact e2)
  obtain ⟨p4, rows4, kl4, ml4, d1, d2, d3, d4, d5⟩ := open_up hμ' (by rw [hlen]; exact e2)
  have n2 : m'.nodes = m.nodes := forall₂_resolves_unique a2 c2
  have n3 : μ.nodes = m.nodes := forall₂_resolves_unique a2 b2
  have n4 : μ'.nodes = m.nodes := forall₂_resolves_unique a2 d2
  rw [n3] at b3
  rw [n2] at c3
  rw [n4] at d3
  obtain rfl := rows_unique a3 b3
  obtain rfl := rows_unique a3 c3
  obtain rfl := rows_unique a3 d3
  rw [a1, Option.some.injEq] at b1
  subst b1
  have hl := hm p1 (List.mem_of_getElem? a1)
  match p1, hl with
  | [E, x, ρ], _ =>
    rw [tuned_row a1, Option.some.injEq] at c1 d1
    subst c1 d1
    have b4 := swapped_ok.1 b4
    have d4 := swapped_ok.1 d4
    rw [a4, Except.ok.injEq, Prod.mk.injEq] at b4
    rw [c4, Except.ok.injEq, Prod.mk.injEq] at d4
    obtain ⟨rfl, rfl⟩ := b4
    obtain ⟨rfl, rfl⟩ := d4
    have key := hf a4 c4
    refine ⟨form_of_cells n2 (fun i j => ?_) v u, form_of_cells (n4.trans n3.symm) (fun i j => ?_) v u⟩
    · rw [a5, c5]
      exact (key i j).1
    · rw [b5, d5]
      exact (key i j).2

theorem described_forms (hf : Proportional f) (hm : ∀ row ∈ mats, row.length = 3) {ks' ms' : List (Member ℝ)}
    (hks : List.Forall₂ (Describes f mats nodes) els ks) (hms : List.Forall₂ (Weighs f mats nodes) els ms)
    (hks' : List.Forall₂ (Describes f (tuned g r t mats) nodes) els ks') (hms' : List.Forall₂ (Weighs f (tuned g r t mats) nodes) els ms')
    (hw : Weights g mats.length els ws) (hv : Weights r mats.length els vs) (v u : ℕ → ℕ → ℝ) :
    (ks'.map fun m => m.form nd v u).sum = (ks.map fun m => m.form nd v u).sum + t * weightedIn nd ws ks v u ∧
    (ms'.map fun m => m.form nd v u).sum = (ms.map fun m => m.form nd v u).sum + t * weightedIn nd vs ms v u := by
  unfold Weights at hw hv
  unfold weightedIn
  induction hks generalizing ms ks' ms' ws vs with
  | nil => cases hms; cases hks'; cases hms'; cases hw; cases hv; simp
  | cons h _ ih =>
    cases hms with
    | cons hμ hms =>
    cases hks' with
    | cons h' hks' =>
    cases hms' with
    | cons hμ' hms' =>
    cases hw with
    | cons hw hws =>
    cases hv with
    | cons hv hvs =>
      obtain ⟨i1, i2⟩ := ih hms hks' hms' hws hvs
      obtain ⟨j1, j2⟩ := described_tuned (nd := nd) hf hm h hμ h' hμ' hw hv v u
      simp only [List.map_cons, List.sum_cons, List.zipWith_cons_cons]
      rw [i1, i2, j1, j2]
      constructor <;> ring

/-- C170.  The user's elements, if stiffness and mass are proportional to modulus and density. -/
theorem C170_user (hf : Proportional f) (h0 : UserVibration tab nd n m f count cons els mats nodes ks ms Kg Mg) (hm : Modes Kg Mg w0 φ)
    (h3 : ∀ row ∈ mats, row.length = 3) (hg : Weights g mats.length els ws) (hr : Weights r mats.length els vs) {w : ℝ → Fin neq → ℝ}
    (hw : ∀ᶠ t in 𝓝 0, ∃ (A B : Matrix (Fin neq) (Fin neq) ℝ) (ks μs : _) (φ : _),
      UserVibration (tab' t) nd n m f count cons els (tuned g r t mats) nodes ks μs A B ∧ Modes A B (w t) φ)
    (hk : ∀ j, j ≠ k → w0 j ≠ w0 k) {op bc : List (List ℤ)} {V : ℕ → ℕ → ℝ} (hbc : dme cons els nd m (some count) = .ok (op, bc, neq))
    (hV : Completes cons bc nd neq (φ k) V) :
    HasDerivAt (fun t => w t k) (weightedIn nd ws ks V V - w0 k * weightedIn nd vs ms V V) 0 := by
  obtain ⟨bc', s0, s0'⟩ := h0.setups
  obtain rfl : bc = bc' := by
    have e := (dme_ok.1 hbc).1.symm.trans s0.eq
    simpa using e
  refine setups_rate (mats := fun t => tuned g r t mats) (nodes := fun _ => nodes)
    (F := fun t V U => (ks.map fun m => m.form nd V U).sum + t * weightedIn nd ws ks V U)
    (G := fun t V U => (ms.map fun m => m.form nd V U).sum + t * weightedIn nd vs ms V U) s0 s0' hm (by simp) (by simp)
    (fun V U => linear_rate _ _) (fun V U => linear_rate _ _) ?_ hk hV
  filter_upwards [hw] with t ⟨A, B, ks', ms', φ', a1, a2⟩
  obtain ⟨bc₁, s, s'⟩ := a1.setups
  have key := fun V U => described_forms (nd := nd) hf h3 h0.springs h0.masses a1.springs a1.masses hg hr V U
  exact ⟨A, B, ks', ms', φ', bc₁, s, s', a1.mass.2.1, a2, fun V U => (key V U).1, fun V U => (key V U).2⟩

/-- C170.  The routines of `uelutil` passed as `uel`: there are such frequencies near the model, and they have these rates. -/
theorem C170_library (hf : Unlisted nd n f) (h0 : UserVibration tab nd n m f count cons els mats nodes ks ms Kg Mg) (hm : Modes Kg Mg w0 φ)
    (hh : HeavyMats mats els) (hn : ∀ row ∈ nodes, row.length = nd + 1) (h3 : ∀ row ∈ mats, row.length = 3)
    (hg : Weights g mats.length els ws) (hr : Weights r mats.length els vs) {op bc : List (List ℤ)}
    (hbc : dme cons els nd m (some count) = .ok (op, bc, neq)) :
    ∃ w : ℝ → Fin neq → ℝ, (∀ᶠ t in 𝓝 0, ∃ (A B : Matrix (Fin neq) (Fin neq) ℝ) (ks μs : _) (φ : _),
      UserVibration tab nd n m f count cons els (tuned g r t mats) nodes ks μs A B ∧ Modes A B (w t) φ) ∧
    ∀ k, (∀ j, j ≠ k → w0 j ≠ w0 k) → ∀ V, Completes cons bc nd neq (φ k) V →
      HasDerivAt (fun t => w t k) (weightedIn nd ws ks V V - w0 k * weightedIn nd vs ms V V) 0 := by
  obtain ⟨w, hw, -⟩ := C168_library (tab' := tab) hf h0 hh hn (const_tends _ _) (tuned_tends g r h3) hm
  exact ⟨w, hw, fun k hk V hV => C170_user (tab' := fun _ => tab) (C170_proportional hf) h0 hm h3 hg hr hw hk hbc hV⟩

end

/-! ## Cases -/

section demo

theorem chosen {N : ℕ} {P : ℝ → (Fin N → ℝ) → Prop} (h : ∀ᶠ t in 𝓝 0, ∃ w, P t w) : ∃ w : ℝ → Fin N → ℝ, ∀ᶠ t in 𝓝 0, P t (w t) := by
  classical
  refine ⟨fun t => if ht : ∃ w, P t w then ht.choose else 0, ?_⟩
  filter_upwards [h] with t ht
  rw [dif_pos ht]
  exact ht.choose_spec

/-- Case for C170: a chain of three bars whose modulus and density grow by the fractions `5 t` and `2 t`: all its squared frequencies
grow at the rate of three times their value. -/
example : ∃ (neq : ℕ) (K0 M0 : Matrix (Fin neq) (Fin neq) ℝ) (w0 : _) (φ0 : _) (w : ℝ → Fin neq → ℝ), neq = 2 ∧ Modes K0 M0 w0 φ0 ∧
    (∀ᶠ t in 𝓝 0, ∃ (A B : Matrix (Fin neq) (Fin neq) ℝ) (ks μs : _) (φ : _),
      Vibrating Real.sqrt { testBar 3 1 1 1 1 with mats := [[(1 + t * 5) * 1, 1, (1 + t * 2) * 1]] } ks μs A B ∧ Modes A B (w t) φ) ∧
    ∀ k, HasDerivAt (fun t => w t k) (3 * w0 k) 0 := by
  obtain ⟨neq, Kg, Mg, ks, ms, w0, φ, hv, hm⟩ := (testBar_uniform 3 1 1 1 1).vibrates sqrtFn_real one_pos one_pos one_pos
  have weights : ∀ c : ℝ, Weights (fun _ => c) (testBar 3 1 1 1 1).mats.length (testBar 3 1 1 1 1).elements [c, c, c] := fun c =>
    .cons ⟨0, 0, rfl, ⟨by simp [testBar], .inl rfl⟩, rfl⟩ (.cons ⟨0, 0, rfl, ⟨by simp [testBar], .inl rfl⟩, rfl⟩
      (.cons ⟨0, 0, rfl, ⟨by simp [testBar], .inl rfl⟩, rfl⟩ .nil))
  obtain ⟨h1, h2⟩ := C170_materials (g := fun _ => 5) (r := fun _ => 2) hv hm (by simp [testBar]) (weights 5) (weights 2)
  obtain ⟨op, bc, r1, r2⟩ := hv.run
  obtain ⟨hn, hw0⟩ := C119_bar (testBar_uniform 3 1 1 1 1) sqrtFn_real one_pos one_pos one_pos one_pos r1 r2 hm
  obtain ⟨w, hw⟩ := chosen (P := fun t w => ∃ (A B : Matrix (Fin neq) (Fin neq) ℝ) (ks μs : _) (φ : _),
      Vibrating Real.sqrt { testBar 3 1 1 1 1 with mats := tuned (fun _ => 5) (fun _ => 2) t (testBar 3 1 1 1 1).mats } ks μs A B ∧ Modes A B w φ) (by
    filter_upwards [h1] with t ⟨A, B, ks, μs, w, φ, a, b⟩
    exact ⟨w, A, B, ks, μs, φ, a, b⟩)
  refine ⟨neq, Kg, Mg, w0, φ, w, hn, hm, ?_, fun k => ?_⟩
  · filter_upwards [hw] with t ht
    have e : tuned (fun _ => 5) (fun _ => 2) t (testBar 3 1 1 1 1).mats = [[(1 + t * 5) * 1, 1, (1 + t * 2) * 1]] := by
      simp [tuned, testBar]
    rw [e] at ht
    exact ht
  · obtain ⟨V, hV⟩ := exists_completes (cons := (testBar 3 1 1 1 1).cons) bc 2 (φ k)
    have key := h2 w hw k (by
      intro j hj
      rw [hw0, hw0]
      have := j.2
      have := k.2
      have hne : (j : ℕ) ≠ k := fun e => hj (Fin.ext e)
      rcases Nat.lt_or_gt_of_ne hne with hlt | hlt
      · exact (barFreq_lt one_pos one_pos one_pos (by omega) (by omega) (by omega)).ne
      · exact (barFreq_lt one_pos one_pos one_pos (by omega) (by omega) (by omega)).ne') op bc V r1 hV
    rw [C170_shares (a := 5) (b := 2) hv hm hv.springs.length_eq hv.masses.length_eq (by simp) (by simp) r1 hV] at key
    convert key using 1
    norm_num

/-- The supports of the frame of the tests with the corner kept in place, free to turn. -/
noncomputable def turning : Table ℝ := [[-1, -1, -1], [-1, -1, 0], [-1, -1, -1]]

theorem turning_frame : Frame turning testFrame.2.2.2.1 testFrame.2.1 where
  codes := by
    intro i j v hj hv
    obtain ⟨row, h1, h2⟩ := entry_some.1 hv
    have hlt : i < 3 := (List.getElem?_eq_some_iff.1 h1).1
    rcases (by omega : i = 0 ∨ i = 1 ∨ i = 2) with rfl | rfl | rfl <;> rcases (by omega : j = 0 ∨ j = 1 ∨ j = 2) with rfl | rfl | rfl <;>
      simp [turning] at h1 <;> subst h1 <;> simp at h2 <;> simp [← h2]
  width := by simp [turning]
  size := by simp [testFrame, turning]
  beams := by simp [testFrame]

theorem turning_free {p j : ℕ} (h : Free turning 3 p j) : p = 1 ∧ j = 2 := by
  obtain ⟨hj, v, hv, v1, v2⟩ := h
  obtain ⟨row, h1, h2⟩ := entry_some.1 hv
  have hlt : p < 3 := (List.getElem?_eq_some_iff.1 h1).1
  by_contra hp
  rcases (by omega : p = 0 ∨ p = 1 ∨ p = 2) with rfl | rfl | rfl <;> rcases (by omega : j = 0 ∨ j = 1 ∨ j = 2) with rfl | rfl | rfl <;>
    first
      | exact hp ⟨rfl, rfl⟩
      | (simp [turning] at h1; subst h1; simp at h2; rw [← h2] at v1; norm_num at v1)

/-- With one free component there is one frequency. -/
theorem single {cons : Table ℝ} {nd neq : ℕ} {bc : List (List ℤ)} (h : eqcounter cons nd = .ok (neq, bc)) {p i : ℕ}
    (hf : ∀ q j, Free cons nd q j → q = p ∧ j = i) (a b : Fin neq) : a = b := by
  obtain ⟨q, j, h1, h2⟩ := exists_free h a.2
  obtain ⟨q', j', h3, h4⟩ := exists_free h b.2
  obtain ⟨rfl, rfl⟩ := hf _ _ h1
  obtain ⟨rfl, rfl⟩ := hf _ _ h3
  exact Fin.ext (h2.symm.trans h4)

/-- The materials of the frame with a modulus and an area that grow. -/
noncomputable def growing (t : ℝ) : Table ℝ := [[200000000000 * (1 + t), 133 / 1000000, 1 / 25 * (1 + t)]]

theorem growing_tends : TableTends (𝓝 0) growing (growing 0) := by
  refine ⟨fun t => by simp [growing], fun p j => ?_⟩
  refine ContinuousAt.tendsto (f := fun t => fieldOf (growing t) p j) ?_
  unfold fieldOf entry growing
  match p, j with
  | 0, 0 => simp; fun_prop
  | 0, 1 => simp; fun_prop
  | 0, 2 => simp; fun_prop
  | 0, j + 3 => simp; fun_prop
  | p + 1, j => simp; fun_prop

/-- A beam of such a material. -/
noncomputable def growingPath (a b : ℕ) (X : Matrix (Fin 2) (Fin 2) ℝ) (L : ℝ) : BeamPath :=
  ⟨a, b, X, L, fun t => 26600000 * (1 + t), fun t => 8000000000 * (1 + t) ^ 2, fun t => 1 / 25 * (1 + t), fun t => 1 / 25 * (1 + t)⟩

/-- The beams of the frame. -/
noncomputable def growingPaths : List BeamPath := [growingPath 0 1 !![0, 0; 0, 6] 6, growingPath 1 2 !![0, 6; 4, 6] 4]

theorem growing_smooth : ∀ s ∈ growingPaths, s.Smooth := by
  have smooth : ∀ a b X L, (growingPath a b X L).Smooth := fun a b X L => by constructor <;> simp only [growingPath] <;> fun_prop
  simp [growingPaths, smooth]

theorem growing_rows (t : ℝ) : BeamRows (growing t) testFrame.2.2.2.1 testFrame.2.1 growingPaths t := by
  have hp : BeamParams [200000000000 * (1 + t), 133 / 1000000, 1 / 25 * (1 + t)] (200000000000 * (1 + t)) (133 / 1000000) (1 / 25 * (1 + t)) (1 / 25 * (1 + t)) :=
    ⟨by norm_num, Or.inl ⟨rfl, rfl⟩⟩
  have hmat : ∀ id a b : ℤ, ∃ mi, ∃ q : ℕ, ∃ params, [id, 8, 0, a, b][2]? = some mi ∧ Resolves (growing t).length mi q ∧
      (growing t)[q]? = some params ∧
      (([id, 8, 0, a, b][1]? = some 7 ∧ (8000000000 * (1 + t) ^ 2 : ℝ) = 0 ∧ (1 / 25 * (1 + t) : ℝ) = 0 ∧ ∃ E I, BeamUParams params E I (1 / 25 * (1 + t)) ∧
        26600000 * (1 + t) = E * I) ∨
      ([id, 8, 0, a, b][1]? = some 8 ∧ (1 / 25 * (1 + t) : ℝ) = 1 / 25 * (1 + t) ∧ ∃ E I A, BeamParams params E I A (1 / 25 * (1 + t)) ∧
        26600000 * (1 + t) = E * I ∧ 8000000000 * (1 + t) ^ 2 = E * A)) :=
    fun id a b => ⟨0, 0, _, rfl, ⟨by simp [growing], .inl rfl⟩, rfl, .inr ⟨rfl, rfl, _, _, _, hp, by ring, by ring⟩⟩
  exact .cons ⟨.cons ⟨by simp [testFrame, growingPath], .inl rfl⟩ (.cons ⟨by simp [testFrame, growingPath], .inl rfl⟩ .nil), ⟨0, rfl⟩, ⟨1, rfl⟩,
      ⟨by norm_num [growingPath], by norm_num [growingPath]⟩, hmat 0 0 1⟩ (.cons ⟨.cons ⟨by simp [testFrame, growingPath], .inl rfl⟩ (.cons ⟨by simp [testFrame, growingPath], .inl rfl⟩ .nil),
        ⟨1, rfl⟩, ⟨2, rfl⟩, ⟨by norm_num [growingPath], by norm_num [growingPath]⟩, hmat 1 1 2⟩ .nil)

/-- Case for C170: the frame of the tests with the corner free to turn, as modulus and area of its beams grow by the fraction `t`. -/
example : ∃ (neq : ℕ) (K0 M0 : Matrix (Fin neq) (Fin neq) ℝ) (w0 : _) (φ0 : _) (w : ℝ → Fin neq → ℝ) (k : Fin neq) (V : ℕ → ℕ → ℝ) (ss : List BeamPath),
    Modes K0 M0 w0 φ0 ∧ ss.length = 2 ∧
    (∀ᶠ t in 𝓝 0, ∃ (A B : Matrix (Fin neq) (Fin neq) ℝ) (ks μs : _) (φ : _),
      BeamModel Real.sqrt turning (growing t) testFrame.2.2.2.1 testFrame.2.1 ks μs A B ∧ Modes A B (w t) φ) ∧
    HasDerivAt (fun t => w t k) ((ss.map fun s => s.stiffens V).sum - w0 k * (ss.map fun s => s.loads V).sum) 0 := by
  obtain ⟨neq, Kg, Mg, ks, ms, w0, φ, h0, hm⟩ := testFrame_vibrates turning_frame
  have e0 : testFrame.2.2.1 = growing 0 := by simp [testFrame, growing]
  rw [e0] at h0
  obtain ⟨h1, -⟩ := C168_frames h0 (by
    intro r hr
    simp only [testFrame, List.mem_cons, List.not_mem_nil, or_false] at hr
    rcases hr with rfl | rfl | rfl <;> rfl) (const_tends _ _) growing_tends hm
  obtain ⟨w, hw⟩ := chosen (P := fun t w => ∃ (A B : Matrix (Fin neq) (Fin neq) ℝ) (ks μs : _) (φ : _),
      BeamModel Real.sqrt turning (growing t) testFrame.2.2.2.1 testFrame.2.1 ks μs A B ∧ Modes A B w φ) (by
    filter_upwards [h1] with t ⟨A, B, ks, μs, w, φ, a, b⟩
    exact ⟨w, A, B, ks, μs, φ, a, b⟩)
  obtain ⟨op, bc, sparse, r1, -⟩ := h0.run
  obtain ⟨bc', s0, -⟩ := h0.setups
  have hpos : 0 < neq := by
    have hf : Free turning 3 1 2 := ⟨by norm_num, 0, by simp [turning, entry], by norm_num⟩
    exact Nat.zero_lt_of_lt (free_entry s0.eq hf).2
  obtain ⟨V, hV⟩ := exists_completes (cons := turning) bc 3 (φ ⟨0, hpos⟩)
  exact ⟨neq, Kg, Mg, w0, φ, w, ⟨0, hpos⟩, V, growingPaths, hm, rfl, hw,
    C170_frames h0 hm growing_smooth (Filter.Eventually.of_forall growing_rows) hw
      (fun j hj => absurd (single s0.eq (fun _ _ => turning_free) _ _) hj) r1 hV⟩

/-- Supports that leave one component of one node of the tetrahedron. -/
noncomputable def sliding : Table ℝ := [[-1, -1, -1], [-1, -1, -1], [-1, -1, -1], [-1, 0, -1]]

theorem sliding_model : UserModel 3 4 sliding loneNodes loneEls where
  codes := by
    intro p j v _ h
    obtain ⟨r, h1, h2⟩ := entry_some.1 h
    have h1 := List.mem_of_getElem? h1
    have h2 := List.mem_of_getElem? h2
    simp [sliding] at h1
    rcases h1 with rfl | rfl <;> simp at h2
    · exact .inr h2
    · exact h2.elim .inr id
  width := by
    intro r hr
    simp [sliding] at hr
    rcases hr with rfl | rfl <;> rfl
  size := rfl
  typed := by decide

theorem sliding_free {p j : ℕ} (h : Free sliding 3 p j) : p = 3 ∧ j = 1 := by
  obtain ⟨hj, v, hv, v1, v2⟩ := h
  obtain ⟨row, h1, h2⟩ := entry_some.1 hv
  have hlt : p < 4 := (List.getElem?_eq_some_iff.1 h1).1
  by_contra hp
  rcases (by omega : p = 0 ∨ p = 1 ∨ p = 2 ∨ p = 3) with rfl | rfl | rfl | rfl <;> rcases (by omega : j = 0 ∨ j = 1 ∨ j = 2) with rfl | rfl | rfl <;>
    first
      | exact hp ⟨rfl, rfl⟩
      | (simp [sliding] at h1; subst h1; simp at h2; rw [← h2] at v1; norm_num at v1)

/-- Case for C170: the tetrahedron of which one node may slide, as its modulus and density grow by the fractions `3 t` and `t`. -/
example (tab : ℤ → Py (Uel ℝ)) : ∃ (neq : ℕ) (K0 M0 : Matrix (Fin neq) (Fin neq) ℝ) (w0 : _) (φ0 : _) (w : ℝ → Fin neq → ℝ) (k : Fin neq)
    (V : ℕ → ℕ → ℝ) (ks ms : List (Member ℝ)), Modes K0 M0 w0 φ0 ∧
    (∀ᶠ t in 𝓝 0, ∃ (A B : Matrix (Fin neq) (Fin neq) ℝ) (ks μs : _) (φ : _),
      UserVibration tab 3 4 12 elastTet4 (fun _ => .ok 12) sliding loneEls (tuned (fun _ => 3) (fun _ => 1) t loneMats) loneNodes ks μs A B ∧
      Modes A B (w t) φ) ∧
    HasDerivAt (fun t => w t k) (weightedIn 3 [3] ks V V - w0 k * weightedIn 3 [1] ms V V) 0 := by
  obtain ⟨a, hb, na⟩ := lone_body
  have hh : HeavyMats loneMats loneEls := by
    intro el hel mi q params b1 b2 b3
    match q, b3 with
    | 0, b3 => exact ⟨10, 1/4, 1, by simpa [loneMats] using b3.symm, by norm_num⟩
    | q + 1, b3 => simp [loneMats] at b3
  obtain ⟨neq, Kg, Mg, μs, h⟩ := C157_vibrates (tab := tab) (m := 12) (count := fun _ => .ok 12) (cons := sliding) .tet4 sliding_model (by
      intro el hel
      simp only [loneEls, List.mem_cons, List.not_mem_nil, or_false] at hel
      subst hel
      exact ⟨9, rfl, rfl⟩) le_rfl hb.members hh (by
      intro p j hf
      have := free_lt hf
      exact (describes_used hb.members p).1 (hb.used p (by simpa [sliding, loneNodes] using this)))
  obtain ⟨w0, φ, hm, -⟩ := C157_modes h
  obtain ⟨op, bc, sparse, r1, -⟩ := h.run
  obtain ⟨bc', s0, -⟩ := h.setups
  have weights : ∀ c : ℝ, Weights (fun _ => c) loneMats.length loneEls [c] := fun c =>
    .cons ⟨0, 0, rfl, ⟨by simp [loneMats], .inl rfl⟩, rfl⟩ .nil
  obtain ⟨w, hw, hk⟩ := C170_library (g := fun _ => 3) (r := fun _ => 1) .tet4 h hm hh (by
    intro r hr
    simp only [loneNodes, List.mem_cons, List.not_mem_nil, or_false] at hr
    rcases hr with rfl | rfl | rfl | rfl <;> rfl) (by simp [loneMats]) (weights 3) (weights 1) r1
  have hpos : 0 < neq := by
    have hf : Free sliding 3 3 1 := ⟨by norm_num, 0, by simp [sliding, entry], by norm_num⟩
    exact Nat.zero_lt_of_lt (free_entry s0.eq hf).2
  obtain ⟨V, hV⟩ := exists_completes (cons := sliding) bc 3 (φ ⟨0, hpos⟩)
  exact ⟨neq, Kg, Mg, w0, φ, w, ⟨0, hpos⟩, V, _, _, hm, hw,
    hk _ (fun j hj => absurd (single s0.eq (fun _ _ => sliding_free) _ _) hj) V hV⟩

end demo
end SolidsPy
