import Verif.Props.BarModes
import Mathlib.Analysis.Calculus.Deriv.MeanValue
import Mathlib.Tactic.LinearCombination

/-! # Roots and bounds for the bending waves of a line of beams -/

namespace SolidsPy
open Spec

/-! ## The dispersion relation -/

/-- Determinant of the equations of a sine-shaped motion, divided by four: `c` is the cosine of the phase between neighbouring nodes
and `t` the square of the frequency in units of `420 EI / (γ h⁴)`. -/
def bendQuad (c t : ℝ) : ℝ := 7 * (65 - 36 * c + c ^ 2) * t ^ 2 - 12 * (69 + 37 * c - c ^ 2) * t + 12 * (1 - c) ^ 2

/-- Its smaller root. -/
noncomputable def Spec.bendLow (c : ℝ) : ℝ :=
  (6 * (69 + 37 * c - c ^ 2) - √(12 * (3 * (69 + 37 * c - c ^ 2) ^ 2 - 7 * (65 - 36 * c + c ^ 2) * (1 - c) ^ 2))) /
    (7 * (65 - 36 * c + c ^ 2))

/-- Its larger root. -/
noncomputable def Spec.bendHigh (c : ℝ) : ℝ :=
  (6 * (69 + 37 * c - c ^ 2) + √(12 * (3 * (69 + 37 * c - c ^ 2) ^ 2 - 7 * (65 - 36 * c + c ^ 2) * (1 - c) ^ 2))) /
    (7 * (65 - 36 * c + c ^ 2))

theorem bend_lead {c : ℝ} (h1 : c ≤ 1) : 0 < 65 - 36 * c + c ^ 2 := by nlinarith [sq_nonneg c]

theorem bend_disc {c : ℝ} (h0 : -1 ≤ c) (h1 : c ≤ 1) :
    0 < 3 * (69 + 37 * c - c ^ 2) ^ 2 - 7 * (65 - 36 * c + c ^ 2) * (1 - c) ^ 2 := by
  have e : 3 * (69 + 37 * c - c ^ 2) ^ 2 - 7 * (65 - 36 * c + c ^ 2) * (1 - c) ^ 2 =
      27 + (c + 1) * (13801 + 2679 * c + 48 * c ^ 2 - 4 * c ^ 3) := by ring
  rw [e]
  have : 0 ≤ 13801 + 2679 * c + 48 * c ^ 2 - 4 * c ^ 3 := by nlinarith [sq_nonneg c, mul_nonneg (sub_nonneg.2 h1) (sq_nonneg c)]
  have : 0 ≤ (c + 1) * (13801 + 2679 * c + 48 * c ^ 2 - 4 * c ^ 3) := mul_nonneg (by linarith) this
  linarith

theorem bend_lt {c : ℝ} (h0 : -1 ≤ c) (h1 : c ≤ 1) : bendLow c < bendHigh c := by
  unfold bendLow bendHigh
  have hQ := bend_lead h1
  have hs := Real.sqrt_pos.2 (mul_pos (by norm_num : (0 : ℝ) < 12) (bend_disc h0 h1))
  gcongr
  linarith

theorem bend_factor {c : ℝ} (h0 : -1 ≤ c) (h1 : c ≤ 1) (t : ℝ) :
    bendQuad c t = 7 * (65 - 36 * c + c ^ 2) * ((t - bendLow c) * (t - bendHigh c)) := by
  have hQ := (bend_lead h1).ne'
  have hs := Real.mul_self_sqrt (mul_nonneg (by norm_num : (0 : ℝ) ≤ 12) (bend_disc h0 h1).le)
  unfold bendLow bendHigh bendQuad
  generalize √(12 * (3 * (69 + 37 * c - c ^ 2) ^ 2 - 7 * (65 - 36 * c + c ^ 2) * (1 - c) ^ 2)) = r at hs
  field_simp
  linear_combination hs

theorem bend_root {c : ℝ} (h0 : -1 ≤ c) (h1 : c ≤ 1) (t : ℝ) : bendQuad c t = 0 ↔ t = bendLow c ∨ t = bendHigh c := by
  rw [bend_factor h0 h1, mul_eq_zero (a := 7 * (65 - 36 * c + c ^ 2)), mul_eq_zero (a := t - bendLow c), sub_eq_zero, sub_eq_zero]
  have hQ := (bend_lead h1).ne'
  constructor
  · rintro (h | h)
    · exact absurd h (mul_ne_zero (by norm_num) hQ)
    · exact h
  · exact .inr

theorem bend_neg {c : ℝ} (h0 : -1 ≤ c) (h1 : c ≤ 1) {t : ℝ} (h : bendQuad c t < 0) : bendLow c < t ∧ t < bendHigh c := by
  rw [bend_factor h0 h1] at h
  have hQ := bend_lead h1
  have hlt := bend_lt h0 h1
  have h2 : (t - bendLow c) * (t - bendHigh c) < 0 := by
    by_contra h3
    push Not at h3
    have := mul_nonneg (mul_nonneg (by norm_num : (0 : ℝ) ≤ 7) hQ.le) h3
    linarith
  rcases mul_neg_iff.1 h2 with ⟨h3, h4⟩ | ⟨h3, h4⟩
  · exact ⟨by linarith, by linarith⟩
  · linarith

theorem bendQuad_anti {c c' t : ℝ} (ht : 0 ≤ t) (hc : c ≤ c') (h1 : c' ≤ 1) : bendQuad c' t ≤ bendQuad c t := by
  have e : bendQuad c t - bendQuad c' t = (c' - c) * ((7 * t ^ 2 + 12 * t + 12) * (2 - c - c') + 238 * t ^ 2 + 420 * t) := by
    unfold bendQuad
    ring
  have : 0 ≤ (c' - c) * ((7 * t ^ 2 + 12 * t + 12) * (2 - c - c') + 238 * t ^ 2 + 420 * t) := by
    have : 0 ≤ 2 - c - c' := by linarith
    have : 0 ≤ c' - c := by linarith
    positivity
  linarith

theorem bendQuad_lt {c c' t : ℝ} (ht : 0 ≤ t) (hc : c < c') (h1 : c' ≤ 1) : bendQuad c' t < bendQuad c t := by
  have e : bendQuad c t - bendQuad c' t = (c' - c) * ((7 * t ^ 2 + 12 * t + 12) * (2 - c - c') + 238 * t ^ 2 + 420 * t) := by
    unfold bendQuad
    ring
  have : 0 < (c' - c) * ((7 * t ^ 2 + 12 * t + 12) * (2 - c - c') + 238 * t ^ 2 + 420 * t) := by
    have : 0 < 2 - c - c' := by linarith
    have : 0 < c' - c := by linarith
    positivity
  linarith

theorem bendLow_nonneg {c : ℝ} (h0 : -1 ≤ c) (h1 : c ≤ 1) : 0 ≤ bendLow c := by
  have hQ := bend_lead h1
  unfold bendLow
  refine div_nonneg (sub_nonneg.2 (Real.sqrt_le_iff.2 ⟨by nlinarith, ?_⟩)) (by positivity)
  have : 0 ≤ (65 - 36 * c + c ^ 2) * (1 - c) ^ 2 := by positivity
  nlinarith

theorem bend_mono {c c' : ℝ} (h0 : -1 ≤ c) (hc : c < c') (h1 : c' ≤ 1) : bendLow c' < bendLow c ∧ bendHigh c < bendHigh c' := by
  have hl := bendLow_nonneg h0 (hc.le.trans h1)
  have hlt := bend_lt h0 (hc.le.trans h1)
  constructor
  · have e := (bend_root h0 (hc.le.trans h1) _).2 (.inl rfl)
    have h2 := bendQuad_lt hl hc h1
    rw [e] at h2
    exact (bend_neg (h0.trans hc.le) h1 h2).1
  · have e := (bend_root h0 (hc.le.trans h1) _).2 (.inr rfl)
    have h2 := bendQuad_lt (hl.trans hlt.le) hc h1
    rw [e] at h2
    exact (bend_neg (h0.trans hc.le) h1 h2).2

theorem bend_at_minus_one : bendLow (-1) = 4 / 17 ∧ bendHigh (-1) = 2 / 7 := by
  have : √(12 * (3 * (69 + 37 * (-1) - (-1) ^ 2) ^ 2 - 7 * (65 - 36 * (-1) + (-1) ^ 2) * (1 - (-1)) ^ 2)) = (18 : ℝ) := by
    rw [Real.sqrt_eq_iff_eq_sq (by norm_num) (by norm_num)]
    norm_num
  unfold bendLow bendHigh
  rw [this]
  norm_num

theorem bend_at_one : bendLow 1 = 0 ∧ bendHigh 1 = 6 := by
  have : √(12 * (3 * (69 + 37 * 1 - 1 ^ 2) ^ 2 - 7 * (65 - 36 * 1 + 1 ^ 2) * (1 - 1) ^ 2)) = (630 : ℝ) := by
    rw [Real.sqrt_eq_iff_eq_sq (by norm_num) (by norm_num)]
    norm_num
  unfold bendLow bendHigh
  rw [this]
  norm_num

theorem bend_gap {c : ℝ} (h0 : -1 ≤ c) (h1 : c ≤ 1) : bendLow c ≤ 4 / 17 ∧ 2 / 7 ≤ bendHigh c := by
  rcases h0.lt_or_eq with h | rfl
  · have := bend_mono le_rfl h h1
    rw [bend_at_minus_one.1, bend_at_minus_one.2] at this
    exact ⟨this.1.le, this.2.le⟩
  · rw [bend_at_minus_one.1, bend_at_minus_one.2]
    exact ⟨le_rfl, le_rfl⟩

/-! ## Bounds on the cosine -/

theorem grows {f f' : ℝ → ℝ} (hd : ∀ x, HasDerivAt f (f' x) x) (h0 : f 0 = 0) (hf : ∀ x, 0 ≤ x → 0 ≤ f' x) {x : ℝ} (hx : 0 ≤ x) :
    0 ≤ f x := by
  have hm : MonotoneOn f (Set.Ici 0) := by
    refine monotoneOn_of_deriv_nonneg (convex_Ici 0) (fun y _ => (hd y).continuousAt.continuousWithinAt)
      (fun y _ => (hd y).differentiableAt.differentiableWithinAt) fun y hy => ?_
    rw [(hd y).deriv]
    rw [interior_Ici] at hy
    exact hf y (le_of_lt hy)
  have := hm (Set.mem_Ici.2 le_rfl) (Set.mem_Ici.2 hx) hx
  rwa [h0] at this

/-- The partial sums of the cosine and sine series, one sign at a time. -/
noncomputable def cosSum : ℕ → ℝ → ℝ
  | 0, _ => 1
  | k + 1, x => cosSum k x + (-1) ^ (k + 1) * x ^ (2 * k + 2) / (2 * k + 2).factorial

noncomputable def sinSum : ℕ → ℝ → ℝ
  | 0, x => x
  | k + 1, x => sinSum k x + (-1) ^ (k + 1) * x ^ (2 * k + 3) / (2 * k + 3).factorial

theorem pow_deriv (j : ℕ) (x s : ℝ) : HasDerivAt (fun y : ℝ => s * y ^ (j + 1) / (j + 1).factorial) (s * x ^ j / j.factorial) x := by
  have h := ((hasDerivAt_pow (j + 1) x).const_mul s).div_const ((j + 1).factorial : ℝ)
  have e : s * (((j + 1 : ℕ) : ℝ) * x ^ (j + 1 - 1)) / ((j + 1).factorial : ℝ) = s * x ^ j / j.factorial := by
    rw [Nat.factorial_succ]
    have : (j.factorial : ℝ) ≠ 0 := by exact_mod_cast Nat.factorial_ne_zero j
    rw [Nat.add_sub_cancel]
    push_cast
    field_simp
  rw [e] at h
  exact h

theorem sinSum_deriv (k : ℕ) (x : ℝ) : HasDerivAt (sinSum k) (cosSum k x) x := by
  induction k with
  | zero => exact hasDerivAt_id x
  | succ k ih => exact ih.add (pow_deriv (2 * k + 2) x _)

theorem cosSum_deriv (k : ℕ) (x : ℝ) : HasDerivAt (cosSum (k + 1)) (-sinSum k x) x := by
  induction k with
  | zero =>
    have h := (hasDerivAt_const x (1 : ℝ)).add (pow_deriv 1 x ((-1) ^ 1))
    have e : (0 : ℝ) + (-1) ^ 1 * x ^ 1 / (1 : ℕ).factorial = -sinSum 0 x := by simp [sinSum]
    rw [e] at h
    exact h
  | succ k ih =>
    have h := ih.add (pow_deriv (2 * k + 3) x ((-1) ^ (k + 2)))
    have e : -sinSum k x + (-1) ^ (k + 2) * x ^ (2 * k + 3) / (2 * k + 3).factorial = -sinSum (k + 1) x := by
      simp only [sinSum, pow_succ]
      ring
    rw [e] at h
    exact h

theorem cosSum_zero (k : ℕ) : cosSum k 0 = 1 := by
  induction k with
  | zero => rfl
  | succ k ih => simp [cosSum, ih]

theorem sinSum_zero (k : ℕ) : sinSum k 0 = 0 := by
  induction k with
  | zero => rfl
  | succ k ih => simp [sinSum, ih]

/-- The cosine lies on alternating sides of the partial sums of its series. -/
theorem cosSum_bound (k : ℕ) : ∀ x, 0 ≤ x → 0 ≤ (-1) ^ k * (cosSum k x - Real.cos x) ∧ 0 ≤ (-1) ^ k * (sinSum k x - Real.sin x) := by
  have step : ∀ k, (∀ x, 0 ≤ x → 0 ≤ (-1) ^ k * (cosSum k x - Real.cos x)) →
      ∀ x, 0 ≤ x → 0 ≤ (-1) ^ k * (sinSum k x - Real.sin x) := fun k h x hx =>
    grows (f := fun x => (-1) ^ k * (sinSum k x - Real.sin x)) (fun y => ((sinSum_deriv k y).sub (Real.hasDerivAt_sin y)).const_mul _)
      (by simp [sinSum_zero]) h hx
  induction k with
  | zero =>
    have h0 : ∀ x, 0 ≤ x → 0 ≤ (-1) ^ 0 * (cosSum 0 x - Real.cos x) := by
      intro x _
      have := Real.cos_le_one x
      simp only [cosSum, pow_zero, one_mul]
      linarith
    exact fun x hx => ⟨h0 x hx, step 0 h0 x hx⟩
  | succ k ih =>
    have h0 : ∀ x, 0 ≤ x → 0 ≤ (-1) ^ (k + 1) * (cosSum (k + 1) x - Real.cos x) := by
      intro x hx
      refine grows (f := fun x => (-1) ^ (k + 1) * (cosSum (k + 1) x - Real.cos x))
        (fun y => ((cosSum_deriv k y).sub (Real.hasDerivAt_cos y)).const_mul _) (by simp [cosSum_zero]) (fun y hy => ?_) hx
      have := (ih y hy).2
      have e : (-1 : ℝ) ^ (k + 1) * (-sinSum k y - -Real.sin y) = (-1) ^ k * (sinSum k y - Real.sin y) := by
        rw [pow_succ]
        ring
      rw [e]
      exact this
    exact fun x hx => ⟨h0 x hx, step _ h0 x hx⟩

/-- A polynomial that is positive up to `π²`: Bernstein coefficients. -/
theorem low_poly {y : ℝ} (h0 : 0 ≤ y) (h1 : y ≤ 987 / 100) :
    0 ≤ 1 / 240 - 41 / 50400 * y + 1 / 14400 * y ^ 2 - 541 / 116424000 * y ^ 3 + 1397 / 6096384000 * y ^ 4 -
      8171 / 1005903360000 * y ^ 5 + 18019 / 84495882240000 * y ^ 6 - 2179 / 506975293440000 * y ^ 7 +
      179 / 2676829549363200 * y ^ 8 - 1 / 1241572147200000 * y ^ 9 + 97 / 13384147746816000000 * y ^ 10 -
      1 / 21901332676608000000 * y ^ 11 + 1 / 5781951826624512000000 * y ^ 12 := by
  have hz : 0 ≤ 987 / 100 - y := by linarith
  have e : 1 / 240 - 41 / 50400 * y + 1 / 14400 * y ^ 2 - 541 / 116424000 * y ^ 3 + 1397 / 6096384000 * y ^ 4 -
      8171 / 1005903360000 * y ^ 5 + 18019 / 84495882240000 * y ^ 6 - 2179 / 506975293440000 * y ^ 7 +
      179 / 2676829549363200 * y ^ 8 - 1 / 1241572147200000 * y ^ 9 + 97 / 13384147746816000000 * y ^ 10 -
      1 / 21901332676608000000 * y ^ 11 + 1 / 5781951826624512000000 * y ^ 12 =
      12500000000000000000000 / 2564053524124860459990632326172035443 * y ^ 0 * (987 / 100 - y) ^ 12 +
      17987500000000000000000 / 366293360589265779998661760881719349 * y ^ 1 * (987 / 100 - y) ^ 11 +
      580332687500000000000000 / 2564053524124860459990632326172035443 * y ^ 2 * (987 / 100 - y) ^ 10 +
      5920697162375000000000000 / 9401529588457821686632318529297463291 * y ^ 3 * (987 / 100 - y) ^ 9 +
      33134594572375449218750000 / 28204588765373465059896955587892389873 * y ^ 4 * (987 / 100 - y) ^ 8 +
      14497709054898286835937500 / 9401529588457821686632318529297463291 * y ^ 5 * (987 / 100 - y) ^ 7 +
      23413857079401023788671875 / 16116907865927694319941117478795651356 * y ^ 6 * (987 / 100 - y) ^ 6 +
      98478890991326427149171875 / 100282982276883431324078064312506275104 * y ^ 7 * (987 / 100 - y) ^ 5 +
      3530758678786291217808015625 / 7564202091742064534159031136714759036416 * y ^ 8 * (987 / 100 - y) ^ 4 +
      6998159427687478122693195535 / 47066146348617290434767304850669611782144 * y ^ 9 * (987 / 100 - y) ^ 3 +
      4855045541185695135323350467637 / 169438126855022245565162297462410602415718400 * y ^ 10 * (987 / 100 - y) ^ 2 +
      261521815278304007296169618923201 / 101662876113013347339097378477446361449431040000 * y ^ 11 * (987 / 100 - y) ^ 1 +
      124120065848677471946298198999629 / 9036700098934519763475322531328565462171648000000 * y ^ 12 * (987 / 100 - y) ^ 0 := by
    ring
  rw [e]
  positivity

/-- Another one. -/
theorem high_poly {y : ℝ} (h0 : 0 ≤ y) (h1 : y ≤ 987 / 100) :
    0 ≤ 1 / 8400 - 1 / 40320 * y + 157 / 63504000 * y ^ 2 - 391 / 2032128000 * y ^ 3 + 1031 / 91445760000 * y ^ 4 -
      13 / 24004512000 * y ^ 5 + 139 / 6401203200000 * y ^ 6 - 349 / 460886630400000 * y ^ 7 +
      1763 / 82959593472000000 * y ^ 8 - 23 / 47405481984000000 * y ^ 9 + 17 / 1991030243328000000 * y ^ 10 -
      109 / 955694516797440000000 * y ^ 11 + 1 / 955694516797440000000 * y ^ 12 - 1 / 172025013023539200000000 * y ^ 13 := by
  have hz : 0 ≤ 987 / 100 - y := by linarith
  have e : 1 / 8400 - 1 / 40320 * y + 157 / 63504000 * y ^ 2 - 391 / 2032128000 * y ^ 3 + 1031 / 91445760000 * y ^ 4 -
      13 / 24004512000 * y ^ 5 + 139 / 6401203200000 * y ^ 6 - 349 / 460886630400000 * y ^ 7 +
      1763 / 82959593472000000 * y ^ 8 - 23 / 47405481984000000 * y ^ 9 + 17 / 1991030243328000000 * y ^ 10 -
      109 / 955694516797440000000 * y ^ 11 + 1 / 955694516797440000000 * y ^ 12 - 1 / 172025013023539200000000 * y ^ 13 =
      250000000000000000000000 / 17715045798178660918075278741522592875687 * y ^ 0 * (987 / 100 - y) ^ 13 +
      2735937500000000000000000 / 17715045798178660918075278741522592875687 * y ^ 1 * (987 / 100 - y) ^ 12 +
      41511056875000000000000000 / 53145137394535982754225836224567778627061 * y ^ 2 * (987 / 100 - y) ^ 11 +
      128240486060351562500000000 / 53145137394535982754225836224567778627061 * y ^ 3 * (987 / 100 - y) ^ 10 +
      89813183772926171875000000 / 17715045798178660918075278741522592875687 * y ^ 4 * (987 / 100 - y) ^ 9 +
      405521708094994765625000000 / 53145137394535982754225836224567778627061 * y ^ 5 * (987 / 100 - y) ^ 8 +
      448273348435893149136718750 / 53145137394535982754225836224567778627061 * y ^ 6 * (987 / 100 - y) ^ 7 +
      5868349542678785058146328125 / 850322198312575724067613379593084458032976 * y ^ 7 * (987 / 100 - y) ^ 6 +
      6273897731841582575030576875 / 1511683908111245731675757119276594592058624 * y ^ 8 * (987 / 100 - y) ^ 5 +
      129998541802584241510063438975 / 72560827589339795120436341725276540418813952 * y ^ 9 * (987 / 100 - y) ^ 4 +
      306972502965819341625954036433 / 580486620714718360963490733802212323350511616 * y ^ 10 * (987 / 100 - y) ^ 3 +
      2698113405337191365249589542348833 / 27863357794306481326247555222506191520824557568000 * y ^ 11 * (987 / 100 - y) ^ 2 +
      24317524715008637004949431796679681 / 2786335779430648132624755522250619152082455756800000 * y ^ 12 * (987 / 100 -
      y) ^ 1 +
      712374590373311757500485746627694117 / 5572671558861296265249511044501238304164911513600000000 * y ^ 13 * (987 / 100 -
      y) ^ 0 := by
    ring
  rw [e]
  positivity

theorem pi_sq : Real.pi ^ 2 ≤ 987 / 100 := by
  have h0 := Real.pi_pos
  have h1 := Real.pi_lt_d4
  nlinarith

theorem cos_upper {x : ℝ} (hx : 0 ≤ x) : Real.cos x ≤ 1 - x ^ 2 / 2 + x ^ 4 / 24 - x ^ 6 / 720 + x ^ 8 / 40320 - x ^ 10 / 3628800 +
    x ^ 12 / 479001600 := by
  have := (cosSum_bound 6 x hx).1
  simp [cosSum, Nat.factorial] at this
  norm_num at this
  linarith

theorem cos_lower {x : ℝ} (hx : 0 ≤ x) : 1 - x ^ 2 / 2 + x ^ 4 / 24 - x ^ 6 / 720 + x ^ 8 / 40320 - x ^ 10 / 3628800 ≤ Real.cos x := by
  have := (cosSum_bound 5 x hx).1
  simp [cosSum, Nat.factorial] at this
  norm_num at this
  linarith

/-- The smaller root lies just above `x⁴ / 420`. -/
theorem bendLow_bounds {x : ℝ} (h0 : 0 ≤ x) (h1 : x ≤ Real.pi) :
    x ^ 4 / 420 ≤ bendLow (Real.cos x) ∧ bendLow (Real.cos x) ≤ x ^ 4 / 420 * (1 + x ^ 4 / 720) := by
  have c0 := Real.neg_one_le_cos x
  have c1 := Real.cos_le_one x
  have hQ := bend_lead c1
  have hy0 : 0 ≤ x ^ 2 := sq_nonneg x
  have hy1 : x ^ 2 ≤ 987 / 100 := (pow_le_pow_left₀ h0 h1 2).trans pi_sq
  constructor
  · by_contra hlt
    push Not at hlt
    have hu := cos_upper h0
    have hT : 1 - x ^ 2 / 2 + x ^ 4 / 24 - x ^ 6 / 720 + x ^ 8 / 40320 - x ^ 10 / 3628800 + x ^ 12 / 479001600 ≤ 1 := by
      have e : 1 - (1 - x ^ 2 / 2 + x ^ 4 / 24 - x ^ 6 / 720 + x ^ 8 / 40320 - x ^ 10 / 3628800 + x ^ 12 / 479001600) =
          x ^ 2 / 24 * (12 - x ^ 2) + x ^ 6 / 40320 * (56 - x ^ 2) + x ^ 10 / 479001600 * (132 - x ^ 2) := by ring
      have a1 : 0 ≤ 12 - x ^ 2 := by linarith
      have a2 : 0 ≤ 56 - x ^ 2 := by linarith
      have a3 : 0 ≤ 132 - x ^ 2 := by linarith
      have : 0 ≤ x ^ 2 / 24 * (12 - x ^ 2) + x ^ 6 / 40320 * (56 - x ^ 2) + x ^ 10 / 479001600 * (132 - x ^ 2) := by positivity
      linarith
    have h2 := bendQuad_anti (t := x ^ 4 / 420) (by positivity) hu hT
    have h3 : 0 ≤ bendQuad (Real.cos x) (x ^ 4 / 420) := by
      refine le_trans ?_ h2
      have := mul_nonneg (pow_nonneg h0 8) (low_poly hy0 hy1)
      refine le_of_le_of_eq this ?_
      unfold bendQuad
      ring
    rw [bend_factor c0 c1] at h3
    have h4 : x ^ 4 / 420 < bendHigh (Real.cos x) := by
      refine lt_of_lt_of_le ?_ (bend_gap c0 c1).2
      have : x ^ 4 = (x ^ 2) * (x ^ 2) := by ring
      nlinarith
    have : 7 * (65 - 36 * Real.cos x + Real.cos x ^ 2) *
        ((x ^ 4 / 420 - bendLow (Real.cos x)) * (x ^ 4 / 420 - bendHigh (Real.cos x))) < 0 :=
      mul_neg_of_pos_of_neg (by positivity) (mul_neg_of_pos_of_neg (by linarith) (by linarith))
    linarith
  · by_contra hlt
    push Not at hlt
    have h2 := bendQuad_anti (t := x ^ 4 / 420 * (1 + x ^ 4 / 720)) (by positivity) (cos_lower h0) c1
    have h3 : bendQuad (Real.cos x) (x ^ 4 / 420 * (1 + x ^ 4 / 720)) ≤ 0 := by
      refine h2.trans ?_
      have := mul_nonneg (pow_nonneg h0 10) (high_poly hy0 hy1)
      refine le_of_sub_nonneg (le_of_le_of_eq this ?_)
      unfold bendQuad
      ring
    rw [bend_factor c0 c1] at h3
    have h4 := bend_lt c0 c1
    have : 0 < 7 * (65 - 36 * Real.cos x + Real.cos x ^ 2) *
        ((x ^ 4 / 420 * (1 + x ^ 4 / 720) - bendLow (Real.cos x)) * (x ^ 4 / 420 * (1 + x ^ 4 / 720) - bendHigh (Real.cos x))) :=
      mul_pos (by positivity) (mul_pos_of_neg_of_neg (by linarith) (by linarith))
    linarith

end SolidsPy
