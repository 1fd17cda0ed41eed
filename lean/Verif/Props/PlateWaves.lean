import Verif.Props.PlateWave
import Verif.Props.Success
import Mathlib.Analysis.SpecialFunctions.Trigonometric.Sinc

/-! # C150: waves in a plate of four-node elements -/

set_option linter.unusedSectionVars false

namespace SolidsPy
open Spec Fem Uel Gauss Pre Assem Matrix Bloch Topology

/-- Square of the discrete wave number of a wave that turns by `θ` over a side of length `h`, from the second differences. -/
noncomputable def Spec.waveLift (h θ : ℝ) : ℝ := 2 * (1 - Real.cos θ) / (h ^ 2 * waveMean θ)

/-- Discrete wave number of a wave that turns by `θ` over a side of length `h`, from the first differences. -/
noncomputable def Spec.waveSlope (h θ : ℝ) : ℝ := Real.sin θ / (h * waveMean θ)

/-- Squares of the two frequencies at which a plate of elements `a × b` carries a wave that turns by `α` from column to column and by
`β` from row to row. -/
noncomputable def Spec.plateFast (a b E nu ρ α β : ℝ) : ℝ := E / (4 * ρ * (1 - nu ^ 2)) * ((3 - nu) * (waveLift a α + waveLift b β) +
  (1 + nu) * √((waveLift a α - waveLift b β) ^ 2 + 4 * (waveSlope a α * waveSlope b β) ^ 2))

noncomputable def Spec.plateSlow (a b E nu ρ α β : ℝ) : ℝ := E / (4 * ρ * (1 - nu ^ 2)) * ((3 - nu) * (waveLift a α + waveLift b β) -
  (1 + nu) * √((waveLift a α - waveLift b β) ^ 2 + 4 * (waveSlope a α * waveSlope b β) ^ 2))

theorem waveMean_pos (θ : ℝ) : 0 < waveMean θ := by
  obtain ⟨h1, h2⟩ := gauss_bounds (K := ℝ)
  have h3 : (0 : ℝ) < (gaussPt : ℝ) ^ 2 := by
    have : (0 : ℚ) < gaussPt ^ 2 := by norm_num [gaussPt]
    exact_mod_cast this
  have h4 := Real.neg_one_le_cos θ
  unfold waveMean
  nlinarith

/-- The two values for which a symmetric problem with two unknowns has a solution. -/
theorem two_values (p q r μ s : ℝ) (hs : ((p - q) / 2) ^ 2 + r ^ 2 = s ^ 2) (x : ℂ) :
    (∃ a : Fin 2 → ℂ, a ≠ 0 ∧ ((!![p, r; r, q] : Matrix (Fin 2) (Fin 2) ℝ).map Complex.ofReal).mulVec a =
      x • (((μ : ℝ) : ℂ) • (1 : Matrix (Fin 2) (Fin 2) ℂ)).mulVec a) ↔
    x * μ = (((p + q) / 2 + s : ℝ) : ℂ) ∨ x * μ = (((p + q) / 2 - s : ℝ) : ℂ) := by
  have e : ∀ a : Fin 2 → ℂ, ((!![p, r; r, q] : Matrix (Fin 2) (Fin 2) ℝ).map Complex.ofReal).mulVec a =
      x • (((μ : ℝ) : ℂ) • (1 : Matrix (Fin 2) (Fin 2) ℂ)).mulVec a ↔
      ((!![p, r; r, q] : Matrix (Fin 2) (Fin 2) ℝ).map Complex.ofReal - (x * μ) • (1 : Matrix (Fin 2) (Fin 2) ℂ)).mulVec a = 0 := by
    intro a
    rw [Matrix.sub_mulVec, sub_eq_zero, Matrix.smul_mulVec, Matrix.smul_mulVec, smul_smul]
  simp only [e]
  rw [Matrix.exists_mulVec_eq_zero_iff, Matrix.det_fin_two]
  have hs' : (((p : ℂ) - q) / 2) ^ 2 + (r : ℂ) ^ 2 = (s : ℂ) ^ 2 := by exact_mod_cast hs
  have : ∀ y : ℂ, ((p : ℂ) - y) * (q - y) - r * r = (y - (((p + q) / 2 + s : ℝ) : ℂ)) * (y - (((p + q) / 2 - s : ℝ) : ℂ)) := by
    intro y
    push_cast
    linear_combination -hs'
  simp only [Matrix.sub_apply, Matrix.map_apply, Matrix.smul_apply, Matrix.of_apply, Matrix.cons_val', Matrix.cons_val_zero, Matrix.cons_val_one,
    Matrix.one_apply_eq, Matrix.empty_val', Matrix.cons_val_fin_one, smul_eq_mul, mul_one]
  have h01 : (1 : Matrix (Fin 2) (Fin 2) ℂ) 0 1 = 0 := rfl
  have h10 : (1 : Matrix (Fin 2) (Fin 2) ℂ) 1 0 = 0 := rfl
  rw [h01, h10, mul_zero, sub_zero, this, mul_eq_zero, sub_eq_zero, sub_eq_zero]

section
variable {sq : ℝ → ℝ} {d : Gui.Data ℝ} {L H E nu ρ kx ky : ℝ} {nx ny : ℕ} {op bc : List (List ℤ)}
  {nodesRef nodesIma : List ℤ} {refDof imaDof : ℤ → Option (List ℤ)} {newNum : List ℤ}
  {T : Matrix (Fin (2 * ((nx + 1) * (ny + 1)))) (Fin (2 * ((nx + 1) * (ny + 1)) - (twoDofs nodesRef).length)) ℂ}
  {Kg Mg : Matrix (Fin (2 * ((nx + 1) * (ny + 1)))) (Fin (2 * ((nx + 1) * (ny + 1)))) ℝ}

/-- The stiffness of the plate is that of its cells. -/
theorem Spec.FreePlate.stiff_sum (hp : FreePlate d L H nx ny E nu ρ) (hL : L / nx ≠ 0) (hH : H / ny ≠ 0) {C : Matrix (Fin 3) (Fin 3) ℝ}
    (hC : umat [E, nu] = .ok C) (h1 : dme d.cons d.elements = .ok (op, bc, 2 * ((nx + 1) * (ny + 1))))
    (h2 : assembler (Uel.eleFun sq) d.elements d.mats d.nodes (2 * ((nx + 1) * (ny + 1))) op = .ok (Kg, Mg))
    (v u : Fin (2 * ((nx + 1) * (ny + 1))) → ℝ) :
    v ⬝ᵥ Kg.mulVec u = ∑ r ∈ Finset.range ny, ∑ c ∈ Finset.range nx, cellOf (gridField nx ny v) r c ⬝ᵥ
      (stiff2 (ruleQuad shapeQuad4 pts1d2 wts1d2) (rectAt 0 0 (L / nx) (H / ny)) C).mulVec (cellOf (gridField nx ny u) r c) := by
  obtain ⟨ms, s⟩ := auto_setup h1 h2 hp.wf.codes hp.wf.width hp.wf.size
  refine hp.sum h1 s (fun r hr c hc m hm hn V U => ?_) v u
  rw [(grid_cell_placed hp.grid s.mem hC hr hc hm hn).form, rect_stiff_moved hL hH]

/-- The mass of the plate is that of its cells. -/
theorem Spec.FreePlate.mass_sum (hp : FreePlate d L H nx ny E nu ρ)
    (h1 : dme d.cons d.elements = .ok (op, bc, 2 * ((nx + 1) * (ny + 1))))
    (h2 : assembler (Uel.eleFun sq) d.elements d.mats d.nodes (2 * ((nx + 1) * (ny + 1))) op = .ok (Kg, Mg))
    (v u : Fin (2 * ((nx + 1) * (ny + 1))) → ℝ) :
    v ⬝ᵥ Mg.mulVec u = ∑ r ∈ Finset.range ny, ∑ c ∈ Finset.range nx, cellOf (gridField nx ny v) r c ⬝ᵥ
      (mass2 (ruleQuad shapeQuad4 pts1d2 wts1d2) (rectAt 0 0 (L / nx) (H / ny)) ρ).mulVec (cellOf (gridField nx ny u) r c) := by
  obtain ⟨ms, s⟩ := mass_setup h1 h2 hp.wf
  refine hp.sum h1 s (fun r hr c hc m hm hn V U => ?_) v u
  rw [(grid_cell_mass hp.grid s.mem hr hc hm hn).2.form, rect_mass_form, rect_mass_form]

theorem plate_material (hp : FreePlate d L H nx ny E nu ρ) (hx : 0 < nx) (hy : 0 < ny)
    (h1 : dme d.cons d.elements = .ok (op, bc, 2 * ((nx + 1) * (ny + 1))))
    (h2 : assembler (Uel.eleFun sq) d.elements d.mats d.nodes (2 * ((nx + 1) * (ny + 1))) op = .ok (Kg, Mg)) :
    1 - nu ^ 2 ≠ 0 := by
  obtain ⟨ms, s⟩ := mass_setup h1 h2 hp.wf
  obtain ⟨m, hm, hn⟩ := hp.grid.nodes_of s.mem hy hx
  obtain ⟨C, hC⟩ := (grid_cell_mass hp.grid s.mem hy hx (List.mem_of_getElem? hm) hn).1
  obtain ⟨E', nu', e, h, -⟩ := umat_ok.1 hC
  simp only [List.cons.injEq, and_true] at e
  rw [e.2]
  exact h

theorem plate_turn (hx : 0 < nx) (m : ℕ) : Complex.exp (Complex.I * (rodAngle nx (L / nx) kx m : ℂ)) ^ nx =
    Complex.exp (Complex.I * ((kx * L : ℝ) : ℂ)) := by
  have : (nx : ℝ) ≠ 0 := by exact_mod_cast hx.ne'
  rw [turn_pow hx, mul_div_cancel₀ _ this]

/-- The problem of one cell has two frequencies. -/
theorem cell_values {a b : ℝ} (ha : a ≠ 0) (hb : b ≠ 0) (hρ : ρ ≠ 0) (hn : 1 - nu ^ 2 ≠ 0) (α β : ℝ) (w : ℂ) :
    (∃ v : Fin 2 → ℂ, v ≠ 0 ∧
      (waveMat ((stiff2 (ruleQuad shapeQuad4 pts1d2 wts1d2) (rectAt 0 0 a b) !![E / (1 - nu^2), nu * (E / (1 - nu^2)), 0;
           nu * (E / (1 - nu^2)), E / (1 - nu^2), 0; 0, 0, E / (1 - nu^2) * ((1 - nu) / 2)]).map Complex.ofReal)
        (Complex.exp (Complex.I * (α : ℂ))) (Complex.exp (Complex.I * (β : ℂ)))).mulVec v =
      w • (waveMat ((mass2 (ruleQuad shapeQuad4 pts1d2 wts1d2) (rectAt 0 0 a b) ρ).map Complex.ofReal)
        (Complex.exp (Complex.I * (α : ℂ))) (Complex.exp (Complex.I * (β : ℂ)))).mulVec v) ↔
    w = (plateFast a b E nu ρ α β : ℂ) ∨ w = (plateSlow a b E nu ρ α β : ℂ) := by
  have hα := (waveMean_pos α).ne'
  have hβ := (waveMean_pos β).ne'
  have hμ : ρ * (a * b) * (waveMean α * waveMean β) ≠ 0 := by positivity
  rw [wave_stiff ha hb, wave_mass,
    two_values (s := ρ * (a * b) * (waveMean α * waveMean β) * (E / (4 * ρ * (1 - nu ^ 2)) * (1 + nu) *
      √((waveLift a α - waveLift b β) ^ 2 + 4 * (waveSlope a α * waveSlope b β) ^ 2)))]
  · have hμ' : ((ρ * (a * b) * (waveMean α * waveMean β) : ℝ) : ℂ) ≠ 0 := by exact_mod_cast hμ
    rw [← eq_div_iff hμ', ← eq_div_iff hμ', ← Complex.ofReal_div, ← Complex.ofReal_div]
    refine or_congr ?_ ?_
    · rw [show plateFast a b E nu ρ α β = _ from ?_]
      unfold plateFast
      generalize √((waveLift a α - waveLift b β) ^ 2 + 4 * (waveSlope a α * waveSlope b β) ^ 2) = t
      unfold waveLift
      field_simp
      ring
    · rw [show plateSlow a b E nu ρ α β = _ from ?_]
      unfold plateSlow
      generalize √((waveLift a α - waveLift b β) ^ 2 + 4 * (waveSlope a α * waveSlope b β) ^ 2) = t
      unfold waveLift
      field_simp
      ring
  · have hn' : 1 + nu ≠ 0 := fun e => hn (by linear_combination (1 - nu) * e)
    have ht := Real.sq_sqrt (show 0 ≤ (waveLift a α - waveLift b β) ^ 2 + 4 * (waveSlope a α * waveSlope b β) ^ 2 by positivity)
    generalize √((waveLift a α - waveLift b β) ^ 2 + 4 * (waveSlope a α * waveSlope b β) ^ 2) = t at ht
    rw [show (ρ * (a * b) * (waveMean α * waveMean β) * (E / (4 * ρ * (1 - nu ^ 2)) * (1 + nu) * t)) ^ 2 =
      (ρ * (a * b) * (waveMean α * waveMean β) * (E / (4 * ρ * (1 - nu ^ 2)) * (1 + nu))) ^ 2 * t ^ 2 by ring, ht]
    unfold waveLift waveSlope
    field_simp
    ring

/-- C150.  The squares of the frequencies of the plate for a given wave vector: two for each of the `nx ny` waves of the cell, and no
others. -/
theorem C150_frequencies (hp : FreePlate d L H nx ny E nu ρ) (hL : 0 < L) (hH : 0 < H) (hρ : 0 < ρ)
    (h1 : dme d.cons d.elements = .ok (op, bc, 2 * ((nx + 1) * (ny + 1))))
    (h2 : assembler (Uel.eleFun sq) d.elements d.mats d.nodes (2 * ((nx + 1) * (ny + 1))) op = .ok (Kg, Mg))
    (hw : PlateWave d nx ny kx ky nodesRef nodesIma refDof imaDof newNum T) (w : ℂ) :
    (∃ q, q ≠ 0 ∧ (T.conjTranspose * Kg.map Complex.ofReal * T).mulVec q = w • (T.conjTranspose * Mg.map Complex.ofReal * T).mulVec q) ↔
    ∃ m < nx, ∃ l < ny,
      w = (plateFast (L / nx) (H / ny) E nu ρ (rodAngle nx (L / nx) kx m) (rodAngle ny (H / ny) ky l) : ℂ) ∨
      w = (plateSlow (L / nx) (H / ny) E nu ρ (rodAngle nx (L / nx) kx m) (rodAngle ny (H / ny) ky l) : ℂ) := by
  have hx := hw.cols
  have hy := hw.rows
  have hn := plate_material hp hx hy h1 h2
  have ha : L / nx ≠ 0 := div_ne_zero hL.ne' (by exact_mod_cast hx.ne')
  have hb : H / ny ≠ 0 := div_ne_zero hH.ne' (by exact_mod_cast hy.ne')
  have hC := umat_ok.2 ⟨E, nu, rfl, hn, rfl⟩
  rw [lattice_modes (z := fun m => Complex.exp (Complex.I * (rodAngle nx (L / nx) kx m : ℂ)))
    (y := fun l => Complex.exp (Complex.I * (rodAngle ny (H / ny) ky l : ℂ)))
    (hp.stiff_sum ha hb hC h1 h2) (hp.mass_sum h1 h2) (stiff_symm (C35_symmetric hC)) mass_symm hx hy (fun m => star_phase _)
    (fun l => star_phase _) (turn_distinct hx) (turn_distinct hy)
    (fun m l u => hw.range hp.grid (plate_turn hx m) (plate_turn hy l) u) hw.injective]
  refine exists_congr fun m => and_congr_right fun _ => exists_congr fun l => and_congr_right fun _ => ?_
  exact cell_values ha hb hρ.ne' hn _ _ w

/-- The problem of the amplitudes of a wave. -/
noncomputable def Spec.plateMatrix (a b E nu ρ α β : ℝ) : Matrix (Fin 2) (Fin 2) ℝ := (E / (ρ * (1 - nu ^ 2))) •
  !![waveLift a α + (1 - nu) / 2 * waveLift b β, (1 + nu) / 2 * (waveSlope a α * waveSlope b β);
     (1 + nu) / 2 * (waveSlope a α * waveSlope b β), waveLift b β + (1 - nu) / 2 * waveLift a α]

theorem plateMatrix_eq {a b : ℝ} (ha : a ≠ 0) (hb : b ≠ 0) (hρ : ρ ≠ 0) (hn : 1 - nu ^ 2 ≠ 0) (α β : ℝ) :
    (ρ * (a * b) * (waveMean α * waveMean β)) • plateMatrix a b E nu ρ α β =
    !![a * b * (E / (1 - nu ^ 2) * (2 * (1 - Real.cos α)) / a ^ 2 * waveMean β +
          E / (1 - nu ^ 2) * ((1 - nu) / 2) * (2 * (1 - Real.cos β)) / b ^ 2 * waveMean α),
        (nu * (E / (1 - nu ^ 2)) + E / (1 - nu ^ 2) * ((1 - nu) / 2)) * (Real.sin α * Real.sin β);
        (nu * (E / (1 - nu ^ 2)) + E / (1 - nu ^ 2) * ((1 - nu) / 2)) * (Real.sin α * Real.sin β),
        a * b * (E / (1 - nu ^ 2) * (2 * (1 - Real.cos β)) / b ^ 2 * waveMean α +
          E / (1 - nu ^ 2) * ((1 - nu) / 2) * (2 * (1 - Real.cos α)) / a ^ 2 * waveMean β)] := by
  have hα := (waveMean_pos α).ne'
  have hβ := (waveMean_pos β).ne'
  ext i j
  fin_cases i <;> fin_cases j <;> simp [plateMatrix, waveLift, waveSlope] <;> field_simp <;> ring

/-- C150.  The waves: a field `a exp(i (α c + β r))` at row `r` and column `c` whose amplitude satisfies the two equations of its wave
is a mode of the reduced matrices. -/
theorem C150_waves (hp : FreePlate d L H nx ny E nu ρ) (hL : 0 < L) (hH : 0 < H) (hρ : 0 < ρ)
    (h1 : dme d.cons d.elements = .ok (op, bc, 2 * ((nx + 1) * (ny + 1))))
    (h2 : assembler (Uel.eleFun sq) d.elements d.mats d.nodes (2 * ((nx + 1) * (ny + 1))) op = .ok (Kg, Mg))
    (hw : PlateWave d nx ny kx ky nodesRef nodesIma refDof imaDof newNum T) (m l : ℕ) {a : Fin 2 → ℂ} {w : ℂ}
    (ha : ((plateMatrix (L / nx) (H / ny) E nu ρ (rodAngle nx (L / nx) kx m) (rodAngle ny (H / ny) ky l)).map Complex.ofReal).mulVec a = w • a) :
    ∃ q, (∀ r ≤ ny, ∀ c ≤ nx, ∀ j : Fin 2, ∃ h, T.mulVec q ⟨2 * nodeNo nx r c + j, h⟩ =
        a j * Complex.exp (Complex.I * ((rodAngle nx (L / nx) kx m * c + rodAngle ny (H / ny) ky l * r : ℝ) : ℂ))) ∧
      (T.conjTranspose * Kg.map Complex.ofReal * T).mulVec q = w • (T.conjTranspose * Mg.map Complex.ofReal * T).mulVec q := by
  have hx := hw.cols
  have hy := hw.rows
  have hn := plate_material hp hx hy h1 h2
  have hLn : L / nx ≠ 0 := div_ne_zero hL.ne' (by exact_mod_cast hx.ne')
  have hHn : H / ny ≠ 0 := div_ne_zero hH.ne' (by exact_mod_cast hy.ne')
  have hC := umat_ok.2 ⟨E, nu, rfl, hn, rfl⟩
  have hT := fun u => hw.range hp.grid (plate_turn (L := L) (kx := kx) hx m) (plate_turn (L := H) (kx := ky) hy l) u
  obtain ⟨q, hq⟩ := (hT (ofGrid nx ny (planeWave (Complex.exp (Complex.I * (rodAngle nx (L / nx) kx m : ℂ)))
      (Complex.exp (Complex.I * (rodAngle ny (H / ny) ky l : ℂ))) a))).2
    (carriedTo_congr (fun r hr c hc' j => gridField_ofGrid _ hr hc' j) (planeWave_carried nx ny _ _ a))
  refine ⟨q, fun r hr c hc j => ?_, lattice_wave (hp.stiff_sum hLn hHn hC h1 h2) (hp.mass_sum h1 h2) (star_phase _) (star_phase _) hT ?_ hq⟩
  · obtain ⟨h, e⟩ := gridField_at (T.mulVec q) hr hc j
    refine ⟨h, ?_⟩
    rw [← e, hq, gridField_ofGrid _ hr hc]
    unfold planeWave
    rw [← Complex.exp_nat_mul, ← Complex.exp_nat_mul, ← Complex.exp_add]
    push_cast
    ring_nf
  · rw [wave_stiff hLn hHn, wave_mass, ← plateMatrix_eq hLn hHn hρ.ne' hn]
    generalize plateMatrix (L / nx) (H / ny) E nu ρ (rodAngle nx (L / nx) kx m) (rodAngle ny (H / ny) ky l) = P at ha
    have : ∀ t : ℝ, (t • P).map Complex.ofReal = (t : ℂ) • P.map Complex.ofReal := by
      intro t
      ext i j
      simp
    rw [this, Matrix.smul_mulVec, Matrix.smul_mulVec, Matrix.one_mulVec, ha, smul_comm]

end

/-! ## What the frequencies are -/

section
variable {a b E nu ρ α β : ℝ}

theorem waveSlope_sq_le (h θ : ℝ) (hh : 0 < h) : waveSlope h θ ^ 2 ≤ waveLift h θ := by
  have hp := waveMean_pos θ
  have h1 := Real.sin_sq_add_cos_sq θ
  have h2 := Real.cos_le_one θ
  have h3 : 0 ≤ (gaussPt : ℝ) ^ 2 := sq_nonneg _
  have e : 2 * waveMean θ = 1 + Real.cos θ + (gaussPt : ℝ) ^ 2 * (1 - Real.cos θ) := by
    unfold waveMean
    ring
  unfold waveSlope waveLift
  rw [div_pow, div_le_div_iff₀ (by positivity) (by positivity)]
  have : Real.sin θ ^ 2 ≤ 2 * (1 - Real.cos θ) * waveMean θ := by nlinarith [mul_nonneg h3 (sq_nonneg (1 - Real.cos θ))]
  calc Real.sin θ ^ 2 * (h ^ 2 * waveMean θ) ≤ 2 * (1 - Real.cos θ) * waveMean θ * (h ^ 2 * waveMean θ) := by gcongr
    _ = 2 * (1 - Real.cos θ) * (h * waveMean θ) ^ 2 := by ring

theorem waveLift_nonneg (h θ : ℝ) : 0 ≤ waveLift h θ := by
  have := waveMean_pos θ
  have := Real.cos_le_one θ
  unfold waveLift
  apply div_nonneg
  · linarith
  · positivity

theorem waveRoot_le (ha : 0 < a) (hb : 0 < b) :
    √((waveLift a α - waveLift b β) ^ 2 + 4 * (waveSlope a α * waveSlope b β) ^ 2) ≤ waveLift a α + waveLift b β := by
  have h1 := waveLift_nonneg a α
  have h2 := waveLift_nonneg b β
  have h3 := waveSlope_sq_le a α ha
  have h4 := waveSlope_sq_le b β hb
  rw [Real.sqrt_le_left (by positivity), mul_pow]
  nlinarith [mul_le_mul h3 h4 (sq_nonneg _) h1]

/-- C150.  The slower wave is at least as fast as the shear wave, the faster one at most as fast as the longitudinal wave with the same
discrete wave numbers. -/
theorem C150_between (ha : 0 < a) (hb : 0 < b) (hE : 0 < E) (hρ : 0 < ρ) (h1 : -1 < nu) (h2 : nu < 1) :
    E / (2 * (1 + nu)) / ρ * (waveLift a α + waveLift b β) ≤ plateSlow a b E nu ρ α β ∧
    plateSlow a b E nu ρ α β ≤ plateFast a b E nu ρ α β ∧
    plateFast a b E nu ρ α β ≤ E / (1 - nu ^ 2) / ρ * (waveLift a α + waveLift b β) := by
  have hr := waveRoot_le (α := α) (β := β) ha hb
  have h0 := Real.sqrt_nonneg ((waveLift a α - waveLift b β) ^ 2 + 4 * (waveSlope a α * waveSlope b β) ^ 2)
  have hn : 0 < 1 - nu ^ 2 := by nlinarith
  have hp : 0 < 1 + nu := by linarith
  have hk : 0 < E / (4 * ρ * (1 - nu ^ 2)) := by positivity
  have e1 : E / (2 * (1 + nu)) / ρ = E / (4 * ρ * (1 - nu ^ 2)) * (2 * (1 - nu)) := by
    have : 1 - nu ≠ 0 := by linarith
    rw [show 1 - nu ^ 2 = (1 + nu) * (1 - nu) by ring]
    field_simp
    ring
  have e2 : E / (1 - nu ^ 2) / ρ = E / (4 * ρ * (1 - nu ^ 2)) * 4 := by
    field_simp
  rw [e1, e2]
  unfold plateSlow plateFast
  generalize √((waveLift a α - waveLift b β) ^ 2 + 4 * (waveSlope a α * waveSlope b β) ^ 2) = t at *
  generalize E / (4 * ρ * (1 - nu ^ 2)) = κ at *
  rw [mul_assoc, mul_assoc κ 4]
  refine ⟨mul_le_mul_of_nonneg_left ?_ hk.le, mul_le_mul_of_nonneg_left ?_ hk.le, mul_le_mul_of_nonneg_left ?_ hk.le⟩ <;> nlinarith

theorem waveLift_zero (h : ℝ) : waveLift h 0 = 0 := by
  simp [waveLift]

theorem waveSlope_zero (h : ℝ) : waveSlope h 0 = 0 := by
  simp [waveSlope]

/-- C150.  Along an axis of the grid the two waves are the longitudinal and the shear wave. -/
theorem C150_axis (hρ : ρ ≠ 0) (h1 : -1 < nu) (h2 : nu < 1) :
    plateFast a b E nu ρ α 0 = E / (1 - nu ^ 2) / ρ * waveLift a α ∧ plateSlow a b E nu ρ α 0 = E / (2 * (1 + nu)) / ρ * waveLift a α := by
  have hn : 1 - nu ^ 2 ≠ 0 := by nlinarith
  have hp : 1 + nu ≠ 0 := by linarith
  have hm : 1 - nu ≠ 0 := by linarith
  unfold plateFast plateSlow
  rw [waveLift_zero, waveSlope_zero, sub_zero, mul_zero, zero_pow (by omega), mul_zero, add_zero, add_zero,
    Real.sqrt_sq (waveLift_nonneg a α)]
  constructor
  · field_simp
    ring
  · rw [show 1 - nu ^ 2 = (1 + nu) * (1 - nu) by ring]
    field_simp
    ring

theorem waveLift_ge {h k : ℝ} (hh : 0 < h) (hk : |k * h| ≤ Real.pi) : k ^ 2 ≤ waveLift h (k * h) := by
  have h1 := sq_le_chain (abs_nonneg (k * h)) hk
  rw [Real.cos_abs, sq_abs] at h1
  have hp := waveMean_pos (k * h)
  have h2 := Real.cos_le_one (k * h)
  have h3 := Real.neg_one_le_cos (k * h)
  obtain ⟨g1, -⟩ := gauss_bounds (K := ℝ)
  have h4 : waveMean (k * h) ≤ (2 + Real.cos (k * h)) / 3 := by
    unfold waveMean
    nlinarith
  have h5 : (k * h) ^ 2 * waveMean (k * h) ≤ 2 * (1 - Real.cos (k * h)) := by
    rw [le_div_iff₀ (by linarith)] at h1
    nlinarith [sq_nonneg (k * h)]
  unfold waveLift
  rw [le_div_iff₀ (by positivity)]
  linarith

/-- C150.  No wave is slower than the shear wave of the continuous plate with the same wave vector. -/
theorem C150_bound {kx ky : ℝ} (ha : 0 < a) (hb : 0 < b) (hE : 0 < E) (hρ : 0 < ρ) (h1 : -1 < nu) (h2 : nu < 1)
    (hx : |kx * a| ≤ Real.pi) (hy : |ky * b| ≤ Real.pi) :
    E / (2 * (1 + nu)) / ρ * (kx ^ 2 + ky ^ 2) ≤ plateSlow a b E nu ρ (kx * a) (ky * b) := by
  refine le_trans ?_ (C150_between ha hb hE hρ h1 h2).1
  have hp : 0 < 1 + nu := by linarith
  have := waveLift_ge ha hx
  have := waveLift_ge hb hy
  gcongr

open Filter in
theorem waveLift_limit {a : ℝ} (ha : 0 < a) (k : ℝ) : Tendsto (fun t : ℝ => waveLift (t * a) (k * (t * a))) (𝓝[≠] 0) (𝓝 (k ^ 2)) := by
  have hc : Continuous fun t : ℝ => k ^ 2 * Real.sinc (k * (t * a) / 2) ^ 2 / waveMean (k * (t * a)) := by
    have := Real.continuous_sinc
    refine Continuous.div (by fun_prop) ?_ fun t => (waveMean_pos _).ne'
    unfold waveMean
    fun_prop
  have h0 := hc.tendsto 0
  have e0 : k ^ 2 * Real.sinc (k * (0 * a) / 2) ^ 2 / waveMean (k * (0 * a)) = k ^ 2 := by
    simp [waveMean]
  rw [e0] at h0
  refine (h0.mono_left nhdsWithin_le_nhds).congr' ?_
  filter_upwards [self_mem_nhdsWithin] with t ht
  have ht : t ≠ 0 := ht
  have hp := (waveMean_pos (k * (t * a))).ne'
  by_cases hk : k = 0
  · simp [hk, waveLift]
  · have hx : k * (t * a) / 2 ≠ 0 := by positivity
    have hcos : Real.cos (k * (t * a)) = 1 - 2 * Real.sin (k * (t * a) / 2) ^ 2 := by
      have e1 := Real.cos_two_mul (k * (t * a) / 2)
      have e2 := Real.sin_sq_add_cos_sq (k * (t * a) / 2)
      rw [show 2 * (k * (t * a) / 2) = k * (t * a) by ring] at e1
      linarith
    rw [Real.sinc_of_ne_zero hx]
    unfold waveLift
    rw [hcos]
    field_simp
    ring

open Filter in
theorem waveSlope_limit {a : ℝ} (ha : 0 < a) (k : ℝ) : Tendsto (fun t : ℝ => waveSlope (t * a) (k * (t * a))) (𝓝[≠] 0) (𝓝 k) := by
  have hc : Continuous fun t : ℝ => k * Real.sinc (k * (t * a)) / waveMean (k * (t * a)) := by
    have := Real.continuous_sinc
    refine Continuous.div (by fun_prop) ?_ fun t => (waveMean_pos _).ne'
    unfold waveMean
    fun_prop
  have h0 := hc.tendsto 0
  have e0 : k * Real.sinc (k * (0 * a)) / waveMean (k * (0 * a)) = k := by
    simp [waveMean]
  rw [e0] at h0
  refine (h0.mono_left nhdsWithin_le_nhds).congr' ?_
  filter_upwards [self_mem_nhdsWithin] with t ht
  have ht : t ≠ 0 := ht
  have hp := (waveMean_pos (k * (t * a))).ne'
  by_cases hk : k = 0
  · simp [hk, waveSlope]
  · have hx : k * (t * a) ≠ 0 := by positivity
    rw [Real.sinc_of_ne_zero hx]
    unfold waveSlope
    field_simp

open Filter in
/-- C150.  When the elements become small beside the wave, in every direction, the two waves travel with the speeds of the longitudinal
and the shear waves of the continuous plate. -/
theorem C150_limit {kx ky : ℝ} (ha : 0 < a) (hb : 0 < b) (hρ : ρ ≠ 0) (h1 : -1 < nu) (h2 : nu < 1) :
    Tendsto (fun t : ℝ => plateFast (t * a) (t * b) E nu ρ (kx * (t * a)) (ky * (t * b))) (𝓝[≠] 0)
      (𝓝 (E / (1 - nu ^ 2) / ρ * (kx ^ 2 + ky ^ 2))) ∧
    Tendsto (fun t : ℝ => plateSlow (t * a) (t * b) E nu ρ (kx * (t * a)) (ky * (t * b))) (𝓝[≠] 0)
      (𝓝 (E / (2 * (1 + nu)) / ρ * (kx ^ 2 + ky ^ 2))) := by
  have hn : 1 - nu ^ 2 ≠ 0 := by nlinarith
  have hp : 1 + nu ≠ 0 := by linarith
  have hm : 1 - nu ≠ 0 := by linarith
  have la := waveLift_limit ha kx
  have lb := waveLift_limit hb ky
  have sa := waveSlope_limit ha kx
  have sb := waveSlope_limit hb ky
  have hroot : √((kx ^ 2 - ky ^ 2) ^ 2 + 4 * (kx * ky) ^ 2) = kx ^ 2 + ky ^ 2 := by
    rw [show (kx ^ 2 - ky ^ 2) ^ 2 + 4 * (kx * ky) ^ 2 = (kx ^ 2 + ky ^ 2) ^ 2 by ring, Real.sqrt_sq (by positivity)]
  have hr := (((la.sub lb).pow 2).add (((sa.mul sb).pow 2).const_mul 4)).sqrt
  rw [hroot] at hr
  have hs := (la.add lb).const_mul (3 - nu)
  constructor
  · have := ((hs.add (hr.const_mul (1 + nu))).const_mul (E / (4 * ρ * (1 - nu ^ 2))))
    rw [show E / (4 * ρ * (1 - nu ^ 2)) * ((3 - nu) * (kx ^ 2 + ky ^ 2) + (1 + nu) * (kx ^ 2 + ky ^ 2)) =
      E / (1 - nu ^ 2) / ρ * (kx ^ 2 + ky ^ 2) by field_simp; ring] at this
    exact this
  · have := ((hs.sub (hr.const_mul (1 + nu))).const_mul (E / (4 * ρ * (1 - nu ^ 2))))
    rw [show E / (4 * ρ * (1 - nu ^ 2)) * ((3 - nu) * (kx ^ 2 + ky ^ 2) - (1 + nu) * (kx ^ 2 + ky ^ 2)) =
      E / (2 * (1 + nu)) / ρ * (kx ^ 2 + ky ^ 2) by
        rw [show 1 - nu ^ 2 = (1 + nu) * (1 - nu) by ring]
        field_simp
        ring] at this
    exact this

end

/-! ## The analysis is carried out -/

/-- The nodes of the upper and of the right side with the nodes they are images of. -/
def sidePairs (nx ny : ℕ) : List (ℤ × ℤ) :=
  (((List.range (ny + 1)).flatMap fun r => (List.range (nx + 1)).map fun c => (r, c)).filter fun p => p.1 = ny ∨ p.2 = nx).map fun p =>
    ((nodeNo nx p.1 p.2 : ℤ), (nodeNo nx (p.1 % ny) (p.2 % nx) : ℤ))

theorem side_lists (nx ny : ℕ) : ∃ nodesRef nodesIma : List ℤ, nodesRef.length = nodesIma.length ∧ nodesIma.Nodup ∧
    ∀ p : ℤ × ℤ, p ∈ nodesIma.zip nodesRef ↔ ∃ r c : ℕ, r ≤ ny ∧ c ≤ nx ∧ (r = ny ∨ c = nx) ∧
      p = ((nodeNo nx r c : ℤ), (nodeNo nx (r % ny) (c % nx) : ℤ)) := by
  have hmem : ∀ q : ℕ × ℕ, q ∈ (((List.range (ny + 1)).flatMap fun r => (List.range (nx + 1)).map fun c => (r, c)).filter
      fun p => p.1 = ny ∨ p.2 = nx) ↔ q.1 ≤ ny ∧ q.2 ≤ nx ∧ (q.1 = ny ∨ q.2 = nx) := by
    rintro ⟨r, c⟩
    simp [and_assoc]
  refine ⟨(sidePairs nx ny).map Prod.snd, (sidePairs nx ny).map Prod.fst, by simp, ?_, fun p => ?_⟩
  · unfold sidePairs
    rw [List.map_map]
    refine List.Nodup.map_on ?_ (List.Nodup.filter _ ?_)
    · rintro ⟨r, c⟩ h1 ⟨r', c'⟩ h2 e
      obtain ⟨-, a2, -⟩ := (hmem _).1 h1
      obtain ⟨-, b2, -⟩ := (hmem _).1 h2
      dsimp only [Function.comp_apply] at e a2 b2
      obtain ⟨rfl, rfl⟩ := nodeNo_inj a2 b2 (by exact_mod_cast e)
      rfl
    · rw [List.nodup_flatMap]
      refine ⟨fun r _ => List.nodup_range.map fun a b e => by simpa using e, List.nodup_range.imp ?_⟩
      intro r r' hne x hx hx'
      simp at hx hx'
      obtain ⟨c, -, rfl⟩ := hx
      obtain ⟨c', -, e⟩ := hx'
      simp at e
      exact hne e.1.symm
  · rw [← List.unzip_fst, ← List.unzip_snd, List.zip_unzip]
    unfold sidePairs
    rw [List.mem_map]
    constructor
    · rintro ⟨⟨r, c⟩, h1, rfl⟩
      obtain ⟨a1, a2, a3⟩ := (hmem _).1 h1
      exact ⟨r, c, a1, a2, a3, rfl⟩
    · rintro ⟨r, c, a1, a2, a3, rfl⟩
      exact ⟨(r, c), (hmem _).2 ⟨a1, a2, a3⟩, rfl⟩

section
variable {sq : ℝ → ℝ} {d : Gui.Data ℝ} {L H E nu ρ : ℝ} {nx ny : ℕ}
  {nodesRef nodesIma : List ℤ} {refDof imaDof : ℤ → Option (List ℤ)}

/-- C150.  Every such analysis is carried out: for every plate with elements above the threshold of `jacoper` and a physical material,
every wave vector, and all lists that pair the sides as stated. -/
theorem C150_returns (hp : FreePlate d L H nx ny E nu ρ) (htol : 1e-8 < L / nx * (H / ny) / 4) (hE : 0 < E) (hn1 : -1 < nu)
    (hn2 : nu < 1) (hρ : 0 ≤ ρ) (hcount : nodesRef.length = nodesIma.length) (hn : nodesIma.Nodup)
    (hpairs : ∀ p : ℤ × ℤ, p ∈ nodesIma.zip nodesRef ↔ ∃ r c : ℕ, r ≤ ny ∧ c ≤ nx ∧ (r = ny ∨ c = nx) ∧
      p = ((nodeNo nx r c : ℤ), (nodeNo nx (r % ny) (c % nx) : ℤ)))
    (hrd : ∀ z ∈ nodesRef, refDof z = some [2 * z, 2 * z + 1]) (him : ∀ z ∈ nodesIma, imaDof z = some [2 * z, 2 * z + 1]) (kx ky : ℝ) :
    ∃ op bc Kg Mg newNum T, dme d.cons d.elements = .ok (op, bc, 2 * ((nx + 1) * (ny + 1))) ∧
      assembler (Uel.eleFun sq) d.elements d.mats d.nodes (2 * ((nx + 1) * (ny + 1))) op = .ok (Kg, Mg) ∧
      PlateWave d nx ny kx ky nodesRef nodesIma refDof imaDof newNum T := by
  have hpos : 0 < L / nx * (H / ny) := by
    have := (tol_pos (K := ℝ)).trans htol
    linarith
  have hx : 0 < nx := by
    rcases Nat.eq_zero_or_pos nx with rfl | h
    · simp at hpos
    · exact h
  have hy : 0 < ny := by
    rcases Nat.eq_zero_or_pos ny with rfl | h
    · simp at hpos
    · exact h
  obtain ⟨ms, hm⟩ := C97_mesh (sq := sq) hp.grid htol hE hn1 hn2 (by simpa using hρ)
  obtain ⟨op, bc, neq, Kg, Mg, h1, h2⟩ := plane_assembly hm.plane hp.wf hm.members
  obtain ⟨rfl, -⟩ := hp.numbering h1
  have hlen : (twoDofs nodesRef).length = (twoDofs nodesIma).length := by rw [twoDofs_length, twoDofs_length, hcount]
  obtain ⟨newNum, hN⟩ := C83_total (2 * ((nx + 1) * (ny + 1))) (ima := twoDofs nodesIma) (ref := twoDofs nodesRef) hlen.ge
  obtain ⟨hle, hnum⟩ := C83_columns hN (twoDofs_nodup hn) (side_range hcount hpairs) hlen
  have hpr := side_pairing hx hy hcount hn hpairs hrd him
  obtain ⟨T, hT⟩ := C85_returns (wave := [kx, ky]) (coords := d.nodes.map (List.drop 1)) (newNum := newNum) (dofsRef := twoDofs nodesRef)
    hpr (side_range hcount hpairs) hle hnum (by
      intro p hpp
      obtain ⟨m1, m2⟩ := List.of_mem_zip (show (p.1, p.2) ∈ _ from hpp)
      obtain ⟨r, c, hr, hc, -, rfl⟩ := (hpairs p).1 hpp
      exact ⟨⟨_, plate_shift hp.grid hx hy hr hc⟩, ⟨_, him _ m1⟩, ⟨_, hrd _ m2⟩⟩)
  exact ⟨op, bc, Kg, Mg, newNum, T, h1, h2, hx, hy, hcount, hn, hpairs, hrd, him, hN, hT⟩

end

/-- C150.  Computing with a cell of `nx × ny` elements instead of one changes nothing but the wave vectors: its frequencies are those of
the cell of one element at the wave vectors `(kx + 2 π m / L, ky + 2 π l / H)`. -/
theorem C150_folding {sq : ℝ → ℝ} {d d' : Gui.Data ℝ} {L H E nu ρ kx ky : ℝ} {nx ny : ℕ} {op bc op' bc' : List (List ℤ)}
    {nodesRef nodesIma nodesRef' nodesIma' : List ℤ} {refDof imaDof refDof' imaDof' : ℤ → Option (List ℤ)} {newNum newNum' : List ℤ}
    {T : Matrix (Fin (2 * ((nx + 1) * (ny + 1)))) (Fin (2 * ((nx + 1) * (ny + 1)) - (twoDofs nodesRef).length)) ℂ}
    {Kg Mg : Matrix (Fin (2 * ((nx + 1) * (ny + 1)))) (Fin (2 * ((nx + 1) * (ny + 1)))) ℝ}
    {T' : ℕ → ℕ → Matrix (Fin (2 * ((1 + 1) * (1 + 1)))) (Fin (2 * ((1 + 1) * (1 + 1)) - (twoDofs nodesRef').length)) ℂ}
    {Kg' Mg' : Matrix (Fin (2 * ((1 + 1) * (1 + 1)))) (Fin (2 * ((1 + 1) * (1 + 1)))) ℝ} (hL : 0 < L) (hH : 0 < H) (hρ : 0 < ρ)
    (hp : FreePlate d L H nx ny E nu ρ) (h1 : dme d.cons d.elements = .ok (op, bc, 2 * ((nx + 1) * (ny + 1))))
    (h2 : assembler (Uel.eleFun sq) d.elements d.mats d.nodes (2 * ((nx + 1) * (ny + 1))) op = .ok (Kg, Mg))
    (hw : PlateWave d nx ny kx ky nodesRef nodesIma refDof imaDof newNum T)
    (hp' : FreePlate d' (L / nx) (H / ny) 1 1 E nu ρ) (h1' : dme d'.cons d'.elements = .ok (op', bc', 2 * ((1 + 1) * (1 + 1))))
    (h2' : assembler (Uel.eleFun sq) d'.elements d'.mats d'.nodes (2 * ((1 + 1) * (1 + 1))) op' = .ok (Kg', Mg'))
    (hw' : ∀ m < nx, ∀ l < ny, PlateWave d' 1 1 (kx + 2 * Real.pi * m / L) (ky + 2 * Real.pi * l / H) nodesRef' nodesIma' refDof' imaDof'
      newNum' (T' m l)) (w : ℂ) :
    (∃ q, q ≠ 0 ∧ (T.conjTranspose * Kg.map Complex.ofReal * T).mulVec q = w • (T.conjTranspose * Mg.map Complex.ofReal * T).mulVec q) ↔
    ∃ m < nx, ∃ l < ny, ∃ q, q ≠ 0 ∧ ((T' m l).conjTranspose * Kg'.map Complex.ofReal * T' m l).mulVec q =
      w • ((T' m l).conjTranspose * Mg'.map Complex.ofReal * T' m l).mulVec q := by
  have hx : (0 : ℝ) < nx := by exact_mod_cast hw.cols
  have hy : (0 : ℝ) < ny := by exact_mod_cast hw.rows
  rw [C150_frequencies hp hL hH hρ h1 h2 hw]
  refine exists_congr fun m => and_congr_right fun hm => exists_congr fun l => and_congr_right fun hl => ?_
  rw [C150_frequencies hp' (by positivity) (by positivity) hρ h1' h2' (hw' m hm l hl)]
  have key : ∀ {n : ℕ} {D κ : ℝ} {m : ℕ}, (0 : ℝ) < n → 0 < D → rodAngle n (D / n) κ m =
      rodAngle 1 (D / n / (1 : ℕ)) (κ + 2 * Real.pi * m / D) 0 := by
    intro n D κ m hn hD
    unfold rodAngle
    push_cast
    field_simp
    ring
  rw [key hx hL, key hy hH, Nat.cast_one, div_one, div_one]
  constructor
  · exact fun e => ⟨0, by omega, 0, by omega, e⟩
  · rintro ⟨m', hm', l', hl', e⟩
    obtain rfl : m' = 0 := by omega
    obtain rfl : l' = 0 := by omega
    exact e

/-- A free plate. -/
noncomputable def testSheet (L H E nu ρ : ℝ) (nx ny : ℕ) : Gui.Data ℝ :=
  { tensionPlate L H E nu 0 nx ny with cons := List.replicate ((nx + 1) * (ny + 1)) [0, 0], mats := [[E, nu, ρ]] }

theorem testSheet_free (L H E nu ρ : ℝ) (nx ny : ℕ) : FreePlate (testSheet L H E nu ρ nx ny) L H nx ny E nu ρ :=
  let h := plate_grid L H E nu 0 nx ny
  ⟨⟨h.elements, rfl, h.count, h.place⟩, rfl⟩

/-- One square element at the wave number `π`: the squares of the frequencies are `4 / g²` and `2 / g²`, near `12` and `6`. -/
example : ∃ (op bc : List (List ℤ)) (nodesRef nodesIma : List ℤ) (refDof imaDof : ℤ → Option (List ℤ)) (newNum : List ℤ)
    (Kg Mg : Matrix (Fin (2 * ((1 + 1) * (1 + 1)))) (Fin (2 * ((1 + 1) * (1 + 1)))) ℝ)
    (T : Matrix (Fin (2 * ((1 + 1) * (1 + 1)))) (Fin (2 * ((1 + 1) * (1 + 1)) - (twoDofs nodesRef).length)) ℂ),
    dme (testSheet 1 1 1 0 1 1 1).cons (testSheet 1 1 1 0 1 1 1).elements = .ok (op, bc, 2 * ((1 + 1) * (1 + 1))) ∧
    assembler (Uel.eleFun Real.sqrt) (testSheet 1 1 1 0 1 1 1).elements (testSheet 1 1 1 0 1 1 1).mats (testSheet 1 1 1 0 1 1 1).nodes
      (2 * ((1 + 1) * (1 + 1))) op = .ok (Kg, Mg) ∧
    PlateWave (testSheet 1 1 1 0 1 1 1) 1 1 Real.pi 0 nodesRef nodesIma refDof imaDof newNum T ∧
    ∀ w : ℂ, (∃ q, q ≠ 0 ∧ (T.conjTranspose * Kg.map Complex.ofReal * T).mulVec q =
      w • (T.conjTranspose * Mg.map Complex.ofReal * T).mulVec q) ↔
      w = ((4 / (gaussPt : ℝ) ^ 2 : ℝ) : ℂ) ∨ w = ((2 / (gaussPt : ℝ) ^ 2 : ℝ) : ℂ) := by
  obtain ⟨nodesRef, nodesIma, hc, hn, hps⟩ := side_lists 1 1
  have hp := testSheet_free 1 1 1 0 1 1 1
  obtain ⟨op, bc, Kg, Mg, newNum, T, h1, h2, hw⟩ := C150_returns (sq := Real.sqrt) (refDof := fun z => some [2 * z, 2 * z + 1])
    (imaDof := fun z => some [2 * z, 2 * z + 1]) hp (by norm_num) one_pos (by norm_num) (by norm_num) zero_le_one hc hn hps
    (fun _ _ => rfl) (fun _ _ => rfl) Real.pi 0
  refine ⟨op, bc, nodesRef, nodesIma, _, _, newNum, Kg, Mg, T, h1, h2, hw, fun w => ?_⟩
  rw [C150_frequencies hp one_pos one_pos one_pos h1 h2 hw]
  have e1 : rodAngle 1 (1 / (1 : ℕ)) Real.pi 0 = Real.pi := by simp [rodAngle]
  have e2 : rodAngle 1 (1 / (1 : ℕ)) 0 0 = 0 := by simp [rodAngle]
  have e3 : waveLift (1 / (1 : ℕ)) Real.pi = 4 / (gaussPt : ℝ) ^ 2 := by
    have : waveMean Real.pi = (gaussPt : ℝ) ^ 2 := by
      unfold waveMean
      rw [Real.cos_pi]
      ring
    unfold waveLift
    rw [this, Real.cos_pi]
    norm_num
  obtain ⟨a1, a2⟩ := C150_axis (a := 1 / (1 : ℕ)) (b := 1 / (1 : ℕ)) (E := 1) (nu := 0) (ρ := 1) (α := Real.pi) one_ne_zero (by norm_num) (by norm_num)
  rw [e3] at a1 a2
  have e4 : (1 : ℝ) / (1 - 0 ^ 2) / 1 * (4 / (gaussPt : ℝ) ^ 2) = 4 / (gaussPt : ℝ) ^ 2 := by ring
  have e5 : (1 : ℝ) / (2 * (1 + 0)) / 1 * (4 / (gaussPt : ℝ) ^ 2) = 2 / (gaussPt : ℝ) ^ 2 := by ring
  rw [e4] at a1
  rw [e5] at a2
  constructor
  · rintro ⟨m, hm, l, hl, e⟩
    obtain rfl : m = 0 := by omega
    obtain rfl : l = 0 := by omega
    rw [e1, e2, a1, a2] at e
    exact e
  · intro e
    refine ⟨0, one_pos, 0, one_pos, ?_⟩
    rw [e1, e2, a1, a2]
    exact e

end SolidsPy
