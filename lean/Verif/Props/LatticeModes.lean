import Verif.Props.PlateCell

/-! # C150: modes of a lattice of cells -/

set_option linter.unusedSectionVars false

namespace SolidsPy
open Spec Fem Uel Gauss Pre Assem Matrix

section
variable {nx ny : ℕ}

/-- The form of a complex field is the sum over the cells when that of a real field is. -/
theorem plate_complex {A : Matrix (Fin (2 * ((nx + 1) * (ny + 1)))) (Fin (2 * ((nx + 1) * (ny + 1)))) ℝ}
    {k : Matrix (Fin 4 × Fin 2) (Fin 4 × Fin 2) ℝ}
    (h : ∀ v u, v ⬝ᵥ A.mulVec u = ∑ r ∈ Finset.range ny, ∑ c ∈ Finset.range nx,
      cellOf (gridField nx ny v) r c ⬝ᵥ k.mulVec (cellOf (gridField nx ny u) r c)) (v u : Fin (2 * ((nx + 1) * (ny + 1))) → ℂ) :
    star v ⬝ᵥ (A.map Complex.ofReal).mulVec u = ∑ r ∈ Finset.range ny, ∑ c ∈ Finset.range nx,
      star (cellOf (gridField nx ny v) r c) ⬝ᵥ (k.map Complex.ofReal).mulVec (cellOf (gridField nx ny u) r c) := by
  have hre : ∀ (w : Fin (2 * ((nx + 1) * (ny + 1))) → ℂ) (r c : ℕ),
      cellOf (gridField nx ny fun i => (w i).re) r c = fun s => (cellOf (gridField nx ny w) r c s).re := by
    intro w r c
    funext s
    unfold cellOf gridField
    split_ifs <;> simp
  have him : ∀ (w : Fin (2 * ((nx + 1) * (ny + 1))) → ℂ) (r c : ℕ),
      cellOf (gridField nx ny fun i => (w i).im) r c = fun s => (cellOf (gridField nx ny w) r c s).im := by
    intro w r c
    funext s
    unfold cellOf gridField
    split_ifs <;> simp
  rw [complex_bilin, h, h, h, h]
  simp only [complex_bilin, hre, him]
  push_cast
  simp only [Finset.sum_add_distrib, Finset.sum_sub_distrib, Finset.mul_sum, mul_sub]

theorem waveMat_hermitian {k : Matrix (Fin 4 × Fin 2) (Fin 4 × Fin 2) ℝ} (hk : k.IsSymm) (z y : ℂ) :
    (waveMat (k.map Complex.ofReal) z y).conjTranspose = waveMat (k.map Complex.ofReal) z y := by
  ext i j
  rw [Matrix.conjTranspose_apply]
  unfold waveMat
  simp only [star_sum, star_mul', star_star]
  rw [Finset.sum_comm]
  refine Finset.sum_congr rfl fun s _ => Finset.sum_congr rfl fun t _ => ?_
  have : k (t, j) (s, i) = k (s, i) (t, j) := hk.apply _ _
  simp only [Matrix.map_apply, this, Complex.star_def, Complex.conj_ofReal]
  ring

/-- The vector of the assembled system with the values of a field. -/
def ofGrid {α : Type} (nx ny : ℕ) (P : ℕ → ℕ → Fin 2 → α) : Fin (2 * ((nx + 1) * (ny + 1))) → α :=
  fun i => P ((i : ℕ) / 2 / (nx + 1)) ((i : ℕ) / 2 % (nx + 1)) ⟨(i : ℕ) % 2, Nat.mod_lt _ (by omega)⟩

theorem gridField_ofGrid {α : Type} [Zero α] (P : ℕ → ℕ → Fin 2 → α) {r c : ℕ} (hr : r ≤ ny) (hc : c ≤ nx) (j : Fin 2) :
    gridField nx ny (ofGrid nx ny P) r c j = P r c j := by
  obtain ⟨h, e⟩ := gridField_at (ofGrid nx ny P) hr hc j
  rw [e]
  unfold ofGrid
  have h1 : (2 * nodeNo nx r c + (j : ℕ)) / 2 = nodeNo nx r c := by omega
  have h2 : (2 * nodeNo nx r c + (j : ℕ)) % 2 = j := by omega
  simp only [h1, h2, nodeNo_div hc, nodeNo_mod hc]

theorem cellOf_ofGrid {α : Type} [Zero α] (P : ℕ → ℕ → Fin 2 → α) {r c : ℕ} (hr : r < ny) (hc : c < nx) :
    cellOf (gridField nx ny (ofGrid nx ny P)) r c = cellOf P r c := by
  funext s
  obtain ⟨h1, h2⟩ := upOf_le s.1
  exact gridField_ofGrid P (by omega) (by omega) _

theorem ofGrid_gridField {α : Type} [Zero α] (u : Fin (2 * ((nx + 1) * (ny + 1))) → α) : ofGrid nx ny (gridField nx ny u) = u := by
  funext i
  have hi : (i : ℕ) / 2 < (nx + 1) * (ny + 1) := by have := i.2; omega
  obtain ⟨r, c, hr, hc, e⟩ := node_split hi
  unfold ofGrid
  rw [e, nodeNo_div hc, nodeNo_mod hc]
  obtain ⟨h, e'⟩ := gridField_at u hr hc ⟨(i : ℕ) % 2, Nat.mod_lt _ (by omega)⟩
  rw [e']
  congr 1
  apply Fin.ext
  dsimp only
  omega

theorem carriedTo_congr {z y : ℂ} {V W : ℕ → ℕ → Fin 2 → ℂ} (h : ∀ r ≤ ny, ∀ c ≤ nx, ∀ j, V r c j = W r c j) (hW : Carried nx ny z y W) :
    Carried nx ny z y V := by
  constructor
  · intro r hr j
    rw [h r hr nx le_rfl, h r hr 0 (by omega), hW.1 r hr]
  · intro c hc j
    rw [h ny le_rfl c hc, h 0 (by omega) c hc, hW.2 c hc]

variable {A B : Matrix (Fin (2 * ((nx + 1) * (ny + 1)))) (Fin (2 * ((nx + 1) * (ny + 1)))) ℝ}
  {k μ : Matrix (Fin 4 × Fin 2) (Fin 4 × Fin 2) ℝ} {M : ℕ} {T : Matrix (Fin (2 * ((nx + 1) * (ny + 1)))) (Fin M) ℂ}

theorem wave_vector (hA : ∀ v u, v ⬝ᵥ A.mulVec u = ∑ r ∈ Finset.range ny, ∑ c ∈ Finset.range nx,
      cellOf (gridField nx ny v) r c ⬝ᵥ k.mulVec (cellOf (gridField nx ny u) r c)) {z y : ℂ} (hz : star z * z = 1) (hy : star y * y = 1)
    {v : Fin (2 * ((nx + 1) * (ny + 1))) → ℂ} (hv : Carried nx ny z y (gridField nx ny v)) (a : Fin 2 → ℂ) :
    star v ⬝ᵥ (A.map Complex.ofReal).mulVec (ofGrid nx ny (planeWave z y a)) =
      star (amplitude nx ny z y (gridField nx ny v)) ⬝ᵥ (waveMat (k.map Complex.ofReal) z y).mulVec a := by
  rw [plate_complex hA, ← wave_form hz hy _ hv]
  refine Finset.sum_congr rfl fun r hr => Finset.sum_congr rfl fun c hc => ?_
  rw [cellOf_ofGrid _ (Finset.mem_range.1 hr) (Finset.mem_range.1 hc)]

theorem triple_dot {n : ℕ} (A : Matrix (Fin n) (Fin n) ℂ) (T : Matrix (Fin n) (Fin M) ℂ) (q' q : Fin M → ℂ) :
    star q' ⬝ᵥ (T.conjTranspose * A * T).mulVec q = star (T.mulVec q') ⬝ᵥ A.mulVec (T.mulVec q) := by
  rw [← Matrix.mulVec_mulVec, ← Matrix.mulVec_mulVec, Matrix.dotProduct_mulVec, ← Matrix.star_mulVec]

theorem eq_of_star_dot {n : ℕ} {x y : Fin n → ℂ} (h : ∀ q : Fin n → ℂ, star q ⬝ᵥ x = star q ⬝ᵥ y) : x = y := by
  funext i
  have := h (Pi.single i 1)
  simpa [dotProduct, Pi.single_apply] using this

/-- A wave of the lattice whose amplitude solves the problem of one cell solves the reduced problem. -/
theorem lattice_wave (hA : ∀ v u, v ⬝ᵥ A.mulVec u = ∑ r ∈ Finset.range ny, ∑ c ∈ Finset.range nx,
      cellOf (gridField nx ny v) r c ⬝ᵥ k.mulVec (cellOf (gridField nx ny u) r c))
    (hB : ∀ v u, v ⬝ᵥ B.mulVec u = ∑ r ∈ Finset.range ny, ∑ c ∈ Finset.range nx,
      cellOf (gridField nx ny v) r c ⬝ᵥ μ.mulVec (cellOf (gridField nx ny u) r c)) {z y : ℂ} (hz : star z * z = 1) (hy : star y * y = 1)
    (hT : ∀ u, (∃ q, T.mulVec q = u) ↔ Carried nx ny z y (gridField nx ny u)) {a : Fin 2 → ℂ} {w : ℂ}
    (ha : (waveMat (k.map Complex.ofReal) z y).mulVec a = w • (waveMat (μ.map Complex.ofReal) z y).mulVec a)
    {q : Fin M → ℂ} (hq : T.mulVec q = ofGrid nx ny (planeWave z y a)) :
    (T.conjTranspose * A.map Complex.ofReal * T).mulVec q = w • (T.conjTranspose * B.map Complex.ofReal * T).mulVec q := by
  refine eq_of_star_dot fun q' => ?_
  have hc := (hT (T.mulVec q')).1 ⟨q', rfl⟩
  rw [dotProduct_smul, triple_dot, triple_dot, hq, wave_vector hA hz hy hc, wave_vector hB hz hy hc, ha, dotProduct_smul]

theorem herm_swap {n : ℕ} {A : Matrix (Fin n) (Fin n) ℂ} (hA : A.conjTranspose = A) (v u : Fin n → ℂ) :
    star (star u ⬝ᵥ A.mulVec v) = star v ⬝ᵥ A.mulVec u := by
  rw [← Matrix.star_dotProduct_star, star_star, Matrix.star_mulVec, hA, ← Matrix.dotProduct_mulVec, dotProduct_comm]

theorem lattice_symm (hA : ∀ v u, v ⬝ᵥ A.mulVec u = ∑ r ∈ Finset.range ny, ∑ c ∈ Finset.range nx,
      cellOf (gridField nx ny v) r c ⬝ᵥ k.mulVec (cellOf (gridField nx ny u) r c)) (sk : k.IsSymm) : A.IsSymm := by
  refine symm_of_form fun v u => ?_
  rw [hA, hA]
  exact Finset.sum_congr rfl fun r _ => Finset.sum_congr rfl fun c _ => quad_form_symm sk _ _

/-- The modes of a lattice are the waves whose amplitude solves the problem of one cell. -/
theorem lattice_modes (hA : ∀ v u, v ⬝ᵥ A.mulVec u = ∑ r ∈ Finset.range ny, ∑ c ∈ Finset.range nx,
      cellOf (gridField nx ny v) r c ⬝ᵥ k.mulVec (cellOf (gridField nx ny u) r c))
    (hB : ∀ v u, v ⬝ᵥ B.mulVec u = ∑ r ∈ Finset.range ny, ∑ c ∈ Finset.range nx,
      cellOf (gridField nx ny v) r c ⬝ᵥ μ.mulVec (cellOf (gridField nx ny u) r c))
    (sk : k.IsSymm) (sμ : μ.IsSymm) (h0x : 0 < nx) (h0y : 0 < ny) {z y : ℕ → ℂ}
    (hz : ∀ m, star (z m) * z m = 1) (hy : ∀ l, star (y l) * y l = 1)
    (iz : Function.Injective fun m : Fin nx => z m) (iy : Function.Injective fun l : Fin ny => y l)
    (hT : ∀ m l u, (∃ q, T.mulVec q = u) ↔ Carried nx ny (z m) (y l) (gridField nx ny u)) (hi : Function.Injective T.mulVec) (w : ℂ) :
    (∃ q, q ≠ 0 ∧ (T.conjTranspose * A.map Complex.ofReal * T).mulVec q = w • (T.conjTranspose * B.map Complex.ofReal * T).mulVec q) ↔
    ∃ m < nx, ∃ l < ny, ∃ a, a ≠ 0 ∧
      (waveMat (k.map Complex.ofReal) (z m) (y l)).mulVec a = w • (waveMat (μ.map Complex.ofReal) (z m) (y l)).mulVec a := by
  constructor
  · rintro ⟨q, hq, he⟩
    have hc := fun m l => (hT m l (T.mulVec q)).1 ⟨q, rfl⟩
    by_cases hall : ∀ m < nx, ∀ l < ny, amplitude nx ny (z m) (y l) (gridField nx ny (T.mulVec q)) = 0
    · exfalso
      have hin : ∀ r < ny, ∀ c < nx, ∀ j, gridField nx ny (T.mulVec q) r c j = 0 := fun r hr c hc' j =>
        amplitude_zero iz iy hall hr hc' j
      have hside : ∀ r < ny, ∀ c ≤ nx, ∀ j, gridField nx ny (T.mulVec q) r c j = 0 := by
        intro r hr c hc' j
        rcases Nat.lt_or_ge c nx with h | h
        · exact hin r hr c h j
        · obtain rfl : c = nx := by omega
          rw [(hc 0 0).1 r hr.le, hin r hr 0 h0x, mul_zero]
      have hfull : ∀ r ≤ ny, ∀ c ≤ nx, ∀ j, gridField nx ny (T.mulVec q) r c j = 0 := by
        intro r hr c hc' j
        rcases Nat.lt_or_ge r ny with h | h
        · exact hside r h c hc' j
        · obtain rfl : r = ny := by omega
          rw [(hc 0 0).2 c hc', hside 0 h0y c hc', mul_zero]
      apply hq
      apply hi
      rw [Matrix.mulVec_zero, ← ofGrid_gridField (T.mulVec q)]
      funext i
      unfold ofGrid
      have : (i : ℕ) / 2 < (nx + 1) * (ny + 1) := by have := i.2; omega
      obtain ⟨r, c, hr, hc', e⟩ := node_split this
      rw [e, nodeNo_div hc', nodeNo_mod hc']
      exact hfull r hr c hc' _
    · push Not at hall
      obtain ⟨m, hm, l, hl, hne⟩ := hall
      refine ⟨m, hm, l, hl, _, hne, ?_⟩
      refine eq_of_star_dot fun a => ?_
      obtain ⟨q', hq'⟩ := (hT m l (ofGrid nx ny (planeWave (z m) (y l) a))).2
        (carriedTo_congr (fun r hr c hc' j => gridField_ofGrid _ hr hc' j) (planeWave_carried nx ny (z m) (y l) a))
      have h1 : star q' ⬝ᵥ (T.conjTranspose * A.map Complex.ofReal * T).mulVec q =
          w * (star q' ⬝ᵥ (T.conjTranspose * B.map Complex.ofReal * T).mulVec q) := by
        rw [he, dotProduct_smul, smul_eq_mul]
      rw [triple_dot, triple_dot, hq', ← herm_swap (map_hermitian (lattice_symm hA sk)), ← herm_swap (map_hermitian (lattice_symm hB sμ)), wave_vector hA (hz m) (hy l) (hc m l),
        wave_vector hB (hz m) (hy l) (hc m l)] at h1
      rw [dotProduct_smul, ← herm_swap (waveMat_hermitian sk _ _), ← herm_swap (waveMat_hermitian sμ _ _), smul_eq_mul]
      exact h1
  · rintro ⟨m, hm, l, hl, a, ha, he⟩
    obtain ⟨q, hq⟩ := (hT m l (ofGrid nx ny (planeWave (z m) (y l) a))).2
      (carriedTo_congr (fun r hr c hc' j => gridField_ofGrid _ hr hc' j) (planeWave_carried nx ny (z m) (y l) a))
    refine ⟨q, ?_, lattice_wave hA hB (hz m) (hy l) (hT m l) he hq⟩
    rintro rfl
    apply ha
    funext j
    have h1 : gridField nx ny (ofGrid nx ny (planeWave (z m) (y l) a)) 0 0 j = 0 := by
      rw [← hq, Matrix.mulVec_zero]
      unfold gridField
      split_ifs <;> rfl
    rw [gridField_ofGrid _ (by omega) (by omega)] at h1
    simpa [planeWave] using h1

end

end SolidsPy
