import Verif.Spec.Bars
import Verif.Props.Invariance
import Verif.Model.Post

/-! # C51, C52: springs and trusses -/

set_option linter.unusedSectionVars false
set_option linter.unusedSimpArgs false
set_option linter.unreachableTactic false
set_option linter.unusedTactic false

namespace SolidsPy
open Spec Fem Uel Matrix

section
variable {K : Type} [Field K] [LinearOrder K] [IsStrictOrderedRing K] {d n : ℕ}

theorem sqrt_unique {sq : K → K} (hs : SqrtFn sq) {x L : K} (hL : 0 ≤ L) (h : L * L = x) : sq x = L := by
  have hx : 0 ≤ x := h ▸ mul_self_nonneg L
  obtain ⟨h1, h2⟩ := hs x hx
  exact (mul_self_inj h1 hL).1 (h2.trans h.symm)

theorem sqrt_pos {sq : K → K} (hs : SqrtFn sq) {x : K} (hx : 0 < x) : 0 < sq x := by
  obtain ⟨h1, h2⟩ := hs x hx.le
  rcases h1.lt_or_eq with h | h
  · exact h
  · rw [← h, mul_zero] at h2
    exact absurd h2 hx.ne

theorem exists_length {sq : K → K} (hs : SqrtFn sq) {X : Matrix (Fin 2) (Fin 2) K} (h : X 0 ≠ X 1) :
    ∃ L, IsLength X L := by
  have hpos : 0 < (X 1 0 - X 0 0) ^ 2 + (X 1 1 - X 0 1) ^ 2 := by
    by_contra hc
    have h0 : X 1 0 - X 0 0 = 0 := by
      nlinarith [sq_nonneg (X 1 0 - X 0 0), sq_nonneg (X 1 1 - X 0 1)]
    have h1 : X 1 1 - X 0 1 = 0 := by
      nlinarith [sq_nonneg (X 1 0 - X 0 0), sq_nonneg (X 1 1 - X 0 1)]
    apply h
    funext i
    fin_cases i
    · exact (sub_eq_zero.1 h0).symm
    · exact (sub_eq_zero.1 h1).symm
  exact ⟨_, sqrt_pos hs hpos, (hs _ hpos.le).2⟩

/-- Direction of a bar with two rows of coordinates, the norm taken over all columns. -/
theorem barGeom_rows (sq : K → K) (a0 a1 b0 b1 : K) (ar br : List K) :
    barGeom sq [a0 :: a1 :: ar, b0 :: b1 :: br] =
      (let L := sq ((b0 - a0) * (b0 - a0) + ((b1 - a1) * (b1 - a1) +
        ((List.zipWith (· - ·) br ar).map fun x => x * x).sum))
       if L = 0 then .error .nonFinite else .ok ((b0 - a0) / L, (b1 - a1) / L, L)) := by
  unfold barGeom
  have h1 : barVec [a0 :: a1 :: ar, b0 :: b1 :: br] =
      .ok ((b0 - a0) :: (b1 - a1) :: List.zipWith (· - ·) br ar) := rfl
  rw [h1]
  dsimp only [bind, Except.bind]
  have h2 : ∀ l : List K, pyGet ((b0 - a0) :: (b1 - a1) :: l) 0 = .ok (b0 - a0) := by
    intro l
    exact pyGet_zero.2 rfl
  have h3 : ∀ l : List K, pyGet ((b0 - a0) :: (b1 - a1) :: l) 1 = .ok (b1 - a1) := by
    intro l
    exact pyGet_one.2 rfl
  rw [h2, h3]
  simp only [Uel.norm, List.map_cons, List.sum_cons, pyDiv]
  generalize sq _ = L
  by_cases hL : L = 0
  · simp [hL]
  · simp only [if_neg hL]
    rfl

theorem matRows_two (X : Matrix (Fin 2) (Fin 2) K) : matRows X = [[X 0 0, X 0 1], [X 1 0, X 1 1]] := by
  simp [matRows, List.ofFn_succ]

theorem barGeom_length {sq : K → K} (hs : SqrtFn sq) {X : Matrix (Fin 2) (Fin 2) K} {L : K}
    (hL : IsLength X L) :
    barGeom sq (matRows X) = .ok ((X 1 0 - X 0 0) / L, (X 1 1 - X 0 1) / L, L) := by
  have h : sq ((X 1 0 - X 0 0) * (X 1 0 - X 0 0) + ((X 1 1 - X 0 1) * (X 1 1 - X 0 1) + 0)) = L :=
    sqrt_unique hs hL.1.le (by rw [hL.2]; ring)
  rw [matRows_two, barGeom_rows]
  simp only [List.zipWith_nil_left, List.map_nil, List.sum_nil, h]
  rw [if_neg hL.1.ne']

theorem barGeom_zero {sq : K → K} (hs : SqrtFn sq) {X : Matrix (Fin 2) (Fin 2) K} (h : X 0 = X 1) :
    barGeom sq (matRows X) = .error .nonFinite := by
  have h0 : sq 0 = 0 := sqrt_unique hs le_rfl (mul_zero 0)
  rw [matRows_two, barGeom_rows, h]
  simp [h0]

theorem holds_mat {M : Matrix (Fin (n * d)) (Fin (n * d)) K}
    {k : Matrix (Fin n × Fin d) (Fin n × Fin d) K} :
    Holds (NdArr.mat (n * d) (n * d) M) k ↔ k = M.submatrix finProdFinEquiv finProdFinEquiv := by
  have h := holds_ofBlocks (M := M.submatrix finProdFinEquiv finProdFinEquiv) (M' := k)
  have e : NdArr.ofBlocks (M.submatrix finProdFinEquiv finProdFinEquiv) =
      NdArr.mat (n * d) (n * d) M := by
    unfold NdArr.ofBlocks
    congr 1
    funext i j
    rw [Matrix.submatrix_apply, Equiv.apply_symm_apply, Equiv.apply_symm_apply]
  rw [← e, h]

/-- The direction of the bar at its ends, outwards. -/
def outward (X : Matrix (Fin 2) (Fin 2) K) (L : K) : Fin 2 × Fin 2 → K := pull X L 1

theorem elongation_eq (X : Matrix (Fin 2) (Fin 2) K) (L : K) (u : Fin 2 × Fin 2 → K) :
    elongation X L u = outward X L ⬝ᵥ u := by
  simp [elongation, outward, pull, dotProduct, Fintype.sum_prod_type, Fin.sum_univ_two]
  ring

/-- Stiffness of a bar. -/
def barK (s : K) (b : Fin 2 × Fin 2 → K) : Matrix (Fin 2 × Fin 2) (Fin 2 × Fin 2) K :=
  Matrix.of fun p q => s * (b p * b q)

/-- Consistent mass of a bar of total mass `M`. -/
def barM (M : K) : Matrix (Fin 2 × Fin 2) (Fin 2 × Fin 2) K :=
  Matrix.of fun p q => if p.2 = q.2 then (if p.1 = q.1 then M / 3 else M / 6) else 0

theorem barK_mulVec (s : K) (b u : Fin 2 × Fin 2 → K) (p) :
    (barK s b).mulVec u p = s * (b ⬝ᵥ u) * b p := by
  simp only [barK, Matrix.mulVec, dotProduct, Matrix.of_apply, Finset.mul_sum, Finset.sum_mul]
  exact Finset.sum_congr rfl fun q _ => by ring

theorem barM_form (M : K) (v u : Fin 2 × Fin 2 → K) : v ⬝ᵥ (barM M).mulVec u =
    M / 6 * (2 * ∑ i, v (0, i) * u (0, i) + ∑ i, v (0, i) * u (1, i) + ∑ i, v (1, i) * u (0, i) +
      2 * ∑ i, v (1, i) * u (1, i)) := by
  simp only [barM, Matrix.mulVec, dotProduct, Fintype.sum_prod_type, Fin.sum_univ_two, Matrix.of_apply]
  simp
  ring

theorem trussStiff_block (X : Matrix (Fin 2) (Fin 2) K) (L s : K) :
    (trussStiff ((X 1 0 - X 0 0) / L) ((X 1 1 - X 0 1) / L) s).submatrix
      (finProdFinEquiv : Fin 2 × Fin 2 ≃ Fin (2 * 2)) finProdFinEquiv = barK s (outward X L) := by
  ext ⟨a, i⟩ ⟨b, j⟩
  rw [Matrix.submatrix_apply, trussStiff, Matrix.mul_apply, Fin.sum_univ_two, Matrix.mul_apply,
    Matrix.mul_apply, Fin.sum_univ_two, Fin.sum_univ_two]
  fin_cases a <;> fin_cases i <;> fin_cases b <;> fin_cases j <;>
    simp [barQ, barK, outward, pull, finProdFinEquiv] <;> ring

theorem trussMass_block (M : K) :
    (trussMass M).submatrix (finProdFinEquiv : Fin 2 × Fin 2 ≃ Fin (2 * 2)) finProdFinEquiv = barM M := by
  ext ⟨a, i⟩ ⟨b, j⟩
  fin_cases a <;> fin_cases i <;> fin_cases b <;> fin_cases j <;>
    simp [trussMass, barM, finProdFinEquiv] <;> ring

theorem truss_ok {sq : K → K} (hs : SqrtFn sq) {X : Matrix (Fin 2) (Fin 2) K} {L : K}
    (hL : IsLength X L) (E A : K) (rest : List K) :
    truss2D sq (matRows X) (E :: A :: rest) =
      .ok (NdArr.mat 4 4 (trussStiff ((X 1 0 - X 0 0) / L) ((X 1 1 - X 0 1) / L) (A * E / L)),
        NdArr.mat 4 4 (trussMass (A * L * density rest))) := by
  unfold truss2D
  rw [barGeom_length hs hL]
  dsimp only [bind, Except.bind]
  have h1 : (E :: A :: rest).take 2 = [E, A] := rfl
  rw [h1]
  dsimp only
  have h2 := densOf_eq E A rest
  unfold densOf at h2
  simp only [pyDiv, if_neg hL.1.ne']
  split at h2
  · rename_i hl
    rw [if_pos hl, ← Except.ok.inj h2, lit_one]
    rfl
  · rename_i hl
    rw [if_neg hl, h2]
    rfl

/-- What `truss2D` returns. -/
theorem truss_returns {sq : K → K} (hs : SqrtFn sq) {X : Matrix (Fin 2) (Fin 2) K} {L : K}
    (hL : IsLength X L) {E A : K} {rest : List K} {k m} :
    Returns (truss2D sq) X (E :: A :: rest) k m ↔
      k = barK (A * E / L) (outward X L) ∧ m = barM (A * L * density rest) := by
  unfold Returns
  rw [truss_ok hs hL, ← trussStiff_block, ← trussMass_block]
  constructor
  · rintro ⟨A', B', h, h1, h2⟩
    rw [Except.ok.injEq, Prod.mk.injEq] at h
    obtain ⟨rfl, rfl⟩ := h
    exact ⟨(holds_mat (n := 2) (d := 2)).1 h1, (holds_mat (n := 2) (d := 2)).1 h2⟩
  · rintro ⟨rfl, rfl⟩
    exact ⟨_, _, rfl, (holds_mat (n := 2) (d := 2)).2 rfl, (holds_mat (n := 2) (d := 2)).2 rfl⟩

/-! ## C51 -/

/-- The truss routine works exactly on bars of non-zero length, given at least two parameters. -/
theorem C51_accepts_iff {sq : K → K} (hs : SqrtFn sq) (X : Matrix (Fin 2) (Fin 2) K) (params : List K) :
    (∃ k m, Returns (truss2D sq) X params k m) ↔ X 0 ≠ X 1 ∧ 2 ≤ params.length := by
  constructor
  · rintro ⟨k, m, A, B, h, -, -⟩
    constructor
    · intro h0
      unfold truss2D at h
      rw [barGeom_zero hs h0] at h
      simp at h
    · by_contra hc
      unfold truss2D at h
      obtain ⟨g, -, h⟩ := bind_ok.1 h
      match params, hc, h with
      | [], _, h => simp at h
      | [_], _, h => simp at h
      | _ :: _ :: _, hc, _ => simp at hc
  · rintro ⟨h0, h1⟩
    obtain ⟨L, hL⟩ := exists_length hs h0
    match params, h1 with
    | E :: A :: rest, _ => exact ⟨_, _, (truss_returns hs hL).2 ⟨rfl, rfl⟩⟩

/-- C51.  The nodal forces are a pull along the bar of magnitude `E A / L` times the elongation. -/
theorem C51_force {sq : K → K} (hs : SqrtFn sq) {X : Matrix (Fin 2) (Fin 2) K} {L : K}
    (hL : IsLength X L) {E A : K} {rest : List K} {k m}
    (h : Returns (truss2D sq) X (E :: A :: rest) k m) (u : Fin 2 × Fin 2 → K) :
    k.mulVec u = pull X L (E * A / L * elongation X L u) := by
  obtain ⟨rfl, rfl⟩ := (truss_returns hs hL).1 h
  funext p
  rw [barK_mulVec, elongation_eq]
  obtain ⟨a, i⟩ := p
  fin_cases a <;> simp only [outward, pull] <;> ring

theorem truss_energy (s : K) (b v u : Fin 2 × Fin 2 → K) :
    v ⬝ᵥ (barK s b).mulVec u = s * (b ⬝ᵥ v) * (b ⬝ᵥ u) := by
  have : (barK s b).mulVec u = (s * (b ⬝ᵥ u)) • b := by
    funext p
    rw [barK_mulVec]
    rfl
  rw [this, dotProduct_smul, dotProduct_comm v b, smul_eq_mul]
  ring

/-- C38, C51.  Stiffness and mass of a truss are symmetric. -/
theorem C51_symmetric {sq : K → K} (hs : SqrtFn sq) {X : Matrix (Fin 2) (Fin 2) K} {params : List K} {k m}
    (h : Returns (truss2D sq) X params k m) : k.IsSymm ∧ m.IsSymm := by
  obtain ⟨h0, h1⟩ := (C51_accepts_iff hs X params).1 ⟨k, m, h⟩
  obtain ⟨L, hL⟩ := exists_length hs h0
  match params, h1, h with
  | E :: A :: rest, _, h =>
    obtain ⟨rfl, rfl⟩ := (truss_returns hs hL).1 h
    constructor
    · ext p q
      simp [barK, mul_comm]
    · ext p q
      simp [barM, eq_comm]

/-- C51.  The strain energy is `E A / L` times the square of the elongation. -/
theorem C51_energy {sq : K → K} (hs : SqrtFn sq) {X : Matrix (Fin 2) (Fin 2) K} {L : K}
    (hL : IsLength X L) {E A : K} {rest : List K} {k m}
    (h : Returns (truss2D sq) X (E :: A :: rest) k m) (u : Fin 2 × Fin 2 → K) :
    u ⬝ᵥ k.mulVec u = E * A / L * elongation X L u ^ 2 := by
  obtain ⟨rfl, rfl⟩ := (truss_returns hs hL).1 h
  rw [truss_energy, elongation_eq]
  ring

/-- C39, C51.  Both matrices are semidefinite for non-negative `E A` and mass. -/
theorem C51_semidefinite {sq : K → K} (hs : SqrtFn sq) {X : Matrix (Fin 2) (Fin 2) K} {E A : K}
    {rest : List K} {k m} (h : Returns (truss2D sq) X (E :: A :: rest) k m) (u : Fin 2 × Fin 2 → K) :
    (0 ≤ E * A → 0 ≤ u ⬝ᵥ k.mulVec u) ∧ (0 ≤ A * density rest → 0 ≤ u ⬝ᵥ m.mulVec u) := by
  obtain ⟨h0, h1⟩ := (C51_accepts_iff hs X _).1 ⟨k, m, h⟩
  obtain ⟨L, hL⟩ := exists_length hs h0
  refine ⟨fun hE => ?_, fun hA => ?_⟩
  · rw [C51_energy hs hL h]
    exact mul_nonneg (div_nonneg hE hL.1.le) (sq_nonneg _)
  · obtain ⟨rfl, rfl⟩ := (truss_returns hs hL).1 h
    have e : u ⬝ᵥ (barM (A * L * density rest)).mulVec u = A * density rest * L / 6 *
        ((u (0, 0) + u (1, 0)) ^ 2 + u (0, 0) ^ 2 + u (1, 0) ^ 2 +
        ((u (0, 1) + u (1, 1)) ^ 2 + u (0, 1) ^ 2 + u (1, 1) ^ 2)) := by
      simp only [barM, Matrix.mulVec, dotProduct, Fintype.sum_prod_type, Fin.sum_univ_two, Matrix.of_apply]
      simp
      ring
    rw [e]
    have hL0 := hL.1
    positivity

/-- C40, C51.  Rigid motions cause no nodal forces. -/
theorem C51_rigid {sq : K → K} (hs : SqrtFn sq) {X : Matrix (Fin 2) (Fin 2) K} {params : List K} {k m}
    (h : Returns (truss2D sq) X params k m) (c : Fin 2 → K) {G : Matrix (Fin 2) (Fin 2) K} (hG : Skew G) :
    k.mulVec (sample X (affine c G)) = 0 := by
  obtain ⟨h0, h1⟩ := (C51_accepts_iff hs X params).1 ⟨k, m, h⟩
  obtain ⟨L, hL⟩ := exists_length hs h0
  match params, h1, h with
  | E :: A :: rest, _, h =>
    have he : elongation X L (sample X (affine c G)) = 0 := by
      unfold elongation
      rw [div_eq_zero_iff]
      left
      simp only [sample, affine, Fin.sum_univ_two, skew_diag hG, hG 1 0]
      ring
    rw [C51_force hs hL h, he]
    funext ⟨a, i⟩
    fin_cases a <;> simp [pull]

/-- C51.  The fields without nodal forces are exactly those without elongation. -/
theorem C51_null_space {sq : K → K} (hs : SqrtFn sq) {X : Matrix (Fin 2) (Fin 2) K} {L : K}
    (hL : IsLength X L) {E A : K} (hEA : E * A ≠ 0) {rest : List K} {k m}
    (h : Returns (truss2D sq) X (E :: A :: rest) k m) (u : Fin 2 × Fin 2 → K) :
    k.mulVec u = 0 ↔ elongation X L u = 0 := by
  constructor
  · intro hk
    have := C51_energy hs hL h u
    rw [hk, dotProduct_zero, eq_comm, mul_eq_zero] at this
    rcases this with h1 | h1
    · rw [div_eq_zero_iff] at h1
      rcases h1 with h1 | h1
      · exact absurd h1 hEA
      · exact absurd h1 hL.1.ne'
    · exact pow_eq_zero_iff (two_ne_zero) |>.1 h1
  · intro he
    rw [C51_force hs hL h, he]
    funext ⟨a, i⟩
    fin_cases a <;> simp [pull]

/-- C43, C51.  The mass of a translation is density times area times length. -/
theorem C51_mass {sq : K → K} (hs : SqrtFn sq) {X : Matrix (Fin 2) (Fin 2) K} {L : K}
    (hL : IsLength X L) {E A : K} {rest : List K} {k m}
    (h : Returns (truss2D sq) X (E :: A :: rest) k m) (i j : Fin 2) :
    ∑ a, ∑ b, m (a, i) (b, j) = if i = j then density rest * (A * L) else 0 := by
  obtain ⟨rfl, rfl⟩ := (truss_returns hs hL).1 h
  simp only [barM, Fin.sum_univ_two, Matrix.of_apply]
  split
  · simp
    ring
  · simp

/-- C44.  Moving a truss does not change its matrices. -/
theorem C44_truss {sq : K → K} (hs : SqrtFn sq) {X : Matrix (Fin 2) (Fin 2) K} {params : List K} {k m}
    (h : Returns (truss2D sq) X params k m) (t : Fin 2 → K) :
    Returns (truss2D sq) (shifted X t) params k m := by
  obtain ⟨h0, h1⟩ := (C51_accepts_iff hs X params).1 ⟨k, m, h⟩
  obtain ⟨L, hL⟩ := exists_length hs h0
  match params, h1, h with
  | E :: A :: rest, _, h =>
    have hL' : IsLength (shifted X t) L := by
      refine ⟨hL.1, ?_⟩
      simp only [shifted, Matrix.of_apply, add_sub_add_right_eq_sub]
      exact hL.2
    have ho : outward (shifted X t) L = outward X L := by
      funext ⟨a, i⟩
      fin_cases a <;> simp [outward, pull, shifted]
    obtain ⟨rfl, rfl⟩ := (truss_returns hs hL).1 h
    exact (truss_returns hs hL').2 ⟨by rw [ho], rfl⟩

/-- C45.  Turning a truss turns its matrices. -/
theorem C45_truss_rotation {sq : K → K} (hs : SqrtFn sq) {X : Matrix (Fin 2) (Fin 2) K} {params : List K}
    {k m} (h : Returns (truss2D sq) X params k m) {Q : Matrix (Fin 2) (Fin 2) K}
    (hQ : Q.transpose * Q = 1) :
    Returns (truss2D sq) (X * Q.transpose) params (turn 2 Q * k * (turn 2 Q).transpose)
      (turn 2 Q * m * (turn 2 Q).transpose) := by
  obtain ⟨h0, h1⟩ := (C51_accepts_iff hs X params).1 ⟨k, m, h⟩
  obtain ⟨L, hL⟩ := exists_length hs h0
  match params, h1, h with
  | E :: A :: rest, _, h =>
    have q00 : Q 0 0 * Q 0 0 + Q 1 0 * Q 1 0 = 1 := by
      simpa [Matrix.mul_apply, Fin.sum_univ_two] using congrFun₂ hQ 0 0
    have q11 : Q 0 1 * Q 0 1 + Q 1 1 * Q 1 1 = 1 := by
      simpa [Matrix.mul_apply, Fin.sum_univ_two] using congrFun₂ hQ 1 1
    have q01 : Q 0 0 * Q 0 1 + Q 1 0 * Q 1 1 = 0 := by
      simpa [Matrix.mul_apply, Fin.sum_univ_two] using congrFun₂ hQ 0 1
    have hL' : IsLength (X * Q.transpose) L := by
      refine ⟨hL.1, ?_⟩
      rw [hL.2]
      simp only [Matrix.mul_apply, Fin.sum_univ_two, Matrix.transpose_apply]
      linear_combination (-(X 1 0 - X 0 0) ^ 2) * q00 - (X 1 1 - X 0 1) ^ 2 * q11 -
        2 * (X 1 0 - X 0 0) * (X 1 1 - X 0 1) * q01
    have ho : outward (X * Q.transpose) L = (turn 2 Q).mulVec (outward X L) := by
      funext ⟨a, i⟩
      rw [turn_mulVec]
      fin_cases a <;> simp [outward, pull, Matrix.mul_apply, Fin.sum_univ_two] <;> ring
    have hQ' : Q * Q.transpose = 1 := mul_eq_one_comm.1 hQ
    obtain ⟨rfl, rfl⟩ := (truss_returns hs hL).1 h
    refine (truss_returns hs hL').2 ⟨?_, ?_⟩
    · apply form_ext
      intro v u
      rw [conj_form, truss_energy, truss_energy, ho]
      have e : ∀ w, outward X L ⬝ᵥ (turn 2 Q).transpose.mulVec w = (turn 2 Q).mulVec (outward X L) ⬝ᵥ w := by
        intro w
        rw [dotProduct_mulVec, vecMul_transpose]
      rw [e, e]
    · apply form_ext
      intro v u
      rw [conj_form, barM_form, barM_form]
      have e00 : Q 0 0 * Q 0 0 + Q 0 1 * Q 0 1 = 1 := by
        simpa [Matrix.mul_apply, Fin.sum_univ_two] using congrFun₂ hQ' 0 0
      have e11 : Q 1 0 * Q 1 0 + Q 1 1 * Q 1 1 = 1 := by
        simpa [Matrix.mul_apply, Fin.sum_univ_two] using congrFun₂ hQ' 1 1
      have e01 : Q 0 0 * Q 1 0 + Q 0 1 * Q 1 1 = 0 := by
        simpa [Matrix.mul_apply, Fin.sum_univ_two] using congrFun₂ hQ' 0 1
      have e : ∀ (a b : Fin 2), ∑ i, (turn 2 Q).transpose.mulVec v (a, i) * (turn 2 Q).transpose.mulVec u (b, i) =
          ∑ i, v (a, i) * u (b, i) := by
        intro a b
        simp only [turn_transpose, turn_mulVec, Fin.sum_univ_two, Matrix.transpose_apply]
        linear_combination (v (a, 0) * u (b, 0)) * e00 + (v (a, 1) * u (b, 1)) * e11 +
          (v (a, 0) * u (b, 1) + v (a, 1) * u (b, 0)) * e01
      simp only [e]

/-! ## C52 -/

/-- C52.  Swapping the nodes of a truss swaps the blocks of its matrices. -/
theorem C52_truss {sq : K → K} (hs : SqrtFn sq) {X : Matrix (Fin 2) (Fin 2) K} {params : List K} {k m}
    (h : Returns (truss2D sq) X params k m) :
    Returns (truss2D sq) (fun a => X (other a)) params (fun p q => k (other p.1, p.2) (other q.1, q.2))
      (fun p q => m (other p.1, p.2) (other q.1, q.2)) := by
  obtain ⟨h0, h1⟩ := (C51_accepts_iff hs X params).1 ⟨k, m, h⟩
  obtain ⟨L, hL⟩ := exists_length hs h0
  match params, h1, h with
  | E :: A :: rest, _, h =>
    have hL' : IsLength (fun a => X (other a)) L := by
      refine ⟨hL.1, ?_⟩
      rw [hL.2]
      simp [other]
      ring
    obtain ⟨rfl, rfl⟩ := (truss_returns hs hL).1 h
    refine (truss_returns hs hL').2 ⟨?_, ?_⟩
    · funext ⟨a, i⟩ ⟨b, j⟩
      fin_cases a <;> fin_cases b <;> simp only [barK, outward, pull, other, Matrix.of_apply] <;> simp <;>
        first | done | (left; ring1)
    · funext ⟨a, i⟩ ⟨b, j⟩
      fin_cases a <;> fin_cases b <;> simp [barM, other]

end

end SolidsPy
