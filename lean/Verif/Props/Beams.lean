import Verif.Props.Springs
import Mathlib.Algebra.Polynomial.Derivative
import Mathlib.Tactic.Positivity

/-! # C56 - C58: beams -/

set_option linter.unusedSectionVars false
set_option linter.unusedSimpArgs false
set_option linter.unreachableTactic false
set_option linter.unusedTactic false

namespace SolidsPy
open Spec Fem Uel Matrix

section
variable {K : Type} [Field K] [LinearOrder K] [IsStrictOrderedRing K]

/-- `beamUQ` with its columns indexed by (node, component). -/
def frameU (nx ny : K) : Matrix (Fin 4) (Fin 2 × Fin 3) K := (beamUQ nx ny).submatrix id finProdFinEquiv

/-- `beamQ` with its columns indexed by (node, component). -/
def frame (nx ny : K) : Matrix (Fin 6) (Fin 2 × Fin 3) K := (beamQ nx ny).submatrix id finProdFinEquiv

theorem frameU_mulVec (nx ny : K) (u : Fin 2 × Fin 3 → K) : (frameU nx ny).mulVec u =
    ![ny * u (0, 0) + nx * u (0, 1), u (0, 2), ny * u (1, 0) + nx * u (1, 1), u (1, 2)] := by
  funext r
  simp only [Matrix.mulVec, dotProduct, Fintype.sum_prod_type, Fin.sum_univ_two, Fin.sum_univ_three]
  fin_cases r <;> simp [frameU, beamUQ, finProdFinEquiv]

theorem frame_mulVec (nx ny : K) (u : Fin 2 × Fin 3 → K) : (frame nx ny).mulVec u =
    ![nx * u (0, 0) - ny * u (0, 1), ny * u (0, 0) + nx * u (0, 1), u (0, 2),
      nx * u (1, 0) - ny * u (1, 1), ny * u (1, 0) + nx * u (1, 1), u (1, 2)] := by
  funext r
  simp only [Matrix.mulVec, dotProduct, Fintype.sum_prod_type, Fin.sum_univ_two, Fin.sum_univ_three]
  fin_cases r <;> simp [frame, beamQ, finProdFinEquiv] <;> ring

theorem frameU_transpose (nx ny : K) (f : Fin 4 → K) : (frameU nx ny).transpose.mulVec f =
    fun p => (!![ny * f 0, nx * f 0, f 1; ny * f 2, nx * f 2, f 3] : Matrix (Fin 2) (Fin 3) K) p.1 p.2 := by
  funext ⟨a, i⟩
  simp only [Matrix.mulVec, dotProduct, Fin.sum_univ_four, Matrix.transpose_apply]
  fin_cases a <;> fin_cases i <;> simp [frameU, beamUQ, finProdFinEquiv]

theorem frame_transpose (nx ny : K) (f : Fin 6 → K) : (frame nx ny).transpose.mulVec f =
    fun p => (!![nx * f 0 + ny * f 1, nx * f 1 - ny * f 0, f 2;
      nx * f 3 + ny * f 4, nx * f 4 - ny * f 3, f 5] : Matrix (Fin 2) (Fin 3) K) p.1 p.2 := by
  funext ⟨a, i⟩
  simp only [Matrix.mulVec, dotProduct, Fin.sum_univ_six, Matrix.transpose_apply]
  fin_cases a <;> fin_cases i <;> simp [frame, beamQ, finProdFinEquiv] <;> ring

theorem coreU_mulVec (b L : K) (q : Fin 4 → K) : (beamUCore b L).mulVec q =
    ![b * (12 * (q 0 - q 2) + 6 * L * (q 1 + q 3)),
      b * L * (6 * (q 0 - q 2) + L * (4 * q 1 + 2 * q 3)),
      -(b * (12 * (q 0 - q 2) + 6 * L * (q 1 + q 3))),
      b * L * (6 * (q 0 - q 2) + L * (2 * q 1 + 4 * q 3))] := by
  funext r
  simp only [Matrix.mulVec, dotProduct, Fin.sum_univ_four]
  fin_cases r <;> simp [beamUCore] <;> ring

theorem core_mulVec (b ρ L : K) (q : Fin 6 → K) : (beamCore b ρ L).mulVec q =
    ![b * ρ * L ^ 2 * (q 0 - q 3),
      b * (12 * (q 1 - q 4) + 6 * L * (q 2 + q 5)),
      b * L * (6 * (q 1 - q 4) + L * (4 * q 2 + 2 * q 5)),
      -(b * ρ * L ^ 2 * (q 0 - q 3)),
      -(b * (12 * (q 1 - q 4) + 6 * L * (q 2 + q 5))),
      b * L * (6 * (q 1 - q 4) + L * (2 * q 2 + 4 * q 5))] := by
  funext r
  simp only [Matrix.mulVec, dotProduct, Fin.sum_univ_six]
  fin_cases r <;> simp [beamCore] <;> ring

theorem massU_mulVec (M L : K) (q : Fin 4 → K) : (beamUMassCore M L).mulVec q =
    ![M / 420 * (156 * q 0 + 22 * L * q 1 + 54 * q 2 - 13 * L * q 3),
      M / 420 * (22 * L * q 0 + 4 * L ^ 2 * q 1 + 13 * L * q 2 - 3 * L ^ 2 * q 3),
      M / 420 * (54 * q 0 + 13 * L * q 1 + 156 * q 2 - 22 * L * q 3),
      M / 420 * (-13 * L * q 0 - 3 * L ^ 2 * q 1 - 22 * L * q 2 + 4 * L ^ 2 * q 3)] := by
  funext r
  simp only [Matrix.mulVec, dotProduct, Fin.sum_univ_four]
  fin_cases r <;> simp [beamUMassCore] <;> ring

theorem mass_mulVec (M L : K) (q : Fin 6 → K) : ((M / 420) • beamMassArr L).mulVec q =
    ![M / 420 * (140 * q 0 + 70 * q 3),
      M / 420 * (156 * q 1 + 22 * L * q 2 + 54 * q 4 - 13 * L * q 5),
      M / 420 * (22 * L * q 1 + 4 * L ^ 2 * q 2 + 13 * L * q 4 - 3 * L ^ 2 * q 5),
      M / 420 * (70 * q 0 + 140 * q 3),
      M / 420 * (54 * q 1 + 13 * L * q 2 + 156 * q 4 - 22 * L * q 5),
      M / 420 * (-13 * L * q 1 - 3 * L ^ 2 * q 2 - 22 * L * q 4 + 4 * L ^ 2 * q 5)] := by
  funext r
  simp only [Matrix.mulVec, dotProduct, Fin.sum_univ_six]
  fin_cases r <;> simp [beamMassArr] <;> ring

theorem coreU_symm (b L : K) : (beamUCore b L).IsSymm := by
  ext i j
  fin_cases i <;> fin_cases j <;> simp [beamUCore]

theorem massU_symm (b L : K) : (beamUMassCore b L).IsSymm := by
  ext i j
  fin_cases i <;> fin_cases j <;> simp [beamUMassCore]

theorem core_symm (b ρ L : K) : (beamCore b ρ L).IsSymm := by
  ext i j
  fin_cases i <;> fin_cases j <;> simp [beamCore]

theorem massArr_symm (L : K) : (beamMassArr L).IsSymm := by
  ext i j
  fin_cases i <;> fin_cases j <;> simp [beamMassArr]

variable {m n : Type} [Fintype m] [Fintype n]

theorem triple_symm {Q : Matrix m n K} {C : Matrix m m K} (h : C.IsSymm) : (Q.transpose * C * Q).IsSymm := by
  unfold Matrix.IsSymm at *
  rw [Matrix.transpose_mul, Matrix.transpose_mul, Matrix.transpose_transpose, h, Matrix.mul_assoc]

theorem triple_mulVec (Q : Matrix m n K) (C : Matrix m m K) (u : n → K) :
    (Q.transpose * C * Q).mulVec u = Q.transpose.mulVec (C.mulVec (Q.mulVec u)) := by
  rw [← Matrix.mulVec_mulVec, ← Matrix.mulVec_mulVec]

theorem triple_form (Q : Matrix m n K) (C : Matrix m m K) (v u : n → K) :
    v ⬝ᵥ (Q.transpose * C * Q).mulVec u = Q.mulVec v ⬝ᵥ C.mulVec (Q.mulVec u) := by
  rw [triple_mulVec, Matrix.mulVec_transpose, dotProduct_comm, ← Matrix.dotProduct_mulVec, dotProduct_comm]

/-! What the routines return. -/

theorem beamU_ok {sq : K → K} (hs : SqrtFn sq) {X : Matrix (Fin 2) (Fin 2) K} {L : K}
    (hL : IsLength X L) {params : List K} {E I μ : K} (hp : BeamUParams params E I μ) :
    beam2DU sq (matRows X) params =
      .ok (NdArr.mat 6 6 ((beamUQ ((X 1 0 - X 0 0) / L) ((X 1 1 - X 0 1) / L)).transpose *
          beamUCore (I * E / L ^ 3) L * beamUQ ((X 1 0 - X 0 0) / L) ((X 1 1 - X 0 1) / L)),
        NdArr.mat 6 6 ((beamUQ ((X 1 0 - X 0 0) / L) ((X 1 1 - X 0 1) / L)).transpose *
          beamUMassCore (μ * L) L * beamUQ ((X 1 0 - X 0 0) / L) ((X 1 1 - X 0 1) / L))) := by
  have h3 : L ^ 3 ≠ 0 := pow_ne_zero 3 hL.1.ne'
  unfold beam2DU
  rw [barGeom_length hs hL, ok_bind]
  rcases hp with ⟨rfl, rfl⟩ | ⟨ρ, A, rfl, rfl⟩
  · simp [pyDiv, h3, lit_one]
  · simp only [List.take_succ_cons, List.take_zero, pyDiv, if_neg h3]
    simp only [bind, Except.bind, pure, Except.pure]
    simp
    rw [mul_comm A L, mul_assoc, mul_comm A ρ, mul_comm L]

theorem beam_ok {sq : K → K} (hs : SqrtFn sq) {X : Matrix (Fin 2) (Fin 2) K} {L : K}
    (hL : IsLength X L) {params : List K} {E I A μ : K} (hp : BeamParams params E I A μ) :
    beam2D sq (matRows X) params =
      .ok (NdArr.mat 6 6 ((beamQ ((X 1 0 - X 0 0) / L) ((X 1 1 - X 0 1) / L)).transpose *
          beamCore (I * E / L ^ 3) (A / I) L * beamQ ((X 1 0 - X 0 0) / L) ((X 1 1 - X 0 1) / L)),
        NdArr.mat 6 6 ((beamQ ((X 1 0 - X 0 0) / L) ((X 1 1 - X 0 1) / L)).transpose *
          ((μ * L / 420) • beamMassArr L) * beamQ ((X 1 0 - X 0 0) / L) ((X 1 1 - X 0 1) / L))) := by
  have h3 : L ^ 3 ≠ 0 := pow_ne_zero 3 hL.1.ne'
  unfold beam2D
  rw [barGeom_length hs hL, ok_bind]
  obtain ⟨hI, ⟨rfl, rfl⟩ | ⟨ρ, rfl, rfl⟩⟩ := hp
  · simp [pyDiv, h3, hI, lit_one, beamMassCore]
  · simp [pyDiv, h3, hI, lit_one, beamMassCore]
    rw [mul_comm A L, mul_assoc, mul_comm A ρ, mul_comm L]

theorem beam_nine {sq : K → K} (hs : SqrtFn sq) {X : Matrix (Fin 2) (Fin 2) K} {L : K}
    (hL : IsLength X L) {I : K} (hI : I ≠ 0) (E A d0 d1 d2 d3 d4 d5 : K) :
    beam2D sq (matRows X) [E, I, A, d0, d1, d2, d3, d4, d5] =
      .ok (NdArr.mat 6 6 ((beamQ ((X 1 0 - X 0 0) / L) ((X 1 1 - X 0 1) / L)).transpose *
          beamCore (I * E / L ^ 3) (A / I) L * beamQ ((X 1 0 - X 0 0) / L) ((X 1 1 - X 0 1) / L)),
        NdArr.mat 6 6 ((beamQ ((X 1 0 - X 0 0) / L) ((X 1 1 - X 0 1) / L)).transpose *
          (Matrix.of fun i j => (A * L * ![d0, d1, d2, d3, d4, d5] j / 420) * beamMassArr L i j) *
          beamQ ((X 1 0 - X 0 0) / L) ((X 1 1 - X 0 1) / L))) := by
  have h3 : L ^ 3 ≠ 0 := pow_ne_zero 3 hL.1.ne'
  unfold beam2D
  rw [barGeom_length hs hL, ok_bind]
  simp [pyDiv, h3, hI, beamMassCore]

theorem beamU_returns {sq : K → K} (hs : SqrtFn sq) {X : Matrix (Fin 2) (Fin 2) K} {L : K}
    (hL : IsLength X L) {params : List K} {E I μ : K} (hp : BeamUParams params E I μ) {k m : Matrix (Fin 2 × Fin 3) (Fin 2 × Fin 3) K} :
    Gives (beam2DU sq) (matRows X) params k m ↔
      k = (frameU ((X 1 0 - X 0 0) / L) ((X 1 1 - X 0 1) / L)).transpose * beamUCore (I * E / L ^ 3) L *
        frameU ((X 1 0 - X 0 0) / L) ((X 1 1 - X 0 1) / L) ∧
      m = (frameU ((X 1 0 - X 0 0) / L) ((X 1 1 - X 0 1) / L)).transpose * beamUMassCore (μ * L) L *
        frameU ((X 1 0 - X 0 0) / L) ((X 1 1 - X 0 1) / L) := by
  unfold Gives
  rw [beamU_ok hs hL hp]
  constructor
  · rintro ⟨A', B', h, h1, h2⟩
    rw [Except.ok.injEq, Prod.mk.injEq] at h
    obtain ⟨rfl, rfl⟩ := h
    exact ⟨(holds_mat (n := 2) (d := 3)).1 h1, (holds_mat (n := 2) (d := 3)).1 h2⟩
  · rintro ⟨rfl, rfl⟩
    exact ⟨_, _, rfl, (holds_mat (n := 2) (d := 3)).2 rfl, (holds_mat (n := 2) (d := 3)).2 rfl⟩

theorem beam_returns {sq : K → K} (hs : SqrtFn sq) {X : Matrix (Fin 2) (Fin 2) K} {L : K}
    (hL : IsLength X L) {params : List K} {E I A μ : K} (hp : BeamParams params E I A μ) {k m : Matrix (Fin 2 × Fin 3) (Fin 2 × Fin 3) K} :
    Gives (beam2D sq) (matRows X) params k m ↔
      k = (frame ((X 1 0 - X 0 0) / L) ((X 1 1 - X 0 1) / L)).transpose *
        beamCore (I * E / L ^ 3) (A / I) L * frame ((X 1 0 - X 0 0) / L) ((X 1 1 - X 0 1) / L) ∧
      m = (frame ((X 1 0 - X 0 0) / L) ((X 1 1 - X 0 1) / L)).transpose * ((μ * L / 420) • beamMassArr L) *
        frame ((X 1 0 - X 0 0) / L) ((X 1 1 - X 0 1) / L) := by
  unfold Gives
  rw [beam_ok hs hL hp]
  constructor
  · rintro ⟨A', B', h, h1, h2⟩
    rw [Except.ok.injEq, Prod.mk.injEq] at h
    obtain ⟨rfl, rfl⟩ := h
    exact ⟨(holds_mat (n := 2) (d := 3)).1 h1, (holds_mat (n := 2) (d := 3)).1 h2⟩
  · rintro ⟨rfl, rfl⟩
    exact ⟨_, _, rfl, (holds_mat (n := 2) (d := 3)).2 rfl, (holds_mat (n := 2) (d := 3)).2 rfl⟩

/-- `beam2DU` works exactly on beams of non-zero length with two or four parameters. -/
theorem C57_beam2DU_accepts_iff {sq : K → K} (hs : SqrtFn sq) (X : Matrix (Fin 2) (Fin 2) K)
    (params : List K) : (∃ k m : Matrix (Fin 2 × Fin 3) (Fin 2 × Fin 3) K,
      Gives (beam2DU sq) (matRows X) params k m) ↔ X 0 ≠ X 1 ∧ (params.length = 2 ∨ params.length = 4) := by
  constructor
  · rintro ⟨k, m, A, B, h, -, -⟩
    have hX : X 0 ≠ X 1 := by
      intro h0
      unfold beam2DU at h
      rw [barGeom_zero hs h0, error_bind] at h
      simp at h
    refine ⟨hX, ?_⟩
    obtain ⟨L, hL⟩ := exists_length hs hX
    unfold beam2DU at h
    rw [barGeom_length hs hL, ok_bind] at h
    match params, h with
    | [], h => simp at h
    | [_], h => simp at h
    | [_, _], _ => exact Or.inl rfl
    | [_, _, _], h => simp [bind, Except.bind, pyDiv, hL.1.ne'] at h
    | [_, _, _, _], _ => exact Or.inr rfl
    | _ :: _ :: _ :: _ :: _ :: _, h => simp [bind, Except.bind, pyDiv, hL.1.ne'] at h
  · rintro ⟨hX, hp⟩
    obtain ⟨L, hL⟩ := exists_length hs hX
    have : ∃ E I μ, BeamUParams params E I μ := by
      match params, hp with
      | [E, I], _ => exact ⟨E, I, 1, Or.inl ⟨rfl, rfl⟩⟩
      | [E, I, ρ, A], _ => exact ⟨E, I, ρ * A, Or.inr ⟨ρ, A, rfl, rfl⟩⟩
    obtain ⟨E, I, μ, hp⟩ := this
    exact ⟨_, _, (beamU_returns hs hL hp).2 ⟨rfl, rfl⟩⟩

/-- `beam2D` works exactly on beams of non-zero length and second moment of area, with three or four
parameters - or nine, when the density is broadcast over the columns of the mass matrix. -/
theorem C57_beam2D_accepts_iff {sq : K → K} (hs : SqrtFn sq) (X : Matrix (Fin 2) (Fin 2) K)
    (params : List K) : (∃ k m : Matrix (Fin 2 × Fin 3) (Fin 2 × Fin 3) K,
      Gives (beam2D sq) (matRows X) params k m) ↔ X 0 ≠ X 1 ∧ (∀ I, params[1]? = some I → I ≠ 0) ∧
        (params.length = 3 ∨ params.length = 4 ∨ params.length = 9) := by
  constructor
  · rintro ⟨k, m, A, B, h, -, -⟩
    have hX : X 0 ≠ X 1 := by
      intro h0
      unfold beam2D at h
      rw [barGeom_zero hs h0, error_bind] at h
      simp at h
    refine ⟨hX, ?_⟩
    obtain ⟨L, hL⟩ := exists_length hs hX
    unfold beam2D at h
    rw [barGeom_length hs hL, ok_bind] at h
    have h3 : L ^ 3 ≠ 0 := pow_ne_zero 3 hL.1.ne'
    match params, h with
    | [], h => simp at h
    | [_], h => simp at h
    | [_, _], h => simp at h
    | E :: I :: A :: rest, h =>
      simp only [List.take_succ_cons, List.take_zero, pyDiv, if_neg h3] at h
      by_cases hI : I = 0
      · rw [if_pos hI, error_bind] at h
        simp at h
      rw [if_neg hI, ok_bind, ok_bind] at h
      obtain ⟨M, hM, -⟩ := bind_ok.1 h
      refine ⟨by simpa using hI, ?_⟩
      match rest, hM with
      | [], _ => simp
      | [_], _ => simp
      | [_, _], h => simp [beamMassCore] at h
      | [_, _, _], h => simp [beamMassCore] at h
      | [_, _, _, _], h => simp [beamMassCore] at h
      | [_, _, _, _, _], h => simp [beamMassCore] at h
      | [_, _, _, _, _, _], _ => simp
      | _ :: _ :: _ :: _ :: _ :: _ :: _ :: _, h => simp [beamMassCore] at h
  · rintro ⟨hX, hI, hp⟩
    obtain ⟨L, hL⟩ := exists_length hs hX
    have h3 : L ^ 3 ≠ 0 := pow_ne_zero 3 hL.1.ne'
    match params, hI, hp with
    | [E, I, A], hI, _ =>
      exact ⟨_, _, (beam_returns hs hL (μ := A) ⟨hI I rfl, Or.inl ⟨rfl, rfl⟩⟩).2 ⟨rfl, rfl⟩⟩
    | [E, I, A, ρ], hI, _ =>
      exact ⟨_, _, (beam_returns hs hL ⟨hI I rfl, Or.inr ⟨ρ, rfl, rfl⟩⟩).2 ⟨rfl, rfl⟩⟩
    | [E, I, A, d0, d1, d2, d3, d4, d5], hI, _ =>
      exact ⟨_, _, _, _, beam_nine hs hL (hI I rfl) E A d0 d1 d2 d3 d4 d5,
        (holds_mat (n := 2) (d := 3)).2 rfl, (holds_mat (n := 2) (d := 3)).2 rfl⟩

/-! ## C56 -/

/-- Relative transverse displacement of the ends, as `beam2DU` and `beam2D` compute it, in a rigid
motion. -/
theorem rigid_transverse {X : Matrix (Fin 2) (Fin 2) K} {L : K} (hL : IsLength X L) (c : Fin 2 → K) (w : K) :
    (X 1 1 - X 0 1) / L * (c 0 - w * X 0 1) + (X 1 0 - X 0 0) / L * (c 1 + w * X 0 0) -
      ((X 1 1 - X 0 1) / L * (c 0 - w * X 1 1) + (X 1 0 - X 0 0) / L * (c 1 + w * X 1 0)) =
      -(w * L) + 2 * w * (X 1 1 - X 0 1) ^ 2 / L := by
  have h0 := hL.1.ne'
  field_simp
  linear_combination w * hL.2

/-- C56, `beam2DU`.  A rigid motion produces no nodal forces exactly when it is a translation or the beam
is horizontal. -/
theorem C56_beam2DU_iff {sq : K → K} (hs : SqrtFn sq) {X : Matrix (Fin 2) (Fin 2) K} (hX : X 0 ≠ X 1)
    {params : List K} {E I μ : K} (hp : BeamUParams params E I μ) (hEI : E * I ≠ 0) {k m : Matrix (Fin 2 × Fin 3) (Fin 2 × Fin 3) K}
    (h : Gives (beam2DU sq) (matRows X) params k m) (c : Fin 2 → K) (w : K) :
    k.mulVec (rigid X c w) = 0 ↔ w = 0 ∨ X 0 1 = X 1 1 := by
  obtain ⟨L, hL⟩ := exists_length hs hX
  obtain ⟨rfl, -⟩ := (beamU_returns hs hL hp).1 h
  have h0 := hL.1.ne'
  rw [triple_mulVec, frameU_mulVec, coreU_mulVec, frameU_transpose]
  simp only [rigid, Matrix.cons_val_zero, Matrix.cons_val_one, Matrix.cons_val_two, Matrix.cons_val_three,
    Matrix.head_cons, Matrix.tail_cons, Matrix.cons_val, rigid_transverse hL]
  constructor
  · intro h
    have h1 := congrFun h (0, 2)
    have h3 : E * I * (12 * (w * (X 1 1 - X 0 1) ^ 2)) / L ^ 3 = 0 := by
      refine Eq.trans ?_ h1
      simp
      field_simp
      ring
    rw [div_eq_zero_iff, or_iff_left (pow_ne_zero 3 h0), mul_eq_zero, or_iff_right hEI, mul_eq_zero,
      or_iff_right (by norm_num), mul_eq_zero, pow_eq_zero_iff two_ne_zero, sub_eq_zero] at h3
    exact h3.imp_right Eq.symm
  · rintro (rfl | hy)
    · funext ⟨a, i⟩
      fin_cases a <;> fin_cases i <;> simp
    · rw [hy]
      funext ⟨a, i⟩
      fin_cases a <;> fin_cases i <;> simp <;> ring_nf <;> simp

/-- C56, `beam2D`. -/
theorem C56_beam2D_iff {sq : K → K} (hs : SqrtFn sq) {X : Matrix (Fin 2) (Fin 2) K} (hX : X 0 ≠ X 1)
    {params : List K} {E I A μ : K} (hp : BeamParams params E I A μ) (hE : E ≠ 0) {k m : Matrix (Fin 2 × Fin 3) (Fin 2 × Fin 3) K}
    (h : Gives (beam2D sq) (matRows X) params k m) (c : Fin 2 → K) (w : K) :
    k.mulVec (rigid X c w) = 0 ↔ w = 0 ∨ X 0 1 = X 1 1 := by
  obtain ⟨L, hL⟩ := exists_length hs hX
  obtain ⟨rfl, -⟩ := (beam_returns hs hL hp).1 h
  have h0 := hL.1.ne'
  have hEI : E * I ≠ 0 := mul_ne_zero hE hp.1
  rw [triple_mulVec, frame_mulVec, core_mulVec, frame_transpose]
  simp only [rigid, Matrix.cons_val_zero, Matrix.cons_val_one, Matrix.cons_val_two, Matrix.cons_val_three,
    Matrix.head_cons, Matrix.tail_cons, Matrix.cons_val, rigid_transverse hL]
  constructor
  · intro h
    have h1 := congrFun h (0, 2)
    have h3 : E * I * (12 * (w * (X 1 1 - X 0 1) ^ 2)) / L ^ 3 = 0 := by
      refine Eq.trans ?_ h1
      simp
      field_simp
      ring
    rw [div_eq_zero_iff, or_iff_left (pow_ne_zero 3 h0), mul_eq_zero, or_iff_right hEI, mul_eq_zero,
      or_iff_right (by norm_num), mul_eq_zero, pow_eq_zero_iff two_ne_zero, sub_eq_zero] at h3
    exact h3.imp_right Eq.symm
  · rintro (rfl | hy)
    · funext ⟨a, i⟩
      fin_cases a <;> fin_cases i <;> simp
    · rw [hy]
      funext ⟨a, i⟩
      fin_cases a <;> fin_cases i <;> simp <;> ring_nf <;> simp

/-- C56.  A rigid rotation of an inclined beam stores energy: the strain energy in the code is positive
for `E I > 0`. -/
theorem C56_rotation_stores_energy {sq : K → K} (hs : SqrtFn sq) {X : Matrix (Fin 2) (Fin 2) K}
    (hy : X 0 1 ≠ X 1 1) {params : List K} {E I μ : K} (hp : BeamUParams params E I μ) (hEI : 0 < E * I) {k m : Matrix (Fin 2 × Fin 3) (Fin 2 × Fin 3) K}
    (h : Gives (beam2DU sq) (matRows X) params k m) (c : Fin 2 → K) {w : K} (hw : w ≠ 0) :
    0 < rigid X c w ⬝ᵥ k.mulVec (rigid X c w) := by
  have hX : X 0 ≠ X 1 := fun h => hy (congrFun h 1)
  obtain ⟨L, hL⟩ := exists_length hs hX
  obtain ⟨rfl, -⟩ := (beamU_returns hs hL hp).1 h
  have h0 := hL.1.ne'
  rw [triple_form, frameU_mulVec, coreU_mulVec]
  have e := rigid_transverse hL c w
  simp only [rigid, dotProduct, Fin.sum_univ_four, Matrix.cons_val_zero, Matrix.cons_val_one,
    Matrix.cons_val, rigid_transverse hL]
  generalize (X 1 1 - X 0 1) / L * (c 0 - w * X 0 1) + (X 1 0 - X 0 0) / L * (c 1 + w * X 0 0) = p at *
  generalize (X 1 1 - X 0 1) / L * (c 0 - w * X 1 1) + (X 1 0 - X 0 0) / L * (c 1 + w * X 1 0) = q at *
  obtain rfl : p = q - w * L + 2 * w * (X 1 1 - X 0 1) ^ 2 / L := by linear_combination e
  have : 0 < 48 * (E * I) * w ^ 2 * ((X 1 1 - X 0 1) ^ 2) ^ 2 / L ^ 5 := by
    have h1 : 0 < w ^ 2 := by positivity
    have h2 : 0 < (X 1 1 - X 0 1) ^ 2 := by
      have : X 1 1 - X 0 1 ≠ 0 := sub_ne_zero.2 hy.symm
      positivity
    have h3 := hL.1
    positivity
  refine lt_of_lt_of_eq this ?_
  field_simp
  ring

/-- C56.  What the code computes is the beam mirrored in the horizontal axis: the motions that produce no
nodal forces are the rigid motions of the mirror image. -/
theorem C56_mirror {sq : K → K} (hs : SqrtFn sq) {X : Matrix (Fin 2) (Fin 2) K} (hX : X 0 ≠ X 1)
    {params : List K} {E I A μ : K} (hp : BeamParams params E I A μ) {k m : Matrix (Fin 2 × Fin 3) (Fin 2 × Fin 3) K}
    (h : Gives (beam2D sq) (matRows X) params k m) (c : Fin 2 → K) (w : K) :
    k.mulVec (rigid (mirror X) c w) = 0 := by
  obtain ⟨L, hL⟩ := exists_length hs hX
  obtain ⟨rfl, -⟩ := (beam_returns hs hL hp).1 h
  have h0 := hL.1.ne'
  have e1 : (X 1 1 - X 0 1) / L * (c 0 + w * X 0 1) + (X 1 0 - X 0 0) / L * (c 1 + w * X 0 0) -
      ((X 1 1 - X 0 1) / L * (c 0 + w * X 1 1) + (X 1 0 - X 0 0) / L * (c 1 + w * X 1 0)) = -(w * L) := by
    field_simp
    linear_combination w * hL.2
  have e2 : (X 1 0 - X 0 0) / L * (c 0 + w * X 0 1) - (X 1 1 - X 0 1) / L * (c 1 + w * X 0 0) -
      ((X 1 0 - X 0 0) / L * (c 0 + w * X 1 1) - (X 1 1 - X 0 1) / L * (c 1 + w * X 1 0)) = 0 := by
    field_simp
    ring
  rw [triple_mulVec, frame_mulVec, core_mulVec, frame_transpose]
  simp [rigid, mirror, e1, e2]
  funext ⟨a, i⟩
  fin_cases a <;> fin_cases i <;> simp <;> ring_nf <;> simp

/-! ## C57 -/

/-- C57.  Symmetric. -/
theorem C57_beam2DU_symmetric {sq : K → K} (hs : SqrtFn sq) {X : Matrix (Fin 2) (Fin 2) K}
    (hX : X 0 ≠ X 1) {params : List K} {E I μ : K} (hp : BeamUParams params E I μ) {k m : Matrix (Fin 2 × Fin 3) (Fin 2 × Fin 3) K}
    (h : Gives (beam2DU sq) (matRows X) params k m) : k.IsSymm ∧ m.IsSymm := by
  obtain ⟨L, hL⟩ := exists_length hs hX
  obtain ⟨rfl, rfl⟩ := (beamU_returns hs hL hp).1 h
  exact ⟨triple_symm (coreU_symm _ _), triple_symm (massU_symm _ _)⟩

/-- C57.  Symmetric. -/
theorem C57_beam2D_symmetric {sq : K → K} (hs : SqrtFn sq) {X : Matrix (Fin 2) (Fin 2) K}
    (hX : X 0 ≠ X 1) {params : List K} {E I A μ : K} (hp : BeamParams params E I A μ) {k m : Matrix (Fin 2 × Fin 3) (Fin 2 × Fin 3) K}
    (h : Gives (beam2D sq) (matRows X) params k m) : k.IsSymm ∧ m.IsSymm := by
  obtain ⟨L, hL⟩ := exists_length hs hX
  obtain ⟨rfl, rfl⟩ := (beam_returns hs hL hp).1 h
  refine ⟨triple_symm (core_symm _ _ _), triple_symm ?_⟩
  unfold Matrix.IsSymm
  rw [Matrix.transpose_smul, massArr_symm]

/-- C57.  Semidefinite. -/
theorem C57_beam2DU_semidefinite {sq : K → K} (hs : SqrtFn sq) {X : Matrix (Fin 2) (Fin 2) K}
    (hX : X 0 ≠ X 1) {params : List K} {E I μ : K} (hp : BeamUParams params E I μ) {k m : Matrix (Fin 2 × Fin 3) (Fin 2 × Fin 3) K}
    (h : Gives (beam2DU sq) (matRows X) params k m) (u : Fin 2 × Fin 3 → K) :
    (0 ≤ E * I → 0 ≤ u ⬝ᵥ k.mulVec u) ∧ (0 ≤ μ → 0 ≤ u ⬝ᵥ m.mulVec u) := by
  obtain ⟨L, hL⟩ := exists_length hs hX
  obtain ⟨rfl, rfl⟩ := (beamU_returns hs hL hp).1 h
  have h0 := hL.1
  rw [triple_form, triple_form]
  generalize (frameU ((X 1 0 - X 0 0) / L) ((X 1 1 - X 0 1) / L)).mulVec u = q
  rw [coreU_mulVec, massU_mulVec]
  refine ⟨fun hE => ?_, fun hM => ?_⟩
  · have e : q ⬝ᵥ ![I * E / L ^ 3 * (12 * (q 0 - q 2) + 6 * L * (q 1 + q 3)),
      I * E / L ^ 3 * L * (6 * (q 0 - q 2) + L * (4 * q 1 + 2 * q 3)),
      -(I * E / L ^ 3 * (12 * (q 0 - q 2) + 6 * L * (q 1 + q 3))),
      I * E / L ^ 3 * L * (6 * (q 0 - q 2) + L * (2 * q 1 + 4 * q 3))] =
      E * I / L ^ 3 * (3 * (2 * (q 0 - q 2) + L * (q 1 + q 3)) ^ 2 + (L * (q 1 - q 3)) ^ 2) := by
      simp [dotProduct, Fin.sum_univ_four]
      ring
    rw [e]
    positivity
  · have e : q ⬝ᵥ ![μ * L / 420 * (156 * q 0 + 22 * L * q 1 + 54 * q 2 - 13 * L * q 3),
      μ * L / 420 * (22 * L * q 0 + 4 * L ^ 2 * q 1 + 13 * L * q 2 - 3 * L ^ 2 * q 3),
      μ * L / 420 * (54 * q 0 + 13 * L * q 1 + 156 * q 2 - 22 * L * q 3),
      μ * L / 420 * (-13 * L * q 0 - 3 * L ^ 2 * q 1 - 22 * L * q 2 + 4 * L ^ 2 * q 3)] =
      μ * L / 840 * ((15 * (q 0 + q 2) + 5 / 2 * L * (q 1 - q 3)) ^ 2 * (14 / 15) +
        (7 / 6) * (L * (q 1 - q 3)) ^ 2 +
        102 * ((q 0 - q 2) + 3 / 34 * L * (q 1 + q 3)) ^ 2 + 7 / 34 * (L * (q 1 + q 3)) ^ 2) := by
      simp [dotProduct, Fin.sum_univ_four]
      ring
    rw [e]
    positivity

/-- C57.  Semidefinite. -/
theorem C57_beam2D_semidefinite {sq : K → K} (hs : SqrtFn sq) {X : Matrix (Fin 2) (Fin 2) K}
    (hX : X 0 ≠ X 1) {params : List K} {E I A μ : K} (hp : BeamParams params E I A μ)
    {k m : Matrix (Fin 2 × Fin 3) (Fin 2 × Fin 3) K}
    (h : Gives (beam2D sq) (matRows X) params k m) (u : Fin 2 × Fin 3 → K) :
    (0 ≤ E * I → 0 ≤ E * A → 0 ≤ u ⬝ᵥ k.mulVec u) ∧ (0 ≤ μ → 0 ≤ u ⬝ᵥ m.mulVec u) := by
  obtain ⟨L, hL⟩ := exists_length hs hX
  obtain ⟨rfl, rfl⟩ := (beam_returns hs hL hp).1 h
  have h0 := hL.1
  have hI := hp.1
  rw [triple_form, triple_form]
  generalize (frame ((X 1 0 - X 0 0) / L) ((X 1 1 - X 0 1) / L)).mulVec u = q
  rw [core_mulVec, mass_mulVec]
  refine ⟨fun hE hA => ?_, fun hM => ?_⟩
  · refine le_of_le_of_eq (b := E * A / L * (q 0 - q 3) ^ 2 +
      E * I / L ^ 3 * (3 * (2 * (q 1 - q 4) + L * (q 2 + q 5)) ^ 2 + (L * (q 2 - q 5)) ^ 2)) (by positivity) ?_
    simp [dotProduct, Fin.sum_univ_six]
    field_simp
    ring
  · refine le_of_le_of_eq (b := μ * L / 6 * ((q 0 + q 3) ^ 2 + q 0 ^ 2 + q 3 ^ 2) +
      μ * L / 840 * ((15 * (q 1 + q 4) + 5 / 2 * L * (q 2 - q 5)) ^ 2 * (14 / 15) +
        (7 / 6) * (L * (q 2 - q 5)) ^ 2 +
        102 * ((q 1 - q 4) + 3 / 34 * L * (q 2 + q 5)) ^ 2 + 7 / 34 * (L * (q 2 + q 5)) ^ 2)) (by positivity) ?_
    simp [dotProduct, Fin.sum_univ_six]
    ring

/-- A polynomial of degree at most three. -/
theorem cubic_form {P : Polynomial K} (hP : P.natDegree ≤ 3) :
    P = Polynomial.C (P.coeff 0) + Polynomial.C (P.coeff 1) * Polynomial.X +
      Polynomial.C (P.coeff 2) * Polynomial.X ^ 2 + Polynomial.C (P.coeff 3) * Polynomial.X ^ 3 := by
  conv_lhs => rw [P.as_sum_range_C_mul_X_pow' (n := 4) (by omega)]
  simp [Finset.sum_range_succ]

/-- C57.  A horizontal beam bent to a cubic has the exact end forces. -/
theorem C57_beam2DU_bending {sq : K → K} (hs : SqrtFn sq) {X : Matrix (Fin 2) (Fin 2) K} {L : K}
    (hL : 0 < L) (hx : X 1 0 = X 0 0 + L) (hy : X 1 1 = X 0 1)
    {params : List K} {E I μ : K} (hp : BeamUParams params E I μ)
    {k m : Matrix (Fin 2 × Fin 3) (Fin 2 × Fin 3) K}
    (h : Gives (beam2DU sq) (matRows X) params k m) {P : Polynomial K} (hP : P.natDegree ≤ 3) (p0 p1 : K) :
    k.mulVec (bent P L p0 p1) = endForces P L (E * I) 0 := by
  have hL' : IsLength X L := ⟨hL, by rw [hx, hy]; ring⟩
  obtain ⟨rfl, rfl⟩ := (beamU_returns hs hL' hp).1 h
  have h0 := hL.ne'
  have h1 : (X 1 0 - X 0 0) / L = 1 := by rw [hx]; field_simp; ring
  have h2 : (X 1 1 - X 0 1) / L = 0 := by rw [hy]; simp
  rw [h1, h2, triple_mulVec, frameU_mulVec, coreU_mulVec, frameU_transpose]
  unfold bent endForces
  rw [cubic_form hP]
  generalize P.coeff 0 = a, P.coeff 1 = b, P.coeff 2 = c, P.coeff 3 = d
  funext ⟨a, i⟩
  fin_cases a <;> fin_cases i <;> simp <;> field_simp <;> ring

set_option maxHeartbeats 1000000 in
/-- C57.  The same for `beam2D`, with uniform axial strain `ε`. -/
theorem C57_beam2D_bending {sq : K → K} (hs : SqrtFn sq) {X : Matrix (Fin 2) (Fin 2) K} {L : K}
    (hL : 0 < L) (hx : X 1 0 = X 0 0 + L) (hy : X 1 1 = X 0 1)
    {params : List K} {E I A μ : K} (hp : BeamParams params E I A μ)
    {k m : Matrix (Fin 2 × Fin 3) (Fin 2 × Fin 3) K}
    (h : Gives (beam2D sq) (matRows X) params k m) {P : Polynomial K} (hP : P.natDegree ≤ 3) (p0 ε : K) :
    k.mulVec (bent P L p0 (p0 + ε * L)) = endForces P L (E * I) (E * A * ε) := by
  have hL' : IsLength X L := ⟨hL, by rw [hx, hy]; ring⟩
  obtain ⟨rfl, rfl⟩ := (beam_returns hs hL' hp).1 h
  have h0 := hL.ne'
  have hI := hp.1
  have h1 : (X 1 0 - X 0 0) / L = 1 := by rw [hx]; field_simp; ring
  have h2 : (X 1 1 - X 0 1) / L = 0 := by rw [hy]; simp
  rw [h1, h2, triple_mulVec, frame_mulVec, core_mulVec, frame_transpose]
  unfold bent endForces
  rw [cubic_form hP]
  generalize P.coeff 0 = a, P.coeff 1 = b, P.coeff 2 = c, P.coeff 3 = d
  funext ⟨a, i⟩
  fin_cases a <;> fin_cases i <;> simp <;> field_simp <;> ring

/-- With nine parameters - six densities - the mass of a horizontal beam is not symmetric unless the
first and fourth densities agree. -/
theorem C57_nine_parameters_asymmetric {sq : K → K} (hs : SqrtFn sq) {X : Matrix (Fin 2) (Fin 2) K} {L : K}
    (hL : 0 < L) (hx : X 1 0 = X 0 0 + L) (hy : X 1 1 = X 0 1) {E I A d0 d1 d2 d3 d4 d5 : K} (hA : A ≠ 0)
    (hd : d0 ≠ d3) {k m : Matrix (Fin 2 × Fin 3) (Fin 2 × Fin 3) K}
    (h : Gives (beam2D sq) (matRows X) [E, I, A, d0, d1, d2, d3, d4, d5] k m) : ¬ m.IsSymm := by
  have hL' : IsLength X L := ⟨hL, by rw [hx, hy]; ring⟩
  have hI : I ≠ 0 := ((C57_beam2D_accepts_iff hs X _).1 ⟨k, m, h⟩).2.1 I rfl
  obtain ⟨A', B', h1, -, h2⟩ := h
  rw [beam_nine hs hL' hI, Except.ok.injEq, Prod.mk.injEq] at h1
  obtain ⟨rfl, rfl⟩ := h1
  have hm := (holds_mat (n := 2) (d := 3)).1 h2
  have g1 : (X 1 0 - X 0 0) / L = 1 := by rw [hx]; field_simp; ring
  have g2 : (X 1 1 - X 0 1) / L = 0 := by rw [hy]; simp
  rw [g1, g2] at hm
  have hQ : beamQ (1 : K) 0 = 1 := by
    ext i j
    fin_cases i <;> fin_cases j <;> simp [beamQ]
  rw [hQ, Matrix.transpose_one, Matrix.one_mul, Matrix.mul_one] at hm
  intro hs
  have h3 := congrFun₂ hs (0, 0) (1, 0)
  rw [hm] at h3
  simp [finProdFinEquiv, beamMassArr] at h3
  rcases h3 with h3 | h3
  · exact hd h3
  · rcases h3 with h3 | h3
    · exact hA h3
    · exact hL.ne' h3

/-! ## C58 -/

/-- C58.  The translational mass of `beam2D` is density times area times length, in every direction. -/
theorem C58_beam2D {sq : K → K} (hs : SqrtFn sq) {X : Matrix (Fin 2) (Fin 2) K} {L : K} (hL : IsLength X L)
    {params : List K} {E I A μ : K} (hp : BeamParams params E I A μ)
    {k m : Matrix (Fin 2 × Fin 3) (Fin 2 × Fin 3) K} (h : Gives (beam2D sq) (matRows X) params k m)
    (c c' : Fin 2 → K) :
    rigid X c 0 ⬝ᵥ m.mulVec (rigid X c' 0) = μ * L * (c ⬝ᵥ c') := by
  obtain ⟨rfl, rfl⟩ := (beam_returns hs hL hp).1 h
  rw [triple_form, frame_mulVec, frame_mulVec, mass_mulVec]
  have key : (X 1 0 - X 0 0) / L * ((X 1 0 - X 0 0) / L) + (X 1 1 - X 0 1) / L * ((X 1 1 - X 0 1) / L) = 1 := by
    have h0 := hL.1.ne'
    field_simp
    linear_combination -hL.2
  generalize (X 1 0 - X 0 0) / L = nx at *
  generalize (X 1 1 - X 0 1) / L = ny at *
  simp [rigid, dotProduct, Fin.sum_univ_six, Fin.sum_univ_two]
  linear_combination (μ * L * (c 0 * c' 0 + c 1 * c' 1)) * key

/-- C58.  `beam2DU` has mass only in the direction its transformation takes as transverse, which is the
vertical for a horizontal beam. -/
theorem C58_beam2DU {sq : K → K} (hs : SqrtFn sq) {X : Matrix (Fin 2) (Fin 2) K} {L : K} (hL : IsLength X L)
    {params : List K} {E I μ : K} (hp : BeamUParams params E I μ)
    {k m : Matrix (Fin 2 × Fin 3) (Fin 2 × Fin 3) K} (h : Gives (beam2DU sq) (matRows X) params k m)
    (c c' : Fin 2 → K) :
    rigid X c 0 ⬝ᵥ m.mulVec (rigid X c' 0) = μ * L *
      (((X 1 1 - X 0 1) / L * c 0 + (X 1 0 - X 0 0) / L * c 1) *
       ((X 1 1 - X 0 1) / L * c' 0 + (X 1 0 - X 0 0) / L * c' 1)) := by
  obtain ⟨rfl, rfl⟩ := (beamU_returns hs hL hp).1 h
  rw [triple_form, frameU_mulVec, frameU_mulVec, massU_mulVec]
  simp [rigid, dotProduct, Fin.sum_univ_four]
  ring

/-- C58.  Horizontal `beam2DU`: all of the mass moves vertically, none horizontally. -/
theorem C58_beam2DU_horizontal {sq : K → K} (hs : SqrtFn sq) {X : Matrix (Fin 2) (Fin 2) K} {L : K}
    (hL : IsLength X L) (hy : X 1 1 = X 0 1) {params : List K} {E I μ : K} (hp : BeamUParams params E I μ)
    {k m : Matrix (Fin 2 × Fin 3) (Fin 2 × Fin 3) K} (h : Gives (beam2DU sq) (matRows X) params k m)
    (c : Fin 2 → K) : rigid X c 0 ⬝ᵥ m.mulVec (rigid X c 0) = μ * L * c 1 ^ 2 := by
  have h0 := hL.1.ne'
  have h2 := hL.2
  rw [hy, sub_self] at h2
  have key : (X 1 0 - X 0 0) / L * ((X 1 0 - X 0 0) / L) = 1 := by
    field_simp
    linear_combination -h2
  rw [C58_beam2DU hs hL hp h, hy, sub_self, zero_div]
  linear_combination (μ * L * c 1 ^ 2) * key

end

/-- The inclined beam of length five is accepted, and a rotation of it stores energy. -/
example : ∃ k m : Matrix (Fin 2 × Fin 3) (Fin 2 × Fin 3) ℝ,
    Gives (beam2DU Real.sqrt) (matRows bar345) [2, 3, 5, 7] k m ∧
    k.mulVec (rigid bar345 0 1) ≠ 0 ∧ 0 < rigid bar345 0 1 ⬝ᵥ k.mulVec (rigid bar345 0 1) ∧ k.IsSymm := by
  have hX : bar345 0 ≠ bar345 1 := fun h => by simpa [bar345] using congrFun h 0
  have hy : bar345 0 1 ≠ bar345 1 1 := by simp [bar345]
  have hp : BeamUParams [(2 : ℝ), 3, 5, 7] 2 3 (5 * 7) := Or.inr ⟨5, 7, rfl, rfl⟩
  obtain ⟨k, m, h⟩ := (C57_beam2DU_accepts_iff sqrtFn_real bar345 [2, 3, 5, 7]).2 ⟨hX, Or.inr rfl⟩
  refine ⟨k, m, h, ?_, C56_rotation_stores_energy sqrtFn_real hy hp (by norm_num) h 0 one_ne_zero,
    (C57_beam2DU_symmetric sqrtFn_real hX hp h).1⟩
  rw [Ne, C56_beam2DU_iff sqrtFn_real hX hp (by norm_num) h]
  simp [hy]

/-- The inclined `beam2D` of length five: its mass is `ρ A L`, while a rotation produces forces. -/
example : ∃ k m : Matrix (Fin 2 × Fin 3) (Fin 2 × Fin 3) ℝ,
    Gives (beam2D Real.sqrt) (matRows bar345) [2, 3, 5, 7] k m ∧
    k.mulVec (rigid bar345 0 1) ≠ 0 ∧
    rigid bar345 ![1, 0] 0 ⬝ᵥ m.mulVec (rigid bar345 ![1, 0] 0) = 175 := by
  have hX : bar345 0 ≠ bar345 1 := fun h => by simpa [bar345] using congrFun h 0
  have hy : bar345 0 1 ≠ bar345 1 1 := by simp [bar345]
  have hp : BeamParams [(2 : ℝ), 3, 5, 7] 2 3 5 (7 * 5) := ⟨by norm_num, Or.inr ⟨7, rfl, rfl⟩⟩
  obtain ⟨k, m, h⟩ := (C57_beam2D_accepts_iff sqrtFn_real bar345 [2, 3, 5, 7]).2
    ⟨hX, by simp, Or.inr (Or.inl rfl)⟩
  refine ⟨k, m, h, ?_, ?_⟩
  · rw [Ne, C56_beam2D_iff sqrtFn_real hX hp (by norm_num) h]
    simp [hy]
  · rw [C58_beam2D sqrtFn_real bar345_length hp h]
    simp [dotProduct, Fin.sum_univ_two]
    norm_num

end SolidsPy
