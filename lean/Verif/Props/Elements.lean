import Verif.Proofs.Quadrature
import Verif.Props.Kinematics

/-! # Continuum element matrices: symmetry, definiteness, null space, mass, scaling (C38-C44, C46, C49, C50) -/

set_option linter.unusedSectionVars false

namespace SolidsPy
open Spec Fem Uel Gauss Matrix

section
variable {K : Type} [Field K] [LinearOrder K] [IsStrictOrderedRing K] {d n : ℕ}

/-! ## Returned arrays -/

/-- Whatever a plane routine returns is a pair of square arrays over nodes and components. -/
theorem C38_plane_shape {f : Uel K} (hf : PlaneElement n f) {coord : Table K} {params : List K} {A B}
    (h : f coord params = .ok (A, B)) :
    ∃ (X : Matrix (Fin n) (Fin 2) K) (k m : _), coord = matRows X ∧ Holds A k ∧ Holds B m ∧
      Returns f X params k m := by
  obtain ⟨R, st, hr, hg⟩ := plane_rep hf
  obtain ⟨X, rfl⟩ := hr.coord _ _ _ h
  obtain ⟨C, ρ, hm, ha, he⟩ := (hr.ok _ _ _).1 h
  rw [Prod.mk.injEq] at he
  obtain ⟨rfl, rfl⟩ := he
  exact ⟨X, _, _, rfl, holds_ofBlocks.2 rfl, holds_ofBlocks.2 rfl, _, _, h, holds_ofBlocks.2 rfl,
    holds_ofBlocks.2 rfl⟩

/-- The same for the solid routines. -/
theorem C38_solid_shape {f : Uel K} (hf : SolidElement n f) {coord : Table K} {params : List K} {A B}
    (h : f coord params = .ok (A, B)) :
    ∃ (X : Matrix (Fin n) (Fin 3) K) (k m : _), coord = matRows X ∧ Holds A k ∧ Holds B m ∧
      Returns f X params k m := by
  obtain ⟨R, hr, hg⟩ := solid_rep hf
  obtain ⟨X, rfl⟩ := hr.coord _ _ _ h
  obtain ⟨C, ρ, hm, ha, he⟩ := (hr.ok _ _ _).1 h
  rw [Prod.mk.injEq] at he
  obtain ⟨rfl, rfl⟩ := he
  exact ⟨X, _, _, rfl, holds_ofBlocks.2 rfl, holds_ofBlocks.2 rfl, _, _, h, holds_ofBlocks.2 rfl,
    holds_ofBlocks.2 rfl⟩

/-! ## C38 -/

/-- Plane elements. -/
theorem C38_plane_symmetric {f : Uel K} (hf : PlaneElement n f) {X : Matrix (Fin n) (Fin 2) K}
    {params : List K} {k m} (h : Returns f X params k m) : k.IsSymm ∧ m.IsSymm := by
  obtain ⟨R, hR⟩ := plane_rule hf
  obtain ⟨hg, st, hr⟩ := returns_plane hR
  obtain ⟨C, ρ, hm, ha, rfl, rfl⟩ := (hr _ _ _ _).1 h
  exact ⟨stiff_symm (C35_symmetric hm.2.1), mass_symm⟩

/-- Solid elements. -/
theorem C38_solid_symmetric {f : Uel K} (hf : SolidElement n f) {X : Matrix (Fin n) (Fin 3) K}
    {params : List K} {k m} (h : Returns f X params k m) : k.IsSymm ∧ m.IsSymm := by
  obtain ⟨R, hR⟩ := solid_rule hf
  obtain ⟨hg, hr⟩ := returns_solid hR
  obtain ⟨C, ρ, hm, ha, rfl, rfl⟩ := (hr _ _ _ _).1 h
  exact ⟨stiff_symm (C36_symmetric hm.2.1), mass_symm⟩

theorem axi_symmetric {params : List K} {C : Matrix (Fin 4) (Fin 4) K} (h : elastMatAxi params = .ok C) :
    C.IsSymm := by
  obtain ⟨E', nu', h1, h2, h3, lam, mu, h4, h5, rfl⟩ := elastMatAxi_ok.1 h
  ext i j
  fin_cases i <;> fin_cases j <;> rfl

/-- Axisymmetric element. -/
theorem C38_axi_symmetric {X : Matrix (Fin 9) (Fin 2) K} {params : List K} {k m}
    (h : Returns elastAxiQuad9 X params k m) : k.IsSymm ∧ m.IsSymm := by
  obtain ⟨C, ρ, hm, ha, rfl, rfl⟩ := returns_axi.1 h
  exact ⟨stiff_symm (axi_symmetric hm.2.1), mass_symm⟩

/-! ## C39 -/

theorem umat_nonneg {E nu : K} {C} (h : umat [E, nu] = .ok C) (hE : 0 ≤ E) (h1 : -1 < nu) (h2 : nu < 1)
    (e) : 0 ≤ e ⬝ᵥ C.mulVec e := by
  rcases hE.lt_or_eq with hE | hE
  · by_cases he : e = 0
    · rw [he, zero_dotProduct]
    · exact ((C35_positive_definite_iff h).2 ⟨hE, h1, h2⟩ e he).le
  · obtain ⟨E', nu', h3, _, rfl⟩ := umat_ok.1 h
    simp only [List.cons.injEq, and_true] at h3
    obtain ⟨rfl, rfl⟩ := h3
    rw [umat_mulVec, dot3, ← hE]
    simp

theorem elastMat_nonneg {E nu : K} {C} (h : elastMat [E, nu] = .ok C) (hE : 0 ≤ E) (h1 : -1 < nu)
    (h2 : nu < 1 / 2) (e) : 0 ≤ e ⬝ᵥ C.mulVec e := by
  rcases hE.lt_or_eq with hE | hE
  · by_cases he : e = 0
    · rw [he, zero_dotProduct]
    · exact ((C36_positive_definite_iff h).2 ⟨hE, h1, h2⟩ e he).le
  · obtain ⟨E', nu', h3, _, _, lam, mu, h4, h5, rfl⟩ := elastMat_ok.1 h
    simp only [List.cons.injEq, and_true] at h3
    obtain ⟨rfl, rfl⟩ := h3
    have hl : lam = 0 := by rw [h4, ← hE]; simp
    have hm : mu = 0 := by
      rw [← hE, zero_div] at h5
      exact (mul_eq_zero.1 h5).resolve_left two_ne_zero
    rw [elastMat_mulVec, dot6, hl, hm]
    simp

theorem axi_nonneg {E nu : K} {C} (h : elastMatAxi [E, nu] = .ok C) (hE : 0 ≤ E) (h1 : -1 < nu)
    (h2 : nu < 1 / 2) (e) : 0 ≤ e ⬝ᵥ C.mulVec e := by
  obtain ⟨E', nu', h3, h6, h7, lam, mu, h4, h5, rfl⟩ := elastMatAxi_ok.1 h
  simp only [List.cons.injEq, and_true] at h3
  obtain ⟨rfl, rfl⟩ := h3
  have hp : 0 < 1 + nu := by linarith
  have hq : 0 < 1 - 2 * nu := by linarith
  have hmu : 0 ≤ mu := by
    have : 0 ≤ E / (1 + nu) := div_nonneg hE hp.le
    linarith
  have hl : 0 ≤ mu + lam := by
    have h5' : mu = E / (1 + nu) / 2 := by rw [← h5]; ring
    have : mu + lam = E / (2 * (1 + nu) * (1 - 2 * nu)) := by
      rw [h4, h5', eq_div_iff (by positivity)]
      have e1 : E / (1 + nu) * (1 + nu) = E := div_mul_cancel₀ _ h6
      have e2 : E * nu / (1 + nu) / (1 - 2 * nu) * ((1 + nu) * (1 - 2 * nu)) = E * nu := by
        rw [div_div, div_mul_cancel₀ _ (mul_ne_zero h6 h7)]
      linear_combination (1 - 2 * nu) * e1 + 2 * e2
    rw [this]
    positivity
  rw [elastAxi_mulVec]
  have hd : ∀ a b : Fin 4 → K, a ⬝ᵥ b = a 0 * b 0 + a 1 * b 1 + a 2 * b 2 + a 3 * b 3 := by
    intro a b
    simp [dotProduct, Fin.sum_univ_four]
  rw [hd]
  simp
  have : e 0 * (2 * mu * e 0 + lam * (e 0 + e 1)) + e 1 * (2 * mu * e 1 + lam * (e 0 + e 1)) +
      e 2 * (mu * e 2) + e 3 * (2 * mu * e 3 + lam * e 3) =
      (mu + lam) * (e 0 + e 1) ^ 2 + mu * (e 0 - e 1) ^ 2 + mu * e 2 ^ 2 + mu * e 3 ^ 2 +
        (mu + lam) * e 3 ^ 2 := by ring
  rw [this]
  positivity

/-- Plane elements with `E ≥ 0`, `-1 < nu < 1` and a non-negative density. -/
theorem C39_plane_semidefinite {f : Uel K} (hf : PlaneElement n f) {X : Matrix (Fin n) (Fin 2) K}
    {E nu : K} {rest : List K} {k m} (h : Returns f X (E :: nu :: rest) k m) (hE : 0 ≤ E)
    (h1 : -1 < nu) (h2 : nu < 1) (hρ : ∀ ρ ∈ rest.getLast?, 0 ≤ ρ) (u) :
    0 ≤ u ⬝ᵥ k.mulVec u ∧ 0 ≤ u ⬝ᵥ m.mulVec u := by
  obtain ⟨R, hR⟩ := plane_rule hf
  obtain ⟨hg, st, hr⟩ := returns_plane hR
  obtain ⟨C, ρ, hm, ha, rfl, rfl⟩ := (hr _ _ _ _).1 h
  obtain ⟨_, h4, h5⟩ := mat2_cons.1 hm
  refine ⟨stiff_nonneg hg ha (umat_nonneg h4 hE h1 h2) u, mass_nonneg hg ha ?_ u⟩
  rw [h5]
  unfold density
  cases h6 : rest.getLast? with
  | none => exact zero_le_one
  | some ρ => exact hρ ρ h6

/-- Solid elements with `E ≥ 0`, `-1 < nu < 1/2`, `rho ≥ 0`. -/
theorem C39_solid_semidefinite {f : Uel K} (hf : SolidElement n f) {X : Matrix (Fin n) (Fin 3) K}
    {E nu ρ : K} {k m} (h : Returns f X [E, nu, ρ] k m) (hE : 0 ≤ E)
    (h1 : -1 < nu) (h2 : nu < 1 / 2) (hρ : 0 ≤ ρ) (u) :
    0 ≤ u ⬝ᵥ k.mulVec u ∧ 0 ≤ u ⬝ᵥ m.mulVec u := by
  obtain ⟨R, hR⟩ := solid_rule hf
  obtain ⟨hg, hr⟩ := returns_solid hR
  obtain ⟨C, ρ', hm, ha, rfl, rfl⟩ := (hr _ _ _ _).1 h
  have : densOf [E, nu, ρ] = .ok ρ := rfl
  have h3 := hm.2.2
  rw [this, Except.ok.injEq] at h3
  subst h3
  exact ⟨stiff_nonneg hg ha (elastMat_nonneg hm.2.1 hE h1 h2) u, mass_nonneg hg ha hρ u⟩

/-- Axisymmetric element. -/
theorem C39_axi_semidefinite {X : Matrix (Fin 9) (Fin 2) K} {E nu ρ : K} {k m}
    (h : Returns elastAxiQuad9 X [E, nu, ρ] k m) (hE : 0 ≤ E)
    (h1 : -1 < nu) (h2 : nu < 1 / 2) (hρ : 0 ≤ ρ) (u) :
    0 ≤ u ⬝ᵥ k.mulVec u ∧ 0 ≤ u ⬝ᵥ m.mulVec u := by
  obtain ⟨C, ρ', hm, ha, rfl, rfl⟩ := returns_axi.1 h
  have : densOf [E, nu, ρ] = .ok ρ := rfl
  have h3 := hm.2.2
  rw [this, Except.ok.injEq] at h3
  subst h3
  have ha' : Acc ruleAxi X := fun x hx => (ha x hx).2
  exact ⟨stiff_nonneg good_axi ha' (axi_nonneg hm.2.1 hE h1 h2) u, mass_nonneg good_axi ha' hρ u⟩

/-- A square element returns something. -/
theorem unitSquare_returns : ∃ k m, Returns elastQuad4 unitSquare [1, 1/4] k m := by
  obtain ⟨⟨A, B⟩, h⟩ := isOk_exists (x := elastQuad4 (matRows unitSquare) [1, 1/4]) (by decide +kernel)
  obtain ⟨X, k, m, h1, h2, h3, _⟩ := C38_plane_shape .quad4 h
  have hX : X = unitSquare := by
    have := toMat_matRows X
    rw [← h1, toMat_matRows, Except.ok.injEq] at this
    exact this.symm
  subst hX
  exact ⟨k, m, _, _, h, h2, h3⟩

example : ∃ k m, Returns elastQuad4 unitSquare [1, 1/4] k m ∧ ∀ u, 0 ≤ u ⬝ᵥ k.mulVec u := by
  obtain ⟨k, m, h⟩ := unitSquare_returns
  exact ⟨k, m, h, fun u => (C39_plane_semidefinite .quad4 h (by norm_num) (by norm_num) (by norm_num)
    (by simp) u).1⟩

/-! ## C40 -/

/-- The gradient of an infinitesimal rotation. -/
def Skew (G : Matrix (Fin d) (Fin d) K) : Prop := ∀ i j, G i j = -G j i

theorem skew_diag {G : Matrix (Fin d) (Fin d) K} (h : Skew G) (i) : G i i = 0 := by
  have := h i i
  linarith

/-- Translations and infinitesimal rotations of a plane element cause no nodal forces. -/
theorem C40_plane_rigid {f : Uel K} (hf : PlaneElement n f) {X : Matrix (Fin n) (Fin 2) K}
    {params : List K} {k m} (h : Returns f X params k m) (c : Fin 2 → K) {G : Matrix (Fin 2) (Fin 2) K}
    (hG : Skew G) : k.mulVec (sample X (affine c G)) = 0 := by
  obtain ⟨R, hR⟩ := plane_rule hf
  obtain ⟨hg, st, hr⟩ := returns_plane hR
  obtain ⟨C, ρ, hm, ha, rfl, rfl⟩ := (hr _ _ _ _).1 h
  apply stiff_zero_of_strain
  intro x hx
  rw [bMat2_mulVec]
  simp only [grad_affine (tol_pos.trans (ha x hx)).ne' (hg.rows x hx), skew_diag hG, hG 0 1,
    neg_add_cancel]
  funext i
  fin_cases i <;> rfl

/-- The same for solid elements. -/
theorem C40_solid_rigid {f : Uel K} (hf : SolidElement n f) {X : Matrix (Fin n) (Fin 3) K}
    {params : List K} {k m} (h : Returns f X params k m) (c : Fin 3 → K) {G : Matrix (Fin 3) (Fin 3) K}
    (hG : Skew G) : k.mulVec (sample X (affine c G)) = 0 := by
  obtain ⟨R, hR⟩ := solid_rule hf
  obtain ⟨hg, hr⟩ := returns_solid hR
  obtain ⟨C, ρ, hm, ha, rfl, rfl⟩ := (hr _ _ _ _).1 h
  apply stiff_zero_of_strain
  intro x hx
  rw [bMat3_mulVec]
  simp only [grad_affine (tol_pos.trans (ha x hx)).ne' (hg.rows x hx), skew_diag hG, hG 0 1, hG 0 2,
    hG 1 2, neg_add_cancel]
  funext i
  fin_cases i <;> rfl

/-- An axial translation of an axisymmetric element. -/
theorem C40_axi_rigid {X : Matrix (Fin 9) (Fin 2) K}
    {params : List K} {k m} (h : Returns elastAxiQuad9 X params k m) (c : K) :
    k.mulVec (sample X (affine ![0, c] 0)) = 0 := by
  obtain ⟨C, ρ, hm, ha, rfl, rfl⟩ := returns_axi.1 h
  apply stiff_zero_of_strain
  intro x hx
  rw [bMatAxi_mulVec]
  simp only [grad_affine (tol_pos.trans (ha x hx).2).ne' (good_axi.rows x hx),
    value_affine X (good_axi.unity x hx)]
  funext i
  fin_cases i <;> simp [affine]

/-- Rotation of the unit square about the origin. -/
example : ∃ k m, Returns elastQuad4 unitSquare [1, 1/4] k m ∧
    k.mulVec (sample unitSquare (affine 0 !![0, -1; 1, 0])) = 0 := by
  obtain ⟨k, m, h⟩ := unitSquare_returns
  refine ⟨k, m, h, C40_plane_rigid .quad4 h 0 ?_⟩
  intro i j
  fin_cases i <;> fin_cases j <;> simp

/-! ## C41 -/

/-- Zero energy means zero strain at every integration point, and no nodal forces. -/
theorem C41_plane_zero_energy {f : Uel K} {R : QRule K 2 n} (hf : PlaneRule n f R)
    {X : Matrix (Fin n) (Fin 2) K} {E nu : K} {rest : List K} {k m}
    (h : Returns f X (E :: nu :: rest) k m) (hE : 0 < E) (h1 : -1 < nu) (h2 : nu < 1) (u) :
    (u ⬝ᵥ k.mulVec u = 0 ↔ k.mulVec u = 0) ∧
    (u ⬝ᵥ k.mulVec u = 0 ↔
      ∀ x ∈ R, ∀ H B det, elastDiff2d x.1 X = .ok (H, B, det) → B.mulVec u = 0) := by
  obtain ⟨hg, st, hr⟩ := returns_plane hf
  obtain ⟨C, ρ, hm, ha, rfl, rfl⟩ := (hr _ _ _ _).1 h
  obtain ⟨_, h4, h5⟩ := mat2_cons.1 hm
  have hC := (C35_positive_definite_iff h4).2 ⟨hE, h1, h2⟩
  have key := stiff_zero_iff (B := fun sh => bMat2 (grad sh.2 X)) hg ha hC u
  constructor
  · constructor
    · intro h0
      exact stiff_zero_of_strain (key.1 h0)
    · intro h0
      rw [h0, dotProduct_zero]
  · rw [key]
    refine forall₂_congr fun x hx => ?_
    constructor
    · intro h0 H B det hB
      obtain ⟨_, hB⟩ := diff2d_ok.1 hB
      rw [Prod.mk.injEq, Prod.mk.injEq] at hB
      rw [hB.2.1]
      exact h0
    · intro h0
      exact h0 _ _ _ (diff2d_ok.2 ⟨ha x hx, rfl⟩)

/-- Solid elements. -/
theorem C41_solid_zero_energy {f : Uel K} {R : QRule K 3 n} (hf : SolidRule n f R)
    {X : Matrix (Fin n) (Fin 3) K} {E nu ρ : K} {k m}
    (h : Returns f X [E, nu, ρ] k m) (hE : 0 < E) (h1 : -1 < nu) (h2 : nu < 1 / 2) (u) :
    (u ⬝ᵥ k.mulVec u = 0 ↔ k.mulVec u = 0) ∧
    (u ⬝ᵥ k.mulVec u = 0 ↔
      ∀ x ∈ R, ∀ H B det, elastDiff3d x.1 X = .ok (H, B, det) → B.mulVec u = 0) := by
  obtain ⟨hg, hr⟩ := returns_solid hf
  obtain ⟨C, ρ, hm, ha, rfl, rfl⟩ := (hr _ _ _ _).1 h
  have hC := (C36_positive_definite_iff hm.2.1).2 ⟨hE, h1, h2⟩
  have key := stiff_zero_iff (B := fun sh => bMat3 (grad sh.2 X)) hg ha hC u
  constructor
  · constructor
    · intro h0
      exact stiff_zero_of_strain (key.1 h0)
    · intro h0
      rw [h0, dotProduct_zero]
  · rw [key]
    refine forall₂_congr fun x hx => ?_
    constructor
    · intro h0 H B det hB
      obtain ⟨_, hB⟩ := diff3d_ok.1 hB
      rw [Prod.mk.injEq, Prod.mk.injEq] at hB
      rw [hB.2.1]
      exact h0
    · intro h0
      exact h0 _ _ _ (diff3d_ok.2 ⟨ha x hx, rfl⟩)

/-- Every nodal field on a simplex is affine. -/
theorem tri3_affine {X : Matrix (Fin 3) (Fin 2) K} {r s : K} (h0 : ((shapeTri3 r s).2 * X).det ≠ 0)
    (u : Fin 3 × Fin 2 → K) : ∃ c G, u = sample X (affine c G) ∧
      ∀ k i, G k i = ∑ a, grad (shapeTri3 r s).2 X i a * u (a, k) := by
  set D := (shapeTri3 r s).2 with hD
  have hJ : (D * X) * ((D * X).det⁻¹ • (D * X).adjugate) = 1 := by
    rw [Matrix.mul_smul, Matrix.mul_adjugate, smul_smul, inv_mul_cancel₀ h0, one_smul]
  have hJg : (D * X) * grad D X = D := by
    unfold grad
    rw [← Matrix.mul_assoc, hJ, Matrix.one_mul]
  let G : Matrix (Fin 2) (Fin 2) K := Matrix.of fun k i => ∑ a, grad D X i a * u (a, k)
  have hdiff : ∀ (p k : Fin 2), ∑ a, D p a * u (a, k) = ∑ i, (D * X) p i * G k i := by
    intro p k
    conv_lhs => rw [← hJg]
    simp only [Matrix.mul_apply (M := D * X), Finset.sum_mul, G, Matrix.of_apply, Finset.mul_sum]
    rw [Finset.sum_comm]
    exact Finset.sum_congr rfl fun i _ => Finset.sum_congr rfl fun a _ => by ring
  refine ⟨fun k => u (0, k) - ∑ i, G k i * X 0 i, G, ?_, fun k i => rfl⟩
  funext ⟨a, k⟩
  have h1 := hdiff 0 k
  have h2 := hdiff 1 k
  simp [hD, shapeTri3, Fin.sum_univ_three, Fin.sum_univ_two, Matrix.mul_apply] at h1 h2
  unfold sample affine
  simp only [Fin.sum_univ_two]
  fin_cases a
  · simp
  · simp
    linear_combination h1
  · simp
    linear_combination h2

/-- The null space of the linear triangle is exactly the rigid body motions. -/
theorem C41_tri3_null_space {X : Matrix (Fin 3) (Fin 2) K} {E nu : K} {rest : List K} {k m}
    (h : Returns elastTri3 X (E :: nu :: rest) k m) (hE : 0 < E) (h1 : -1 < nu) (h2 : nu < 1) (u) :
    k.mulVec u = 0 ↔ ∃ c G, Skew G ∧ u = sample X (affine c G) := by
  constructor
  · intro h0
    obtain ⟨hg, st, hr⟩ := returns_plane (K := K) .tri3
    obtain ⟨C, ρ, hm, ha, hk, _⟩ := (hr _ _ _ _).1 h
    have hz := ((C41_plane_zero_energy .tri3 h hE h1 h2 u).2.1 (by rw [h0, dotProduct_zero]))
    obtain ⟨x, hx⟩ := List.exists_mem_of_ne_nil _ hg.ne
    have hBu := hz x hx _ _ _ (diff2d_ok.2 ⟨ha x hx, rfl⟩)
    obtain ⟨y, _, rfl⟩ := List.mem_map.1 hx
    obtain ⟨c, G, hu, hG⟩ := tri3_affine (tol_pos.trans (ha _ hx)).ne' u
    refine ⟨c, G, ?_, hu⟩
    rw [bMat2_mulVec] at hBu
    dsimp only at hBu
    simp only [← hG] at hBu
    have e0 := congrFun hBu 0
    have e1 := congrFun hBu 1
    have e2 := congrFun hBu 2
    simp at e0 e1 e2
    intro i j
    fin_cases i <;> fin_cases j <;> simp
    · rw [e0, neg_zero]
    · linarith
    · linarith
    · rw [e1, neg_zero]
  · rintro ⟨c, G, hG, rfl⟩
    exact C40_plane_rigid .tri3 h c hG

/-! ## C42 -/

/-- For an affine displacement field with strain `ε` and stress `σ = C ε`: the nodal forces are the
quadrature of `B^T σ`, and the work against another affine field is the quadrature area times
`ε' · σ`. -/
theorem C42_plane_patch {f : Uel K} {R : QRule K 2 n} (hf : PlaneRule n f R)
    {X : Matrix (Fin n) (Fin 2) K} {E nu : K} {rest : List K} {k m}
    (h : Returns f X (E :: nu :: rest) k m) (c : Fin 2 → K) (G : Matrix (Fin 2) (Fin 2) K)
    {C : Matrix (Fin 3) (Fin 3) K} (hC : umat [E, nu] = .ok C) :
    (∀ Bs : Shape K 2 n → Matrix (Fin 3) (Fin n × Fin 2) K,
      (∀ x ∈ R, ∃ H, elastDiff2d x.1 X = .ok (H, Bs x.1, jdet x.1 X)) →
      k.mulVec (sample X (affine c G)) = (R.map fun x => (x.2 * jdet x.1 X) •
        (Bs x.1).transpose.mulVec (C.mulVec ![G 0 0, G 1 1, G 0 1 + G 1 0])).sum) ∧
    ∀ c' G', sample X (affine c' G') ⬝ᵥ k.mulVec (sample X (affine c G)) = extent R X *
      (![G' 0 0, G' 1 1, G' 0 1 + G' 1 0] ⬝ᵥ C.mulVec ![G 0 0, G 1 1, G 0 1 + G 1 0]) := by
  obtain ⟨hg, st, hr⟩ := returns_plane hf
  obtain ⟨C', ρ, hm, ha, rfl, rfl⟩ := (hr _ _ _ _).1 h
  obtain ⟨_, h4, h5⟩ := mat2_cons.1 hm
  rw [hC, Except.ok.injEq] at h4
  subst h4
  have hs : ∀ x ∈ R, ∀ c G, (bMat2 (grad x.1.2 X)).mulVec (sample X (affine c G)) =
      ![G 0 0, G 1 1, G 0 1 + G 1 0] := by
    intro x hx c G
    rw [bMat2_mulVec]
    simp only [grad_affine (tol_pos.trans (ha x hx)).ne' (hg.rows x hx)]
  constructor
  · intro Bs hB
    rw [stiff_mulVec]
    congr 1
    refine List.map_congr_left fun x hx => ?_
    obtain ⟨H, hH⟩ := hB x hx
    obtain ⟨_, hH⟩ := diff2d_ok.1 hH
    rw [Prod.mk.injEq, Prod.mk.injEq] at hH
    rw [hH.2.1, hs x hx]
  · intro c' G'
    rw [stiff_form]
    have : ∀ x ∈ R, x.2 * jdet x.1 X * ((bMat2 (grad x.1.2 X)).mulVec (sample X (affine c' G')) ⬝ᵥ
        C.mulVec ((bMat2 (grad x.1.2 X)).mulVec (sample X (affine c G)))) = x.2 * jdet x.1 X *
        (![G' 0 0, G' 1 1, G' 0 1 + G' 1 0] ⬝ᵥ C.mulVec ![G 0 0, G 1 1, G 0 1 + G 1 0]) := by
      intro x hx
      rw [hs x hx, hs x hx]
    rw [List.map_congr_left this, List.sum_map_mul_right]
    rfl

/-! ## C43 -/

theorem mass2_translation (R : QRule K 2 n) (hg : GoodRule R) (X : Matrix (Fin n) (Fin 2) K) (ρ : K)
    (i j : Fin 2) : ∑ a, ∑ b, mass2 R X ρ (a, i) (b, j) = if i = j then ρ * extent R X else 0 := by
  have h1 : ∑ a, ∑ b, mass2 R X ρ (a, i) (b, j) =
      (fun p : Fin n × Fin 2 => if p.2 = i then 1 else 0) ⬝ᵥ
        (mass2 R X ρ).mulVec (fun p => if p.2 = j then 1 else 0) := by
    unfold dotProduct Matrix.mulVec dotProduct
    simp only [Fintype.sum_prod_type, ite_mul, one_mul, zero_mul, mul_ite, mul_one, mul_zero,
      Finset.sum_ite_eq', Finset.mem_univ, if_true]
  rw [h1, mass_form]
  have h2 : ∀ x ∈ R, ∀ i : Fin 2, (hMat2 x.1.1).mulVec (fun p => if p.2 = i then 1 else 0) =
      fun l => if l = i then 1 else 0 := by
    intro x hx i
    rw [hMat2_mulVec]
    funext l
    dsimp only
    split_ifs with h
    · simp [hg.unity x hx]
    · simp
  have h3 : ∀ x ∈ R, ρ * (x.2 * jdet x.1 X) * ((hMat2 x.1.1).mulVec (fun p => if p.2 = i then 1 else 0) ⬝ᵥ
      (hMat2 x.1.1).mulVec (fun p => if p.2 = j then 1 else 0)) =
      x.2 * jdet x.1 X * (if i = j then ρ else 0) := by
    intro x hx
    rw [h2 x hx, h2 x hx]
    unfold dotProduct
    simp only [ite_mul, one_mul, zero_mul, Finset.sum_ite_eq', Finset.mem_univ, if_true]
    split_ifs <;> ring
  rw [List.map_congr_left h3, List.sum_map_mul_right]
  split_ifs
  · rw [mul_comm]; rfl
  · rw [mul_zero]

theorem mass3_translation (R : QRule K 3 n) (hg : GoodRule R) (X : Matrix (Fin n) (Fin 3) K) (ρ : K)
    (i j : Fin 3) : ∑ a, ∑ b, mass3 R X ρ (a, i) (b, j) = if i = j then ρ * extent R X else 0 := by
  have h1 : ∑ a, ∑ b, mass3 R X ρ (a, i) (b, j) =
      (fun p : Fin n × Fin 3 => if p.2 = i then 1 else 0) ⬝ᵥ
        (mass3 R X ρ).mulVec (fun p => if p.2 = j then 1 else 0) := by
    unfold dotProduct Matrix.mulVec dotProduct
    simp only [Fintype.sum_prod_type, ite_mul, one_mul, zero_mul, mul_ite, mul_one, mul_zero,
      Finset.sum_ite_eq', Finset.mem_univ, if_true]
  rw [h1, mass_form]
  have h2 : ∀ x ∈ R, ∀ i : Fin 3, (hMat3 x.1.1).mulVec (fun p => if p.2 = i then 1 else 0) =
      fun l => if l = i then 1 else 0 := by
    intro x hx i
    rw [hMat3_mulVec]
    funext l
    dsimp only
    split_ifs with h
    · simp [hg.unity x hx]
    · simp
  have h3 : ∀ x ∈ R, ρ * (x.2 * jdet x.1 X) * ((hMat3 x.1.1).mulVec (fun p => if p.2 = i then 1 else 0) ⬝ᵥ
      (hMat3 x.1.1).mulVec (fun p => if p.2 = j then 1 else 0)) =
      x.2 * jdet x.1 X * (if i = j then ρ else 0) := by
    intro x hx
    rw [h2 x hx, h2 x hx]
    unfold dotProduct
    simp only [ite_mul, one_mul, zero_mul, Finset.sum_ite_eq', Finset.mem_univ, if_true]
    split_ifs <;> ring
  rw [List.map_congr_left h3, List.sum_map_mul_right]
  split_ifs
  · rw [mul_comm]; rfl
  · rw [mul_zero]

/-- Resultant mass of a plane element: density times quadrature area in each direction, and no
coupling. -/
theorem C43_plane_mass {f : Uel K} {R : QRule K 2 n} (hf : PlaneRule n f R)
    {X : Matrix (Fin n) (Fin 2) K} {E nu : K} {rest : List K} {k m}
    (h : Returns f X (E :: nu :: rest) k m) (i j : Fin 2) :
    ∑ a, ∑ b, m (a, i) (b, j) = if i = j then density rest * extent R X else 0 := by
  obtain ⟨hg, st, hr⟩ := returns_plane hf
  obtain ⟨C', ρ, hm, ha, rfl, rfl⟩ := (hr _ _ _ _).1 h
  obtain ⟨_, h4, h5⟩ := mat2_cons.1 hm
  rw [← h5]
  exact mass2_translation R hg X ρ i j

/-- Solid elements. -/
theorem C43_solid_mass {f : Uel K} {R : QRule K 3 n} (hf : SolidRule n f R)
    {X : Matrix (Fin n) (Fin 3) K} {E nu ρ : K} {k m}
    (h : Returns f X [E, nu, ρ] k m) (i j : Fin 3) :
    ∑ a, ∑ b, m (a, i) (b, j) = if i = j then ρ * extent R X else 0 := by
  obtain ⟨hg, hr⟩ := returns_solid hf
  obtain ⟨C', ρ', hm, ha, rfl, rfl⟩ := (hr _ _ _ _).1 h
  have : densOf [E, nu, ρ] = .ok ρ := rfl
  have h3 := hm.2.2
  rw [this, Except.ok.injEq] at h3
  subst h3
  exact mass3_translation R hg X ρ i j

theorem quad4_det (r s : K) (X : Matrix (Fin 4) (Fin 2) K) : ((shapeQuad4 r s).2 * X).det =
    ((X 2 0 - X 0 0) * (X 3 1 - X 1 1) - (X 3 0 - X 1 0) * (X 2 1 - X 0 1)) / 8 +
    r * (((X 1 0 - X 0 0) * (X 2 1 - X 3 1) - (X 1 1 - X 0 1) * (X 2 0 - X 3 0)) / 8) +
    s * (((X 2 0 - X 1 0) * (X 3 1 - X 0 1) - (X 2 1 - X 1 1) * (X 3 0 - X 0 0)) / 8) := by
  rw [Matrix.det_fin_two]
  simp only [Matrix.mul_apply, Fin.sum_univ_four]
  simp [shapeQuad4, lit_quarter]
  ring

/-- The area of the quadrilateral according to its rule is its polygon area (half the cross product of
the diagonals). -/
theorem C43_quad4_area (X : Matrix (Fin 4) (Fin 2) K) :
    extent (ruleQuad shapeQuad4 pts1d2 wts1d2) X =
      ((X 2 0 - X 0 0) * (X 3 1 - X 1 1) - (X 3 0 - X 1 0) * (X 2 1 - X 0 1)) / 2 := by
  simp only [extent, ruleQuad, at2, List.map_map, Function.comp_def, quad4_det]
  obtain ⟨g, h1⟩ : ∃ g : ℚ, pts1d2 = [-g, g] := ⟨_, rfl⟩
  have h2 : wts1d2 = [1, 1] := by decide +kernel
  rw [h1, h2]
  simp [prodRepeat]
  ring

/-- The area of the triangle according to its rule is `0.999999999999` times its area. -/
theorem C43_tri3_area (X : Matrix (Fin 3) (Fin 2) K) :
    extent ruleTri3 X = (999999999999 / 1000000000000) *
      (((X 1 0 - X 0 0) * (X 2 1 - X 0 1) - (X 2 0 - X 0 0) * (X 1 1 - X 0 1)) / 2) := by
  simp [extent, ruleTri3, ptsTri2, wtsTri2, shapeTri3, Matrix.det_fin_two,
    Matrix.mul_apply, Fin.sum_univ_three, lit_half]
  ring

/-- The volume of the tetrahedron according to its rule is its volume. -/
theorem C43_tet4_volume (X : Matrix (Fin 4) (Fin 3) K) :
    extent ruleTet4 X = (Matrix.of fun p i => X p.succ i - X 0 i : Matrix (Fin 3) (Fin 3) K).det / 6 := by
  have hdet : ∀ r s t : K, ((shapeTet4 r s t).2 * X) = Matrix.of fun p i => X p.succ i - X 0 i := by
    intro r s t
    ext p i
    fin_cases p <;> simp [shapeTet4, Matrix.mul_apply, Fin.sum_univ_four] <;> ring
  unfold extent ruleTet4
  simp only [List.map_map, Function.comp_def, hdet]
  rw [List.sum_map_mul_right]
  have : (List.map (fun x : (ℚ × ℚ × ℚ) × ℚ => (x.2 : K) / 6) (ptsTet3.zip wtsTet3)).sum = 1 / 6 := by
    simp [ptsTet3, wtsTet3]
    ring
  rw [this]
  ring

/-! ## C44 -/

/-- The element moved by `t`. -/
def shifted (X : Matrix (Fin n) (Fin d) K) (t : Fin d → K) : Matrix (Fin n) (Fin d) K :=
  Matrix.of fun a i => X a i + t i

theorem mul_shifted {D : Matrix (Fin d) (Fin n) K} (hD : ∀ i, ∑ a, D i a = 0)
    (X : Matrix (Fin n) (Fin d) K) (t : Fin d → K) : D * shifted X t = D * X := by
  ext i j
  simp only [Matrix.mul_apply, shifted, Matrix.of_apply, mul_add, Finset.sum_add_distrib,
    ← Finset.sum_mul, hD, zero_mul, add_zero]

theorem qStiff_congr {q : ℕ} {B B' : Shape K d n → Matrix (Fin q) (Fin n × Fin d) K}
    {R : QRule K d n} {X X' : Matrix (Fin n) (Fin d) K}
    (C : Matrix (Fin q) (Fin q) K) (h : ∀ x ∈ R, jdet x.1 X = jdet x.1 X' ∧ B x.1 = B' x.1) :
    qStiff B R X C = qStiff B' R X' C := by
  unfold qStiff
  congr 1
  refine List.map_congr_left fun x hx => ?_
  rw [(h x hx).1, (h x hx).2]

theorem qMass_congr {H H' : Shape K d n → Matrix (Fin d) (Fin n × Fin d) K}
    {R : QRule K d n} {X X' : Matrix (Fin n) (Fin d) K} (ρ : K)
    (h : ∀ x ∈ R, jdet x.1 X = jdet x.1 X' ∧ H x.1 = H' x.1) : qMass H R X ρ = qMass H' R X' ρ := by
  unfold qMass
  congr 1
  refine List.map_congr_left fun x hx => ?_
  rw [(h x hx).1, (h x hx).2]

theorem jdet_shifted {R : QRule K d n} (hg : GoodRule R) (X : Matrix (Fin n) (Fin d) K) (t) {x}
    (hx : x ∈ R) : jdet x.1 (shifted X t) = jdet x.1 X := by
  unfold jdet
  rw [mul_shifted (hg.rows x hx)]

theorem grad_shifted {R : QRule K d n} (hg : GoodRule R) (X : Matrix (Fin n) (Fin d) K) (t) {x}
    (hx : x ∈ R) : grad x.1.2 (shifted X t) = grad x.1.2 X := by
  unfold grad
  rw [mul_shifted (hg.rows x hx)]

/-- Moving a plane element changes nothing. -/
theorem C44_plane {f : Uel K} (hf : PlaneElement n f) (X : Matrix (Fin n) (Fin 2) K) (t : Fin 2 → K)
    (params : List K) (k m) : Returns f (shifted X t) params k m ↔ Returns f X params k m := by
  obtain ⟨R, hR⟩ := plane_rule hf
  obtain ⟨hg, st, hr⟩ := returns_plane hR
  have hk : ∀ C, stiff2 R (shifted X t) C = stiff2 R X C := fun C => qStiff_congr C fun x hx =>
    ⟨jdet_shifted hg X t hx, by rw [grad_shifted hg X t hx]⟩
  have hm : ∀ ρ, mass2 R (shifted X t) ρ = mass2 R X ρ := fun ρ => qMass_congr ρ fun x hx =>
    ⟨jdet_shifted hg X t hx, rfl⟩
  have ha : Acc R (shifted X t) ↔ Acc R X := forall₂_congr fun x hx => by rw [jdet_shifted hg X t hx]
  rw [hr, hr]
  simp only [hk, hm, ha]

/-- Moving a solid element changes nothing. -/
theorem C44_solid {f : Uel K} (hf : SolidElement n f) (X : Matrix (Fin n) (Fin 3) K) (t : Fin 3 → K)
    (params : List K) (k m) : Returns f (shifted X t) params k m ↔ Returns f X params k m := by
  obtain ⟨R, hR⟩ := solid_rule hf
  obtain ⟨hg, hr⟩ := returns_solid hR
  have hk : ∀ C, stiff3 R (shifted X t) C = stiff3 R X C := fun C => qStiff_congr C fun x hx =>
    ⟨jdet_shifted hg X t hx, by rw [grad_shifted hg X t hx]⟩
  have hm : ∀ ρ, mass3 R (shifted X t) ρ = mass3 R X ρ := fun ρ => qMass_congr ρ fun x hx =>
    ⟨jdet_shifted hg X t hx, rfl⟩
  have ha : Acc R (shifted X t) ↔ Acc R X := forall₂_congr fun x hx => by rw [jdet_shifted hg X t hx]
  rw [hr, hr]
  simp only [hk, hm, ha]

/-- Moving an axisymmetric element along the axis changes nothing. -/
theorem C44_axi (X : Matrix (Fin 9) (Fin 2) K) (t : K) (params : List K) (k m) :
    Returns elastAxiQuad9 (shifted X ![0, t]) params k m ↔ Returns elastAxiQuad9 X params k m := by
  have hp : ∀ N, place N (shifted X ![0, t]) 0 = place N X 0 := by
    intro N
    unfold place shifted
    simp
  have hk : ∀ C, stiffAxi ruleAxi (shifted X ![0, t]) C = stiffAxi ruleAxi X C :=
    fun C => qStiff_congr C fun x hx =>
      ⟨jdet_shifted good_axi X _ hx, by rw [grad_shifted good_axi X _ hx, hp]⟩
  have hm : ∀ ρ, mass2 ruleAxi (shifted X ![0, t]) ρ = mass2 ruleAxi X ρ :=
    fun ρ => qMass_congr ρ fun x hx => ⟨jdet_shifted good_axi X _ hx, rfl⟩
  have ha : AccAxi ruleAxi (shifted X ![0, t]) ↔ AccAxi ruleAxi X :=
    forall₂_congr fun x hx => by rw [jdet_shifted good_axi X _ hx, hp]
  rw [returns_axi, returns_axi]
  simp only [hk, hm, ha]

/-! ## C50

The intended statement would be: the mass of the axisymmetric element is the density times the
integral of the radius. -/

/-- The resultant mass of the axisymmetric element is the density times the plane area of its section;
the radius does not enter. -/
theorem C50_axi_mass_is_plane_partial {X : Matrix (Fin 9) (Fin 2) K} {E nu ρ : K} {k m}
    (h : Returns elastAxiQuad9 X [E, nu, ρ] k m) (i j : Fin 2) :
    ∑ a, ∑ b, m (a, i) (b, j) = if i = j then ρ * extent ruleAxi X else 0 := by
  obtain ⟨C', ρ', hm, ha, rfl, rfl⟩ := returns_axi.1 h
  have : densOf [E, nu, ρ] = .ok ρ := rfl
  have h3 := hm.2.2
  rw [this, Except.ok.injEq] at h3
  subst h3
  exact mass2_translation _ good_axi X ρ i j

/-- Moving the ring outward does not change its mass matrix. -/
theorem C50_axi_mass_ignores_radius {X : Matrix (Fin 9) (Fin 2) K} {params : List K} {k m k' m'}
    {t : Fin 2 → K} (h : Returns elastAxiQuad9 X params k m)
    (h' : Returns elastAxiQuad9 (shifted X t) params k' m') : m' = m := by
  obtain ⟨C, ρ, hm, ha, rfl, rfl⟩ := returns_axi.1 h
  obtain ⟨C', ρ', hm', ha', rfl, rfl⟩ := returns_axi.1 h'
  have h1 := hm.2.2
  rw [hm'.2.2, Except.ok.injEq] at h1
  subst h1
  exact qMass_congr _ fun x hx => ⟨jdet_shifted good_axi X _ hx, rfl⟩

end

end SolidsPy
