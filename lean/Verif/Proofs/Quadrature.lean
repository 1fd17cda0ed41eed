import Verif.Proofs.Rule
import Verif.Props.Materials

/-! # Bilinear forms of the element matrices -/

set_option linter.unusedSectionVars false

namespace SolidsPy
open Spec Fem Uel Gauss Matrix

section forms
variable {K : Type} [Field K] [LinearOrder K] [IsStrictOrderedRing K] {d n q : ℕ}
  {B : Shape K d n → Matrix (Fin q) (Fin n × Fin d) K}
  {H : Shape K d n → Matrix (Fin d) (Fin n × Fin d) K}

theorem qStiff_nil (X : Matrix (Fin n) (Fin d) K) (C) : qStiff B [] X C = 0 := rfl

theorem qStiff_cons (x) (R : QRule K d n) (X : Matrix (Fin n) (Fin d) K) (C) :
    qStiff B (x :: R) X C =
      (x.2 * jdet x.1 X) • ((B x.1).transpose * C * B x.1) + qStiff B R X C := by
  simp [qStiff]

theorem qMass_cons (x) (R : QRule K d n) (X : Matrix (Fin n) (Fin d) K) (ρ) :
    qMass H (x :: R) X ρ =
      (ρ * (x.2 * jdet x.1 X)) • ((H x.1).transpose * H x.1) + qMass H R X ρ := by
  simp [qMass]

theorem stiff_mulVec (R : QRule K d n) (X : Matrix (Fin n) (Fin d) K) (C) (u) :
    (qStiff B R X C).mulVec u =
      (R.map fun x => (x.2 * jdet x.1 X) • (B x.1).transpose.mulVec (C.mulVec ((B x.1).mulVec u))).sum := by
  induction R with
  | nil => simp [qStiff]
  | cons x R ih =>
    rw [qStiff_cons, add_mulVec, ih, List.map_cons, List.sum_cons, smul_mulVec, mulVec_mulVec,
      mulVec_mulVec]

theorem stiff_form (R : QRule K d n) (X : Matrix (Fin n) (Fin d) K) (C) (v u) :
    v ⬝ᵥ (qStiff B R X C).mulVec u =
      (R.map fun x => (x.2 * jdet x.1 X) * ((B x.1).mulVec v ⬝ᵥ C.mulVec ((B x.1).mulVec u))).sum := by
  induction R with
  | nil => simp [qStiff]
  | cons x R ih =>
    rw [qStiff_cons, add_mulVec, dotProduct_add, ih, List.map_cons, List.sum_cons, smul_mulVec,
      dotProduct_smul, smul_eq_mul]
    congr 2
    rw [← mulVec_mulVec, ← mulVec_mulVec, dotProduct_mulVec, vecMul_transpose]

theorem mass_form (R : QRule K d n) (X : Matrix (Fin n) (Fin d) K) (ρ) (v u) :
    v ⬝ᵥ (qMass H R X ρ).mulVec u =
      (R.map fun x => (ρ * (x.2 * jdet x.1 X)) * ((H x.1).mulVec v ⬝ᵥ (H x.1).mulVec u)).sum := by
  induction R with
  | nil => simp [qMass]
  | cons x R ih =>
    rw [qMass_cons, add_mulVec, dotProduct_add, ih, List.map_cons, List.sum_cons, smul_mulVec,
      dotProduct_smul, smul_eq_mul]
    congr 2
    rw [← mulVec_mulVec, dotProduct_mulVec, vecMul_transpose]

theorem form_entry {ι : Type} [Fintype ι] [DecidableEq ι] (M : Matrix ι ι K) (i j : ι) :
    Pi.single i 1 ⬝ᵥ M.mulVec (Pi.single j 1) = M i j := by
  rw [mulVec_single_one, single_one_dotProduct, col_apply]

theorem form_ext {ι : Type} [Fintype ι] [DecidableEq ι] {M M' : Matrix ι ι K}
    (h : ∀ v u, v ⬝ᵥ M.mulVec u = v ⬝ᵥ M'.mulVec u) : M = M' := by
  ext i j
  rw [← form_entry M, ← form_entry M', h]

theorem symm_of_form {ι : Type} [Fintype ι] [DecidableEq ι] {M : Matrix ι ι K}
    (h : ∀ v u, v ⬝ᵥ M.mulVec u = u ⬝ᵥ M.mulVec v) : M.IsSymm := by
  ext i j
  rw [transpose_apply, ← form_entry M, ← form_entry M i, h]

theorem quad_form_symm {ι : Type} [Fintype ι] {C : Matrix ι ι K} (h : C.IsSymm) (v u : ι → K) :
    v ⬝ᵥ C.mulVec u = u ⬝ᵥ C.mulVec v := by
  rw [dotProduct_mulVec, ← mulVec_transpose, h.eq, dotProduct_comm]

theorem stiff_symm {R : QRule K d n} {X : Matrix (Fin n) (Fin d) K} {C} (hC : C.IsSymm) :
    (qStiff B R X C).IsSymm := by
  apply symm_of_form
  intro v u
  rw [stiff_form, stiff_form]
  congr 1
  refine List.map_congr_left fun x _ => ?_
  rw [quad_form_symm hC]

theorem mass_symm {R : QRule K d n} {X : Matrix (Fin n) (Fin d) K} {ρ} : (qMass H R X ρ).IsSymm := by
  apply symm_of_form
  intro v u
  rw [mass_form, mass_form]
  congr 1
  refine List.map_congr_left fun x _ => ?_
  rw [dotProduct_comm]

theorem coef_pos {R : QRule K d n} (hg : GoodRule R) {X : Matrix (Fin n) (Fin d) K} (ha : Acc R X)
    {x} (hx : x ∈ R) : 0 < x.2 * jdet x.1 X :=
  mul_pos (hg.pos x hx) (tol_pos.trans (ha x hx))

theorem stiff_nonneg {R : QRule K d n} (hg : GoodRule R) {X : Matrix (Fin n) (Fin d) K} (ha : Acc R X)
    {C : Matrix (Fin q) (Fin q) K} (hC : ∀ e, 0 ≤ e ⬝ᵥ C.mulVec e) (u) :
    0 ≤ u ⬝ᵥ (qStiff B R X C).mulVec u := by
  rw [stiff_form]
  apply List.sum_nonneg
  intro y hy
  obtain ⟨x, hx, rfl⟩ := List.mem_map.1 hy
  exact mul_nonneg (coef_pos hg ha hx).le (hC _)

theorem dot_self_nonneg {ι : Type} [Fintype ι] (v : ι → K) : 0 ≤ v ⬝ᵥ v :=
  Finset.sum_nonneg fun i _ => mul_self_nonneg (v i)

theorem mass_nonneg {R : QRule K d n} (hg : GoodRule R) {X : Matrix (Fin n) (Fin d) K} (ha : Acc R X)
    {ρ : K} (hρ : 0 ≤ ρ) (u) : 0 ≤ u ⬝ᵥ (qMass H R X ρ).mulVec u := by
  rw [mass_form]
  apply List.sum_nonneg
  intro y hy
  obtain ⟨x, hx, rfl⟩ := List.mem_map.1 hy
  exact mul_nonneg (mul_nonneg hρ (coef_pos hg ha hx).le) (dot_self_nonneg _)

theorem sum_pos_zero {α : Type} {l : List α} {f : α → K} (h : ∀ x ∈ l, 0 ≤ f x) :
    (l.map f).sum = 0 ↔ ∀ x ∈ l, f x = 0 := by
  induction l with
  | nil => simp
  | cons a l ih =>
    simp only [List.map_cons, List.sum_cons, List.mem_cons, forall_eq_or_imp] at *
    rw [← ih h.2]
    have h2 : 0 ≤ (l.map f).sum := List.sum_nonneg (by simpa using h.2)
    constructor
    · intro h3
      have := h.1
      exact ⟨by linarith, by linarith⟩
    · rintro ⟨h3, h4⟩
      rw [h3, h4, add_zero]

/-- Zero energy means zero strain at all points. -/
theorem stiff_zero_iff {R : QRule K d n} (hg : GoodRule R) {X : Matrix (Fin n) (Fin d) K} (ha : Acc R X)
    {C : Matrix (Fin q) (Fin q) K} (hC : PosForm C) (u) :
    u ⬝ᵥ (qStiff B R X C).mulVec u = 0 ↔ ∀ x ∈ R, (B x.1).mulVec u = 0 := by
  have hC0 : ∀ e, 0 ≤ e ⬝ᵥ C.mulVec e := by
    intro e
    by_cases he : e = 0
    · rw [he, zero_dotProduct]
    · exact (hC e he).le
  rw [stiff_form, sum_pos_zero]
  · refine forall₂_congr fun x hx => ?_
    rw [mul_eq_zero, or_iff_right (coef_pos hg ha hx).ne']
    constructor
    · intro h
      by_contra h0
      exact (hC _ h0).ne' h
    · intro h
      rw [h, zero_dotProduct]
  · exact fun x hx => mul_nonneg (coef_pos hg ha hx).le (hC0 _)

theorem stiff_zero_of_strain {R : QRule K d n} {X : Matrix (Fin n) (Fin d) K} {C u}
    (h : ∀ x ∈ R, (B x.1).mulVec u = 0) : (qStiff B R X C).mulVec u = 0 := by
  rw [stiff_mulVec]
  apply List.sum_eq_zero
  intro y hy
  obtain ⟨x, hx, rfl⟩ := List.mem_map.1 hy
  rw [h x hx, mulVec_zero, mulVec_zero, smul_zero]

/-! ### Returned arrays -/

theorem holds_ofBlocks {M M' : Matrix (Fin n × Fin d) (Fin n × Fin d) K} :
    Holds (NdArr.ofBlocks M) M' ↔ M' = M := by
  have key : ∀ p q : Fin n × Fin d,
      (NdArr.ofBlocks M).get2 (d * p.1 + p.2) (d * q.1 + q.2) = .ok (M p q) := by
    intro p q
    have b : ∀ p : Fin n × Fin d, d * p.1.val + p.2.val < n * d := by
      intro p
      have := (finProdFinEquiv p).2
      rw [finProdFinEquiv_apply_val] at this
      omega
    have e : ∀ p : Fin n × Fin d, (⟨d * p.1.val + p.2.val, b p⟩ : Fin (n * d)) = finProdFinEquiv p := by
      intro p
      ext
      rw [finProdFinEquiv_apply_val]
      exact add_comm _ _
    unfold NdArr.ofBlocks NdArr.get2
    dsimp only
    rw [dif_pos ⟨b p, b q⟩, e, e, Equiv.symm_apply_apply, Equiv.symm_apply_apply]
  constructor
  · rintro ⟨_, h⟩
    ext p q
    have := h p q
    rw [key p q, Except.ok.injEq] at this
    exact this.symm
  · rintro rfl
    exact ⟨⟨_, rfl⟩, key⟩

/-- Stiffness of the plane routines. -/
abbrev stiff2 (R : QRule K 2 n) (X : Matrix (Fin n) (Fin 2) K) (C : Matrix (Fin 3) (Fin 3) K) :=
  qStiff (fun sh => bMat2 (grad sh.2 X)) R X C

/-- Mass of the plane routines. -/
abbrev mass2 (R : QRule K 2 n) (X : Matrix (Fin n) (Fin 2) K) (ρ : K) :=
  qMass (fun sh => hMat2 sh.1) R X ρ

/-- Stiffness of the solid routines. -/
abbrev stiff3 (R : QRule K 3 n) (X : Matrix (Fin n) (Fin 3) K) (C : Matrix (Fin 6) (Fin 6) K) :=
  qStiff (fun sh => bMat3 (grad sh.2 X)) R X C

/-- Mass of the solid routines. -/
abbrev mass3 (R : QRule K 3 n) (X : Matrix (Fin n) (Fin 3) K) (ρ : K) :=
  qMass (fun sh => hMat3 sh.1) R X ρ

/-- Stiffness of the axisymmetric routine. -/
abbrev stiffAxi (R : QRule K 2 n) (X : Matrix (Fin n) (Fin 2) K) (C : Matrix (Fin 4) (Fin 4) K) :=
  qStiff (fun sh => bMatAxi sh.1 (place sh.1 X 0) (grad sh.2 X)) R X C

theorem returns_plane {f : Uel K} {R : QRule K 2 n} (h : PlaneRule n f R) : GoodRule R ∧
    ∃ strict, ∀ X params k m, Returns f X params k m ↔ ∃ C ρ, Mat2 strict params C ρ ∧ Acc R X ∧
      k = stiff2 R X C ∧ m = mass2 R X ρ := by
  obtain ⟨⟨st, hr⟩, hg⟩ := plane_rep' h
  refine ⟨hg, st, fun X params k m => ?_⟩
  constructor
  · rintro ⟨A, B, h1, h2, h3⟩
    obtain ⟨C, ρ, hm, ha, hr⟩ := (hr.ok _ _ _).1 h1
    rw [Prod.mk.injEq] at hr
    obtain ⟨rfl, rfl⟩ := hr
    exact ⟨C, ρ, hm, ha, holds_ofBlocks.1 h2, holds_ofBlocks.1 h3⟩
  · rintro ⟨C, ρ, hm, ha, rfl, rfl⟩
    exact ⟨_, _, (hr.ok _ _ _).2 ⟨C, ρ, hm, ha, rfl⟩, holds_ofBlocks.2 rfl, holds_ofBlocks.2 rfl⟩

theorem returns_solid {f : Uel K} {R : QRule K 3 n} (h : SolidRule n f R) : GoodRule R ∧
    ∀ X params k m, Returns f X params k m ↔ ∃ C ρ, Mat3 params C ρ ∧ Acc R X ∧
      k = stiff3 R X C ∧ m = mass3 R X ρ := by
  obtain ⟨hr, hg⟩ := solid_rep' h
  refine ⟨hg, fun X params k m => ?_⟩
  constructor
  · rintro ⟨A, B, h1, h2, h3⟩
    obtain ⟨C, ρ, hm, ha, hr⟩ := (hr.ok _ _ _).1 h1
    rw [Prod.mk.injEq] at hr
    obtain ⟨rfl, rfl⟩ := hr
    exact ⟨C, ρ, hm, ha, holds_ofBlocks.1 h2, holds_ofBlocks.1 h3⟩
  · rintro ⟨C, ρ, hm, ha, rfl, rfl⟩
    exact ⟨_, _, (hr.ok _ _ _).2 ⟨C, ρ, hm, ha, rfl⟩, holds_ofBlocks.2 rfl, holds_ofBlocks.2 rfl⟩

theorem returns_axi {X : Matrix (Fin 9) (Fin 2) K} {params k m} :
    Returns elastAxiQuad9 X params k m ↔ ∃ C ρ, (params.length = 3 ∧
      elastMatAxi (params.take 2) = .ok C ∧ densOf params = .ok ρ) ∧ AccAxi ruleAxi X ∧
      k = stiffAxi ruleAxi X C ∧ m = mass2 ruleAxi X ρ := by
  constructor
  · rintro ⟨A, B, h1, h2, h3⟩
    obtain ⟨C, ρ, hm, ha, hr⟩ := repAxi_ok.1 h1
    rw [Prod.mk.injEq] at hr
    obtain ⟨rfl, rfl⟩ := hr
    exact ⟨C, ρ, hm, ha, holds_ofBlocks.1 h2, holds_ofBlocks.1 h3⟩
  · rintro ⟨C, ρ, hm, ha, rfl, rfl⟩
    exact ⟨_, _, repAxi_ok.2 ⟨C, ρ, hm, ha, rfl⟩, holds_ofBlocks.2 rfl, holds_ofBlocks.2 rfl⟩

/-! ### Parameters -/

/-- Density given by the parameters after the first two. -/
def density (rest : List K) : K := rest.getLast?.getD 1

theorem pyGet_last {α : Type} (l : List α) (x : α) : pyGet (l ++ [x]) (-1) = .ok x := by
  unfold pyGet
  have hf : pyFin (l ++ [x]).length (-1) = .ok ⟨l.length, by simp⟩ := by
    unfold pyFin
    rw [dif_neg (by omega), dif_pos (by simp)]
    congr 1
    ext
    simp
  rw [hf]
  simp

theorem densOf_eq (E nu : K) (rest : List K) : densOf (E :: nu :: rest) = .ok (density rest) := by
  rcases List.eq_nil_or_concat rest with rfl | ⟨l, x, rfl⟩
  · rfl
  · unfold densOf density
    rw [if_neg (by simp)]
    have : E :: nu :: (l.concat x) = (E :: nu :: l) ++ [x] := by simp
    rw [this, pyGet_last]
    simp

/-- The constitutive matrix and the density used by a plane routine. -/
theorem mat2_iff {strict : Bool} {params : List K} {C ρ} : Mat2 strict params C ρ ↔
    ∃ E nu rest, params = E :: nu :: rest ∧ (strict = true → rest.length = 1) ∧
      umat [E, nu] = .ok C ∧ ρ = density rest := by
  constructor
  · rintro ⟨h0, h1, h2⟩
    obtain ⟨E, nu, h3, h4, hC⟩ := umat_ok.1 h1
    match params, h3, h2, h0 with
    | a :: b :: rest, h3, h2, h0 =>
      simp at h3
      obtain ⟨rfl, rfl⟩ := h3
      rw [densOf_eq, Except.ok.injEq] at h2
      exact ⟨a, b, rest, rfl, fun h => by simpa using h0 h, umat_ok.2 ⟨a, b, rfl, h4, hC⟩, h2.symm⟩
  · rintro ⟨E, nu, rest, rfl, h0, h1, rfl⟩
    exact ⟨fun h => by simpa using h0 h, h1, densOf_eq _ _ _⟩

theorem mat2_cons {strict : Bool} {E nu : K} {rest : List K} {C ρ} :
    Mat2 strict (E :: nu :: rest) C ρ ↔ (strict = true → rest.length = 1) ∧
      umat [E, nu] = .ok C ∧ ρ = density rest := by
  rw [mat2_iff]
  constructor
  · rintro ⟨E', nu', rest', h, h1⟩
    simp only [List.cons.injEq] at h
    obtain ⟨rfl, rfl, rfl⟩ := h
    exact h1
  · intro h
    exact ⟨E, nu, rest, rfl, h⟩

/-- Routines other than `elast_quad8` accept any number of parameters from two on. -/
theorem returns_plane_lax {f : Uel K} {R : QRule K 2 n} (h : PlaneRule n f R) (hn : n ≠ 8) :
    ∀ X params k m, Returns f X params k m ↔ ∃ C ρ, Mat2 false params C ρ ∧ Acc R X ∧
      k = stiff2 R X C ∧ m = mass2 R X ρ := by
  have key : Rep2 n f R false := by
    cases h
    · exact rep_plane body_tri3
    · exact rep_plane body_tri6
    · exact rep_plane body_quad4
    · exact rep_plane body_quad9
    · exact absurd rfl hn
  intro X params k m
  constructor
  · rintro ⟨A, B, h1, h2, h3⟩
    obtain ⟨C, ρ, hm, ha, hr⟩ := (key.ok _ _ _).1 h1
    rw [Prod.mk.injEq] at hr
    obtain ⟨rfl, rfl⟩ := hr
    exact ⟨C, ρ, hm, ha, holds_ofBlocks.1 h2, holds_ofBlocks.1 h3⟩
  · rintro ⟨C, ρ, hm, ha, rfl, rfl⟩
    exact ⟨_, _, (key.ok _ _ _).2 ⟨C, ρ, hm, ha, rfl⟩, holds_ofBlocks.2 rfl, holds_ofBlocks.2 rfl⟩

end forms

end SolidsPy
