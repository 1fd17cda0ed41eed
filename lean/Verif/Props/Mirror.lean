import Verif.Props.Placement

/-! # C137: mirrored elements -/

set_option linter.unusedSectionVars false
set_option linter.unusedSimpArgs false
set_option linter.unreachableTactic false
set_option linter.unusedTactic false

namespace SolidsPy
open Spec Fem Uel Gauss Assem Matrix

section
variable {K : Type} [Field K] [LinearOrder K] [IsStrictOrderedRing K] [FloorRing K] {n : ℕ}
variable {Q : Matrix (Fin 2) (Fin 2) K}

/-- The shape functions at one point of a rule are those at another with the nodes renumbered, and the local coordinates
are mirrored. -/
def MRel (σ : Fin n ≃ Fin n) (x x' : Shape K 2 n × K) : Prop :=
  x.2 = x'.2 ∧ (x.1.1 = fun a => x'.1.1 (σ a)) ∧
    ∃ P : Matrix (Fin 2) (Fin 2) K, P.det = -1 ∧ x.1.2 = P * x'.1.2.submatrix id σ

theorem grad_mirror {sh sh' : Shape K 2 n} {P : Matrix (Fin 2) (Fin 2) K} (hP : P.det = -1) {σ : Fin n ≃ Fin n}
    (h : sh.2 = P * sh'.2.submatrix id σ) (hQ : Q.transpose * Q = 1) (hd : Q.det = -1) (X : Matrix (Fin n) (Fin 2) K) :
    jdet sh ((X * Q.transpose).submatrix σ id) = jdet sh' X ∧
      grad sh.2 ((X * Q.transpose).submatrix σ id) = (Q * grad sh'.2 X).submatrix id σ := by
  have h1 : sh.2 * (X * Q.transpose).submatrix σ id = P * (sh'.2 * X) * Q.transpose := by
    rw [h, Matrix.mul_assoc, submatrix_mul_equiv, Matrix.mul_assoc P, Matrix.mul_assoc sh'.2]
    rfl
  constructor
  · unfold jdet
    rw [h1, det_mul, det_mul, det_transpose, hP, hd]
    ring
  · have e : ∀ (D : Matrix (Fin 2) (Fin n) K) (Y : Matrix (Fin n) (Fin 2) K), grad D Y = (D * Y)⁻¹ * D := by
      intro D Y
      unfold grad
      rw [Matrix.inv_def, Ring.inverse_eq_inv']
    have hi : (Q.transpose)⁻¹ = Q := Matrix.inv_eq_right_inv hQ
    rw [e, e, h1, h, Matrix.mul_inv_rev, Matrix.mul_inv_rev, hi, Matrix.mul_assoc, Matrix.mul_assoc, ← Matrix.mul_assoc P⁻¹,
      Matrix.nonsing_inv_mul _ (by rw [hP]; exact (isUnit_one.neg)), Matrix.one_mul]
    rfl

theorem form_relabel (σ : Fin n ≃ Fin n) (M : Matrix (Fin n × Fin 2) (Fin n × Fin 2) K) (v u : Fin n × Fin 2 → K) :
    v ⬝ᵥ (M.submatrix (relabel σ) (relabel σ)).mulVec u =
      (v ∘ (relabel σ).symm) ⬝ᵥ M.mulVec (u ∘ (relabel σ).symm) := by
  unfold dotProduct Matrix.mulVec dotProduct
  rw [← Equiv.sum_comp (relabel σ) (fun p => (v ∘ (relabel σ).symm) p * _)]
  refine Finset.sum_congr rfl fun p _ => ?_
  simp only [Function.comp_apply, Equiv.symm_apply_apply]
  congr 1
  rw [← Equiv.sum_comp (relabel σ) (fun q => M (relabel σ p) q * _)]
  simp [Matrix.submatrix_apply]

theorem dgrad_relabel (σ : Fin n ≃ Fin n) (g : Matrix (Fin 2) (Fin n) K) (u : Fin n × Fin 2 → K) :
    dgrad (g.submatrix id σ) u = dgrad g (u ∘ (relabel σ).symm) := by
  ext k i
  simp only [dgrad, Matrix.of_apply, Matrix.submatrix_apply, id, Function.comp_apply]
  rw [← Equiv.sum_comp σ (fun a => g i a * _)]
  refine Finset.sum_congr rfl fun a _ => ?_
  simp [relabel]

theorem stiff_mirror {R R' : QRule K 2 n} {σ : Fin n ≃ Fin n} {X : Matrix (Fin n) (Fin 2) K} {params : List K} {C}
    (hC : umat params = .ok C) (hQ : Q.transpose * Q = 1) (hd : Q.det = -1) (h : List.Forall₂ (MRel σ) R R') :
    stiff2 R ((X * Q.transpose).submatrix σ id) C =
      (turn n Q * stiff2 R' X C * (turn n Q).transpose).submatrix (relabel σ) (relabel σ) := by
  obtain ⟨α, μ, hC⟩ := umat_isoForm (n := n) hC
  apply form_ext
  intro v u
  unfold stiff2
  rw [form_relabel, conj_form, stiff_form, stiff_form]
  induction h with
  | nil => rfl
  | cons hx _ ih =>
    obtain ⟨hw, -, P, hP, hD⟩ := hx
    obtain ⟨h2, h3⟩ := grad_mirror hP hD hQ hd X
    rw [List.map_cons, List.map_cons, List.sum_cons, List.sum_cons, ih, h2, hw, hC, hC, h3, dgrad_relabel, dgrad_relabel,
      dgrad_rotated hQ, dgrad_rotated hQ, isoForm_rotated _ _ hQ, turn_transpose]

theorem mass_mirror {R R' : QRule K 2 n} {σ : Fin n ≃ Fin n} {X : Matrix (Fin n) (Fin 2) K} {ρ : K}
    (hQ : Q.transpose * Q = 1) (hd : Q.det = -1) (h : List.Forall₂ (MRel σ) R R') :
    mass2 R ((X * Q.transpose).submatrix σ id) ρ =
      (turn n Q * mass2 R' X ρ * (turn n Q).transpose).submatrix (relabel σ) (relabel σ) := by
  have hQ' : Q * Q.transpose = 1 := mul_eq_one_comm.1 hQ
  apply form_ext
  intro v u
  unfold mass2
  rw [form_relabel, conj_form, mass_form, mass_form]
  induction h with
  | nil => rfl
  | @cons x x' R R' hx _ ih =>
    obtain ⟨hw, hN, P, hP, hD⟩ := hx
    obtain ⟨h2, -⟩ := grad_mirror hP hD hQ hd X
    rw [List.map_cons, List.map_cons, List.sum_cons, List.sum_cons, ih, h2, hw]
    congr 2
    have key : ∀ u, (hMat2 x'.1.1).mulVec ((turn n Q).transpose.mulVec (u ∘ (relabel σ).symm)) =
        Q.transpose.mulVec ((hMat2 x.1.1).mulVec u) := by
      intro u
      rw [hMat2_mulVec, hMat2_mulVec, turn_transpose, hN]
      funext i
      simp only [turn_mulVec]
      simp only [Matrix.mulVec, dotProduct, Finset.mul_sum]
      rw [Finset.sum_comm]
      refine Finset.sum_congr rfl fun j _ => ?_
      rw [← Equiv.sum_comp σ (fun a => x'.1.1 a * _)]
      refine Finset.sum_congr rfl fun a _ => ?_
      simp [relabel]
      ring
    rw [key, key]
    generalize (hMat2 x.1.1).mulVec v = a
    generalize (hMat2 x.1.1).mulVec u = b
    rw [dotProduct_mulVec (Q.transpose.mulVec a), vecMul_transpose, mulVec_mulVec, hQ', one_mulVec]

theorem acc_mirror {R R' : QRule K 2 n} {σ : Fin n ≃ Fin n} {X : Matrix (Fin n) (Fin 2) K}
    (hQ : Q.transpose * Q = 1) (hd : Q.det = -1) (h : List.Forall₂ (MRel σ) R R') (ha : Acc R' X) :
    Acc R ((X * Q.transpose).submatrix σ id) := by
  induction h with
  | nil => simp [Acc]
  | @cons x x' R R' hx _ ih =>
    obtain ⟨_, _, P, hP, hD⟩ := hx
    obtain ⟨h2, _⟩ := grad_mirror hP hD hQ hd X
    unfold Acc at *
    rw [List.forall_mem_cons] at *
    exact ⟨by rw [h2]; exact ha.1, ih ha.2⟩

/-- Order of the nodes of the mirrored element, for three, six, four and nine nodes. -/
def rev3 : Fin 3 ≃ Fin 3 where
  toFun := ![0, 2, 1]
  invFun := ![0, 2, 1]
  left_inv := by decide
  right_inv := by decide
def rev6 : Fin 6 ≃ Fin 6 where
  toFun := ![0, 2, 1, 5, 4, 3]
  invFun := ![0, 2, 1, 5, 4, 3]
  left_inv := by decide
  right_inv := by decide
def rev4 : Fin 4 ≃ Fin 4 where
  toFun := ![1, 0, 3, 2]
  invFun := ![1, 0, 3, 2]
  left_inv := by decide
  right_inv := by decide
def rev9 : Fin 9 ≃ Fin 9 where
  toFun := ![1, 0, 3, 2, 4, 7, 6, 5, 8]
  invFun := ![1, 0, 3, 2, 4, 7, 6, 5, 8]
  left_inv := by decide
  right_inv := by decide
def rev8 : Fin 8 ≃ Fin 8 where
  toFun := ![1, 0, 3, 2, 4, 7, 6, 5]
  invFun := ![1, 0, 3, 2, 4, 7, 6, 5]
  left_inv := by decide
  right_inv := by decide

/-- Shape routines which exchanging the local coordinates permutes. -/
theorem swap_tri3 (r s : K) : (shapeTri3 r s).1 = (fun a => (shapeTri3 s r).1 (rev3 a)) ∧
    (shapeTri3 r s).2 = (!![0, 1; 1, 0] : Matrix (Fin 2) (Fin 2) K) * (shapeTri3 s r).2.submatrix id rev3 := by
  constructor
  · funext a
    fin_cases a <;> simp [shapeTri3, rev3]
    ring
  · ext i a
    fin_cases i <;> fin_cases a <;> simp [shapeTri3, rev3, Matrix.mul_apply]

theorem swap_tri6 (r s : K) : (shapeTri6 r s).1 = (fun a => (shapeTri6 s r).1 (rev6 a)) ∧
    (shapeTri6 r s).2 = (!![0, 1; 1, 0] : Matrix (Fin 2) (Fin 2) K) * (shapeTri6 s r).2.submatrix id rev6 := by
  constructor
  · funext a
    fin_cases a <;> simp [shapeTri6, rev6] <;> first | done | ring1 | (left; ring1)
  · ext i a
    fin_cases i <;> fin_cases a <;> simp [shapeTri6, rev6, Matrix.mul_apply] <;> first | done | ring1 | (left; ring1)

/-- Shape routines which changing the sign of the first local coordinate permutes. -/
def Flips (f : K → K → Shape K 2 n) (σ : Fin n ≃ Fin n) : Prop :=
  ∀ r s, (f r s).1 = (fun a => (f (-r) s).1 (σ a)) ∧
    (f r s).2 = (!![-1, 0; 0, 1] : Matrix (Fin 2) (Fin 2) K) * (f (-r) s).2.submatrix id σ

theorem flipP_mul (M : Matrix (Fin 2) (Fin n) K) (σ : Fin n ≃ Fin n) (a : Fin n) :
    ((!![-1, 0; 0, 1] : Matrix (Fin 2) (Fin 2) K) * M.submatrix id σ) 0 a = - M 0 (σ a) ∧
      ((!![-1, 0; 0, 1] : Matrix (Fin 2) (Fin 2) K) * M.submatrix id σ) 1 a = M 1 (σ a) := by
  simp [Matrix.mul_apply]

theorem flips_quad4 : Flips (shapeQuad4 (K := K)) rev4 := by
  intro r s
  constructor
  · funext a
    fin_cases a <;> simp [shapeQuad4, rev4, lit_quarter, lit_half, lit_one, lit_two] <;>
      first | done | ring1 | (left; ring1) | (left; left; ring1)
  · ext i a
    fin_cases i
    · refine Eq.trans ?_ (flipP_mul _ _ _).1.symm
      fin_cases a <;> simp [shapeQuad4, rev4, lit_quarter, lit_half, lit_one, lit_two] <;>
        first | done | ring1 | (left; ring1) | (left; left; ring1)
    · refine Eq.trans ?_ (flipP_mul _ _ _).2.symm
      fin_cases a <;> simp [shapeQuad4, rev4, lit_quarter, lit_half, lit_one, lit_two] <;>
        first | done | ring1 | (left; ring1) | (left; left; ring1)

theorem flips_quad9 : Flips (shapeQuad9 (K := K)) rev9 := by
  intro r s
  constructor
  · funext a
    fin_cases a <;> simp [shapeQuad9, rev9, lit_quarter, lit_half, lit_one, lit_two] <;>
      first | done | ring1 | (left; ring1) | (left; left; ring1)
  · ext i a
    fin_cases i
    · refine Eq.trans ?_ (flipP_mul _ _ _).1.symm
      fin_cases a <;> simp [shapeQuad9, rev9, lit_quarter, lit_half, lit_one, lit_two] <;>
        first | done | ring1 | (left; ring1) | (left; left; ring1)
    · refine Eq.trans ?_ (flipP_mul _ _ _).2.symm
      fin_cases a <;> simp [shapeQuad9, rev9, lit_quarter, lit_half, lit_one, lit_two] <;>
        first | done | ring1 | (left; ring1) | (left; left; ring1)

theorem flips_quad8 : Flips (shapeQuad8 (K := K)) rev8 := by
  intro r s
  constructor
  · funext a
    fin_cases a <;> simp [shapeQuad8, rev8, lit_quarter, lit_half, lit_one, lit_two] <;>
      first | done | ring1 | (left; ring1) | (left; left; ring1)
  · ext i a
    fin_cases i
    · refine Eq.trans ?_ (flipP_mul _ _ _).1.symm
      fin_cases a <;> simp [shapeQuad8, rev8, lit_quarter, lit_half, lit_one, lit_two] <;>
        first | done | ring1 | (left; ring1) | (left; left; ring1)
    · refine Eq.trans ?_ (flipP_mul _ _ _).2.symm
      fin_cases a <;> simp [shapeQuad8, rev8, lit_quarter, lit_half, lit_one, lit_two] <;>
        first | done | ring1 | (left; ring1) | (left; left; ring1)


/-- A triangle rule at the points with the coordinates exchanged. -/
theorem swapped_forall {sh : K → K → Shape K 2 n} {σ : Fin n ≃ Fin n}
    (hf : ∀ r s, (sh r s).1 = (fun a => (sh s r).1 (σ a)) ∧
      (sh r s).2 = (!![0, 1; 1, 0] : Matrix (Fin 2) (Fin 2) K) * (sh s r).2.submatrix id σ) (l : List ((ℚ × ℚ) × ℚ)) :
    List.Forall₂ (MRel σ) (l.map fun x => (sh (x.1.1 : K) (x.1.2 : K), 0.5 * (x.2 : K)))
      (l.map fun x => (sh (x.1.2 : K) (x.1.1 : K), 0.5 * (x.2 : K))) := by
  induction l with
  | nil => exact .nil
  | cons x l ih => exact .cons ⟨rfl, (hf _ _).1, _, by simp [Matrix.det_fin_two], (hf _ _).2⟩ ih

/-- A rule on the square at the points with the first coordinate changed in sign. -/
def flippedRule (f : K → K → Shape K 2 n) (pts wts : List ℚ) : QRule K 2 n :=
  ((prodRepeat pts 2).zip ((prodRepeat wts 2).map List.prod)).map
    fun x => (f (-((x.1.getD 0 0 : ℚ) : K)) (x.1.getD 1 0 : ℚ), (x.2 : K))

theorem flipped_forall {f : K → K → Shape K 2 n} {σ : Fin n ≃ Fin n} (hf : Flips f σ) (pts wts : List ℚ) :
    List.Forall₂ (MRel σ) (ruleQuad f pts wts) (flippedRule f pts wts) := by
  unfold ruleQuad flippedRule
  generalize (prodRepeat pts 2).zip ((prodRepeat wts 2).map List.prod) = l
  induction l with
  | nil => exact .nil
  | cons x l ih => exact .cons ⟨rfl, (hf _ _).1, _, by simp [Matrix.det_fin_two], (hf _ _).2⟩ ih

theorem flip2 (sh : K → K → Shape K 2 n) : (flippedRule sh pts1d2 wts1d2).Perm (ruleQuad sh pts1d2 wts1d2) := by
  obtain ⟨g, hg⟩ : ∃ g : ℚ, pts1d2 = [-g, g] := ⟨_, rfl⟩
  obtain ⟨w, hw⟩ : ∃ w : ℚ, wts1d2 = [w, w] := ⟨_, rfl⟩
  rw [hg, hw]
  let F : Fin 4 → Shape K 2 n × K := ![(sh (-(g : K)) (-(g : K)), (w : K) * w),
    (sh (-(g : K)) g, (w : K) * w), (sh g (-(g : K)), (w : K) * w), (sh g g, (w : K) * w)]
  have h1 : flippedRule sh [-g, g] [w, w] = [2, 3, 0, 1].map F := by
    simp [flippedRule, prodRepeat, F]
  have h2 : ruleQuad sh [-g, g] [w, w] = [0, 1, 2, 3].map F := by
    simp [ruleQuad, at2, prodRepeat, F]
  rw [h1, h2]
  exact List.Perm.map F (by decide)

theorem flip3 (sh : K → K → Shape K 2 n) : (flippedRule sh pts1d3 wts1d3).Perm (ruleQuad sh pts1d3 wts1d3) := by
  obtain ⟨g, hg⟩ : ∃ g : ℚ, pts1d3 = [-g, 0, g] := ⟨_, rfl⟩
  obtain ⟨w, v, hw⟩ : ∃ w v : ℚ, wts1d3 = [w, v, w] := ⟨_, _, rfl⟩
  rw [hg, hw]
  let F : Fin 9 → Shape K 2 n × K := ![(sh (-(g : K)) (-(g : K)), (w : K) * w),
    (sh (-(g : K)) 0, (w : K) * v), (sh (-(g : K)) g, (w : K) * w),
    (sh 0 (-(g : K)), (v : K) * w), (sh 0 0, (v : K) * v), (sh 0 g, (v : K) * w),
    (sh g (-(g : K)), (w : K) * w), (sh g 0, (w : K) * v), (sh g g, (w : K) * w)]
  have h1 : flippedRule sh [-g, 0, g] [w, v, w] = [6, 7, 8, 3, 4, 5, 0, 1, 2].map F := by
    simp [flippedRule, prodRepeat, F]
  have h2 : ruleQuad sh [-g, 0, g] [w, v, w] = [0, 1, 2, 3, 4, 5, 6, 7, 8].map F := by
    simp [ruleQuad, at2, prodRepeat, F]
  rw [h1, h2]
  exact List.Perm.map F (by decide)

theorem mirror_rule {f : Uel K} {R R' : QRule K 2 n} {σ : Fin n ≃ Fin n} (hR : PlaneRule n f R)
    (hF : List.Forall₂ (MRel σ) R R') (hp : R'.Perm R) {X : Matrix (Fin n) (Fin 2) K} {params : List K} {k m}
    (h : Returns f X params k m) (hQ : Q.transpose * Q = 1) (hd : Q.det = -1) :
    Returns f ((X * Q.transpose).submatrix σ id) params
      ((turn n Q * k * (turn n Q).transpose).submatrix (relabel σ) (relabel σ))
      ((turn n Q * m * (turn n Q).transpose).submatrix (relabel σ) (relabel σ)) := by
  obtain ⟨hg, st, hr⟩ := returns_plane hR
  obtain ⟨C, ρ, hm, ha, rfl, rfl⟩ := (hr _ _ _ _).1 h
  refine (hr _ _ _ _).2 ⟨C, ρ, hm, ?_, ?_, ?_⟩
  · exact acc_mirror hQ hd hF fun x hx => ha x (hp.subset hx)
  · rw [stiff_mirror hm.2.1 hQ hd hF, stiff_perm hp]
  · rw [mass_mirror hQ hd hF, mass_perm hp]

/-- The nodes of an element read in the other sense, for the elements with three, four, six, eight and nine nodes: corners,
midpoints of the sides and centre stay what they are. -/
def Spec.reversed {α : Type} : List α → List α
  | [a, b, c] => [a, c, b]
  | [a, b, c, d] => [b, a, d, c]
  | [a, b, c, d, e, f] => [a, c, b, f, e, d]
  | [a, b, c, d, e, f, g, h] => [b, a, d, c, e, h, g, f]
  | [a, b, c, d, e, f, g, h, i] => [b, a, d, c, e, h, g, f, i]
  | l => l

/-- The place in the old order of the node which is at place `a` in the reversed one. -/
def Spec.backward (n : ℕ) (a : Fin n) : Fin n := (reversed (List.finRange n)).getD a a

theorem ruleTri3_swapped : ((ptsTri2.zip wtsTri2).map fun x =>
    (shapeTri3 (x.1.2 : K) (x.1.1 : K), 0.5 * (x.2 : K))).Perm ruleTri3 := by
  have h : ((ptsTri2.zip wtsTri2).map fun x => ((x.1.2, x.1.1), x.2)).Perm (ptsTri2.zip wtsTri2) := by
    decide +kernel
  have := h.map fun x : (ℚ × ℚ) × ℚ => (shapeTri3 (x.1.1 : K) (x.1.2 : K), (0.5 : K) * (x.2 : K))
  rw [List.map_map] at this
  exact this

theorem ruleTri6_swapped : ((ptsTri3.zip wtsTri3).map fun x =>
    (shapeTri6 (x.1.2 : K) (x.1.1 : K), 0.5 * (x.2 : K))).Perm ruleTri6 := by
  have h : ((ptsTri3.zip wtsTri3).map fun x => ((x.1.2, x.1.1), x.2)).Perm (ptsTri3.zip wtsTri3) := by
    decide +kernel
  have := h.map fun x : (ℚ × ℚ) × ℚ => (shapeTri6 (x.1.1 : K) (x.1.2 : K), (0.5 : K) * (x.2 : K))
  rw [List.map_map] at this
  exact this

/-- The order of the mirrored element, as a permutation. -/
theorem plane_mirror {f : Uel K} (hf : PlaneElement n f) : ∃ σ : Fin n ≃ Fin n, (⇑σ = backward n) ∧
    (∀ l : List ℕ, l.length = n → (reversed l).length = n ∧ ∀ a : Fin n, (reversed l).getD a 0 = l.getD (σ a) 0) ∧
    ∀ {Q : Matrix (Fin 2) (Fin 2) K} {X : Matrix (Fin n) (Fin 2) K} {params : List K} {k m}, Returns f X params k m →
      Q.transpose * Q = 1 → Q.det = -1 →
      Returns f ((X * Q.transpose).submatrix σ id) params
        ((turn n Q * k * (turn n Q).transpose).submatrix (relabel σ) (relabel σ))
        ((turn n Q * m * (turn n Q).transpose).submatrix (relabel σ) (relabel σ)) := by
  cases hf
  · refine ⟨rev3, by funext a; revert a; decide, fun l hl => ?_, fun h => mirror_rule .tri3 (swapped_forall swap_tri3 _) ruleTri3_swapped h⟩
    match l, hl with
    | [a, b, c], _ => exact ⟨rfl, fun i => by fin_cases i <;> rfl⟩
  · refine ⟨rev6, by funext a; revert a; decide, fun l hl => ?_, fun h => mirror_rule .tri6 (swapped_forall swap_tri6 _) ruleTri6_swapped h⟩
    match l, hl with
    | [a, b, c, d, e, f], _ => exact ⟨rfl, fun i => by fin_cases i <;> rfl⟩
  · refine ⟨rev4, by funext a; revert a; decide, fun l hl => ?_, fun h => mirror_rule .quad4 (flipped_forall flips_quad4 _ _) (flip2 _) h⟩
    match l, hl with
    | [a, b, c, d], _ => exact ⟨rfl, fun i => by fin_cases i <;> rfl⟩
  · refine ⟨rev9, by funext a; revert a; decide, fun l hl => ?_, fun h => mirror_rule .quad9 (flipped_forall flips_quad9 _ _) (flip3 _) h⟩
    match l, hl with
    | [a, b, c, d, e, f, g, h, i], _ => exact ⟨rfl, fun i => by fin_cases i <;> rfl⟩
  · refine ⟨rev8, by funext a; revert a; decide, fun l hl => ?_, fun h => mirror_rule .quad8 (flipped_forall flips_quad8 _ _) (flip3 _) h⟩
    match l, hl with
    | [a, b, c, d, e, f, g, h], _ => exact ⟨rfl, fun i => by fin_cases i <;> rfl⟩

/-- C137.  The mirror image of an element, with its nodes read in the other sense, is accepted, and its stiffness and mass are
the mirror images of the old ones. -/
theorem C137_mirrored {f : Uel K} (hf : PlaneElement n f) {X : Matrix (Fin n) (Fin 2) K} {params : List K} {k m}
    (h : Returns f X params k m) (hQ : Q.transpose * Q = 1) (hd : Q.det = -1) :
    Returns f (fun a => (X * Q.transpose) (backward n a)) params
      (fun p q => (turn n Q * k * (turn n Q).transpose) (backward n p.1, p.2) (backward n q.1, q.2))
      (fun p q => (turn n Q * m * (turn n Q).transpose) (backward n p.1, p.2) (backward n q.1, q.2)) := by
  obtain ⟨σ, h1, -, h3⟩ := plane_mirror hf
  have := h3 h hQ hd
  rw [← h1]
  exact this

/-- C137.  With its nodes in the old order the mirror image is not accepted. -/
theorem C137_not_reversed {f : Uel K} (hf : PlaneElement n f) {X : Matrix (Fin n) (Fin 2) K} {params params' : List K} {k m k' m'}
    (h : Returns f X params k m) (hd : Q.det = -1) : ¬ Returns f (X * Q.transpose) params' k' m' := by
  obtain ⟨R, hR⟩ := plane_rule hf
  obtain ⟨hg, st, hr⟩ := returns_plane hR
  obtain ⟨C, ρ, hm, ha, rfl, rfl⟩ := (hr _ _ _ _).1 h
  intro h'
  obtain ⟨C', ρ', hm', ha', rfl, rfl⟩ := (hr _ _ _ _).1 h'
  obtain ⟨x, hx⟩ := List.exists_mem_of_ne_nil _ hg.ne
  have h1 := ha x hx
  have h2 := ha' x hx
  have h3 : jdet x.1 (X * Q.transpose) = - jdet x.1 X := by
    unfold jdet
    rw [← Matrix.mul_assoc, det_mul, det_transpose, hd]
    ring
  rw [h3] at h2
  have := tol_pos (K := K)
  linarith

theorem turned_cell (k : Matrix (Fin n × Fin 2) (Fin n × Fin 2) K) (p q : Fin n × Fin 2) :
    (turn n Q * k * (turn n Q).transpose) p q = ∑ i, ∑ j, Q p.2 i * k (p.1, i) (q.1, j) * Q q.2 j := by
  obtain ⟨a, i⟩ := p
  obtain ⟨b, j⟩ := q
  have h := conj_form (turn n Q) k (Pi.single (a, i) 1) (Pi.single (b, j) 1)
  rw [single_one_dotProduct, mulVec_single_one, col_apply] at h
  rw [h, turn_transpose]
  unfold dotProduct Matrix.mulVec dotProduct
  have e : ∀ (a : Fin n) (i : Fin 2) (p : Fin n × Fin 2), ∑ q, turn n Q.transpose p q * (Pi.single (a, i) 1 : Fin n × Fin 2 → K) q =
      if p.1 = a then Q i p.2 else 0 := by
    intro a i p
    rw [Finset.sum_eq_single (a, i)]
    · simp [turn]
    · intro b _ hb
      simp [hb]
    · simp
  simp only [e]
  rw [Fintype.sum_prod_type, Finset.sum_eq_single a]
  · refine Finset.sum_congr rfl fun i' _ => ?_
    rw [if_pos rfl, Fintype.sum_prod_type, Finset.sum_eq_single b]
    · rw [Finset.mul_sum]
      refine Finset.sum_congr rfl fun j' _ => ?_
      rw [if_pos rfl, mul_assoc]
    · intro b' _ hb
      exact Finset.sum_eq_zero fun j' _ => by rw [if_neg hb, mul_zero]
    · simp
  · intro a' _ ha
    exact Finset.sum_eq_zero fun j' _ => by rw [if_neg ha, zero_mul]
  · simp

/-- The unit square and its mirror image across the second axis: the coupling of the two components changes sign. -/
example : ∃ k m, Returns elastQuad4 unitSquare [1, 1/4] k m ∧
    ∃ k' m', Returns elastQuad4 (!![-1, 0; 0, 0; 0, 1; -1, 1] : Matrix (Fin 4) (Fin 2) ℚ) [1, 1/4] k' m' ∧
      k' (0, 0) (1, 1) = - k (1, 0) (0, 1) := by
  obtain ⟨k, m, h⟩ := unitSquare_returns
  have hQ : (!![-1, 0; 0, 1] : Matrix (Fin 2) (Fin 2) ℚ).transpose * !![-1, 0; 0, 1] = 1 := by decide +kernel
  have := C137_mirrored .quad4 h hQ (by decide +kernel)
  have e : (fun a => (unitSquare * (!![-1, 0; 0, 1] : Matrix (Fin 2) (Fin 2) ℚ).transpose) (backward 4 a)) =
      (!![-1, 0; 0, 0; 0, 1; -1, 1] : Matrix (Fin 4) (Fin 2) ℚ) := by
    funext a i
    fin_cases a <;> fin_cases i <;> norm_num [backward, reversed, unitSquare, Matrix.mul_apply, List.finRange, Fin.sum_univ_two] <;> rfl
  refine ⟨k, m, h, _, _, e ▸ this, ?_⟩
  dsimp only
  rw [turned_cell]
  have b0 : backward 4 0 = 1 := by decide
  have b1 : backward 4 1 = 0 := by decide
  simp [Fin.sum_univ_two, b0, b1]

/-! # C138: mirrored models -/

variable {sq : K → K} {sp de : Sol.Solver K} {d d' : Gui.Data K} {ms ms' : List (Member K)} {t : Fin 2 → K}

/-- An element row with its nodes in any order over any table of nodes, where its routine accepts the coordinates. -/
theorem member_built {mats nodes' : Table K} {el : List ℤ} {ps : List ℕ} (h3 : ∀ r ∈ nodes', r.length = 3)
    (hps : List.Forall₂ (Resolves nodes'.length) (el.drop 3) ps) (hn : ps.length = n)
    {ty mi : ℤ} {q : ℕ} {params : List K} {f : Uel K} {X' : Matrix (Fin n) (Fin 2) K} {k' mm'}
    (hty : el[1]? = some ty) (hf : Uel.eleFun sq ty = .ok f) (hmi : el[2]? = some mi) (hq : Resolves mats.length mi q)
    (hp : mats[q]? = some params) (hr : Returns f X' params k' mm')
    (hc : ∀ (a : Fin n) (i : Fin 2), entry nodes' (ps.getD a 0) (i + 1) = some (X' a i)) :
    ∃ m', IsMember (Routine sq) mats nodes' el m' ∧ m'.nodes = ps ∧ Placed nodes' m' X' k' := by
  obtain ⟨A, B, hAB, hA, hB⟩ := hr
  obtain ⟨rows, hrows⟩ : ∃ rows, List.Forall₂ (fun p row => nodes'[p]? = some row) ps rows := by
    have hin : ∀ p ∈ ps, p < nodes'.length := by
      intro p hp
      obtain ⟨i, hi, rfl⟩ := List.mem_iff_getElem.1 hp
      exact (hps.get (i := i) (by rw [hps.length_eq]; exact hi) hi).1
    clear hps hc hn
    induction ps with
    | nil => exact ⟨[], .nil⟩
    | cons p l ih =>
      obtain ⟨rows, hrows⟩ := ih fun q hq => hin q (List.mem_cons_of_mem _ hq)
      exact ⟨_, .cons (List.getElem?_eq_getElem (hin p List.mem_cons_self)) hrows⟩
  have hlen : rows.length = n := hrows.length_eq.symm.trans hn
  have hX : rows.map (List.drop 1) = matRows X' := by
    apply List.ext_getElem
    · simp [matRows, hlen]
    · intro a ha ha'
      have ha : a < rows.length := by simpa using ha
      have han : a < n := by omega
      have hm : a < ps.length := by rw [hn]; exact han
      have e1 := hrows.get (i := a) hm ha
      simp only [List.get_eq_getElem] at e1
      have hw := h3 _ (List.mem_of_getElem? e1)
      have c0 := hc ⟨a, han⟩ 0
      have c1 := hc ⟨a, han⟩ 1
      simp only [List.getD_eq_getElem?_getD, List.getElem?_eq_getElem hm, Option.getD_some] at c0 c1
      obtain ⟨r0, hr0, x0⟩ := entry_some.1 c0
      obtain ⟨r1, hr1, x1⟩ := entry_some.1 c1
      rw [e1, Option.some.injEq] at hr0 hr1
      subst hr0
      rw [← hr1] at x1
      simp only [List.getElem_map, matRows, List.getElem_ofFn]
      generalize rows[a] = r at hw x0 x1
      match r, hw with
      | [i, x, y], _ =>
        simp at x0 x1
        simp [List.ofFn_succ, x0, x1]
  have hm : IsMember (Routine sq) mats nodes' el ⟨ps, cell A⟩ := by
    refine ⟨ty, mi, params, rows, f, A, B, hty, hmi, ⟨q, hq, hp⟩, hps, hrows, hf, ?_, rfl⟩
    rw [hX]
    exact hAB
  exact ⟨_, hm, rfl, placed_of_rows hrows hX rfl hA⟩

/-- The order of the nodes for a mirrored or a moved element. -/
def Spec.inOrder (mirror : Bool) {α : Type} (l : List α) : List α := if mirror then reversed l else l

/-- The row `el'` describes a copy of the element `el`: the same type and material, its nodes (in reversed order for a mirror
image) carried by `φ` from a table of `n` nodes to a table of `n'`. -/
structure Spec.CopyOf (n n' : ℕ) (φ : ℕ → ℕ) (mirror : Bool) (el el' : List ℤ) : Prop where
  type : el'[1]? = el[1]?
  mat : el'[2]? = el[2]?
  nodes : ∀ ps, List.Forall₂ (Resolves n) (el.drop 3) ps → List.Forall₂ (Resolves n') (el'.drop 3) ((inOrder mirror ps).map φ)

/-- `φ` puts the nodes of one table where the reflection or rotation `Q` with the shift `t` takes them in another. -/
def Spec.PutBy (Q : Matrix (Fin 2) (Fin 2) K) (t : Fin 2 → K) (φ : ℕ → ℕ) (nodes nodes' : Table K) : Prop :=
  ∀ p < nodes.length, φ p < nodes'.length ∧
    ∀ i : Fin 2, coordOf nodes' (φ p) i = Q i 0 * coordOf nodes p 0 + Q i 1 * coordOf nodes p 1 + t i

theorem reversed_two {l : List ℕ} (h : l.length = 2) : reversed l = l := by
  match l, h with
  | [a, b], _ => rfl

theorem Structural.copied (hs : SqrtFn sq) {f : Uel K} (hf : Structural sq n f) (mirror : Bool) : ∃ σ : Fin n ≃ Fin n,
    (∀ l : List ℕ, l.length = n → (inOrder mirror l).length = n ∧ ∀ a : Fin n, (inOrder mirror l).getD a 0 = l.getD (σ a) 0) ∧
    ∀ {X : Matrix (Fin n) (Fin 2) K} {params : List K} {k m}, Returns f X params k m →
      Q.transpose * Q = 1 → Q.det = (if mirror then -1 else 1) → ∀ t,
      Returns f ((shifted (X * Q.transpose) t).submatrix σ id) params
        ((turn n Q * k * (turn n Q).transpose).submatrix (relabel σ) (relabel σ))
        ((turn n Q * m * (turn n Q).transpose).submatrix (relabel σ) (relabel σ)) := by
  cases mirror with
  | false =>
    refine ⟨.refl _, fun l hl => ⟨hl, fun a => rfl⟩, fun h hQ hd t => ?_⟩
    exact Structural.placed hs hf h hQ (by simpa using hd) t
  | true =>
    rcases hf with hf | ⟨rfl, rfl⟩
    · obtain ⟨σ, -, h2, h3⟩ := plane_mirror hf
      refine ⟨σ, h2, fun h hQ hd t => ?_⟩
      exact (C44_plane hf _ t _ _ _).2 (h3 h hQ (by simpa using hd))
    · refine ⟨.refl _, fun l hl => ?_, fun h hQ _ t => C44_truss hs (C45_truss_rotation hs h hQ) t⟩
      have : inOrder true l = l := reversed_two hl
      rw [this]
      exact ⟨hl, fun a => rfl⟩

/-- A copy of an element does the work of the original on the field carried back. -/
theorem member_copied (hs : SqrtFn sq) {mats nodes nodes' : Table K} {el el' : List ℤ} {m : Member K}
    (h : IsMember (Routine sq) mats nodes el m) (h3 : ∀ r ∈ nodes, r.length = 3) (h3' : ∀ r ∈ nodes', r.length = 3)
    (hty : ∀ ty, el[1]? = some ty → ty ∈ [(1 : ℤ), 2, 3, 4] ∨ (ty = 6 ∧ (el.drop 3).length = 2))
    {φ : ℕ → ℕ} {mirror : Bool} (hel : CopyOf nodes.length nodes'.length φ mirror el el')
    (hQ : Q.transpose * Q = 1) (hd : Q.det = if mirror then -1 else 1) (hφ : PutBy Q t φ nodes nodes') :
    ∃ m', IsMember (Routine sq) mats nodes' el' m' ∧ ∀ V U, m'.form 2 V U =
      m.form 2 (fun p => turned Q.transpose V (φ p)) (fun p => turned Q.transpose U (φ p)) := by
  obtain ⟨ty, mi, q, params, n, f, X, k, mm, a1, a2, a3, a4, a5, a6, a7, a8⟩ := member_placed h h3 hty
  obtain ⟨_, _, _, _, _, _, _, -, -, -, b5, -, -⟩ := id h
  obtain ⟨σ, hσ, hR⟩ := a6.copied (Q := Q) hs mirror
  obtain ⟨hl, hσ⟩ := hσ _ a8.size
  have hX : ∀ (a : Fin n) (i : Fin 2), X a i = coordOf nodes (m.nodes.getD a 0) i := by
    intro a i
    have := a8.coord a i
    unfold coordOf fieldOf
    rw [this]
    rfl
  have hin : ∀ a : Fin n, m.nodes.getD a 0 < nodes.length := by
    intro a
    have ha : (a : ℕ) < m.nodes.length := by rw [a8.size]; exact a.2
    rw [List.getD_eq_getElem?_getD, List.getElem?_eq_getElem ha, Option.getD_some]
    exact (b5.get (i := (a : ℕ)) (by rw [b5.length_eq]; exact ha) ha).1
  have hget : ∀ a : Fin n, ((inOrder mirror m.nodes).map φ).getD a 0 = φ (m.nodes.getD (σ a) 0) := by
    intro a
    rw [← hσ a]
    have ha : (a : ℕ) < (inOrder mirror m.nodes).length := by rw [hl]; exact a.2
    simp [List.getD_eq_getElem?_getD, List.getElem?_eq_getElem ha]
  obtain ⟨m', c1, c2, c3⟩ := member_built h3' (hel.nodes _ b5) (by rw [List.length_map]; exact hl) (by rw [hel.type]; exact a1) a2
    (by rw [hel.mat]; exact a3) a4 a5 (hR a7 hQ hd t) (by
      intro a i
      obtain ⟨e1, e2⟩ := hφ _ (hin (σ a))
      rw [hget, coord_entry h3' e1 i, e2 i]
      simp only [shifted, Matrix.submatrix_apply, id, Matrix.of_apply, Matrix.mul_apply, Fin.sum_univ_two, transpose_apply, hX]
      congr 1
      simp only [Fin.val_zero, Fin.val_one]
      ring)
  refine ⟨m', c1, fun V U => ?_⟩
  have hpick : ∀ V : ℕ → ℕ → K, (turn n Q).transpose.mulVec (m'.pick n V ∘ (relabel σ).symm) =
      m.pick n (fun p => turned Q.transpose V (φ p)) := by
    intro V
    have e : m'.pick n V ∘ (relabel σ).symm = m.pick n (fun p => V (φ p)) := by
      funext ⟨a, i⟩
      simp only [Function.comp_apply, Member.pick]
      rw [c2, hget]
      simp [relabel]
    rw [e, turn_transpose, ← pick_turned]
    rfl
  rw [c3.form, a8.form, form_relabel, conj_form, hpick, hpick]

/-- A row of the table of elements with its nodes in reversed order. -/
def Spec.reverseRow (el : List ℤ) : List ℤ := el.take 3 ++ reversed (el.drop 3)

/-- `d'` is the mirror image of the model `d` under the reflection `Q` and the shift `t`: nodes, loads and supports are
reflected, and the nodes of every element are listed in reversed order. -/
structure Spec.Mirrored (Q : Matrix (Fin 2) (Fin 2) K) (t : Fin 2 → K) (d d' : Gui.Data K) : Prop where
  placed : Replaced Q t d { d' with elements := d.elements }
  elements : d'.elements = d.elements.map reverseRow

theorem forall_reversed {α β : Type} {R : α → β → Prop} {l : List α} {l' : List β} (h : List.Forall₂ R l l') :
    List.Forall₂ R (reversed l) (reversed l') := by
  unfold reversed
  split
  · obtain _ | ⟨h1, _ | ⟨h2, _ | ⟨h3, _ | _⟩⟩⟩ := h
    exact .cons h1 (.cons h3 (.cons h2 .nil))
  · obtain _ | ⟨h1, _ | ⟨h2, _ | ⟨h3, _ | ⟨h4, _ | _⟩⟩⟩⟩ := h
    exact .cons h2 (.cons h1 (.cons h4 (.cons h3 .nil)))
  · obtain _ | ⟨h1, _ | ⟨h2, _ | ⟨h3, _ | ⟨h4, _ | ⟨h5, _ | ⟨h6, _ | _⟩⟩⟩⟩⟩⟩ := h
    exact .cons h1 (.cons h3 (.cons h2 (.cons h6 (.cons h5 (.cons h4 .nil)))))
  · obtain _ | ⟨h1, _ | ⟨h2, _ | ⟨h3, _ | ⟨h4, _ | ⟨h5, _ | ⟨h6, _ | ⟨h7, _ | ⟨h8, _ | _⟩⟩⟩⟩⟩⟩⟩⟩ := h
    exact .cons h2 (.cons h1 (.cons h4 (.cons h3 (.cons h5 (.cons h8 (.cons h7 (.cons h6 .nil)))))))
  · obtain _ | ⟨h1, _ | ⟨h2, _ | ⟨h3, _ | ⟨h4, _ | ⟨h5, _ | ⟨h6, _ | ⟨h7, _ | ⟨h8, _ | ⟨h9, _ | _⟩⟩⟩⟩⟩⟩⟩⟩⟩ := h
    exact .cons h2 (.cons h1 (.cons h4 (.cons h3 (.cons h5 (.cons h8 (.cons h7 (.cons h6 (.cons h9 .nil))))))))
  · next n3 n4 n6 n8 n9 =>
    split
    · obtain _ | ⟨h1, _ | ⟨h2, _ | ⟨h3, _ | _⟩⟩⟩ := h
      exact absurd rfl (n3 _ _ _)
    · obtain _ | ⟨h1, _ | ⟨h2, _ | ⟨h3, _ | ⟨h4, _ | _⟩⟩⟩⟩ := h
      exact absurd rfl (n4 _ _ _ _)
    · obtain _ | ⟨h1, _ | ⟨h2, _ | ⟨h3, _ | ⟨h4, _ | ⟨h5, _ | ⟨h6, _ | _⟩⟩⟩⟩⟩⟩ := h
      exact absurd rfl (n6 _ _ _ _ _ _)
    · obtain _ | ⟨h1, _ | ⟨h2, _ | ⟨h3, _ | ⟨h4, _ | ⟨h5, _ | ⟨h6, _ | ⟨h7, _ | ⟨h8, _ | _⟩⟩⟩⟩⟩⟩⟩⟩ := h
      exact absurd rfl (n8 _ _ _ _ _ _ _ _)
    · obtain _ | ⟨h1, _ | ⟨h2, _ | ⟨h3, _ | ⟨h4, _ | ⟨h5, _ | ⟨h6, _ | ⟨h7, _ | ⟨h8, _ | ⟨h9, _ | _⟩⟩⟩⟩⟩⟩⟩⟩⟩ := h
      exact absurd rfl (n9 _ _ _ _ _ _ _ _ _)
    · exact h

theorem reversed_length {α : Type} (l : List α) : (reversed l).length = l.length := by
  unfold reversed
  split <;> rfl

theorem reverseRow_copy {el : List ℤ} (hl : 3 ≤ el.length) (n : ℕ) : CopyOf n n id true el (reverseRow el) := by
  have e : (reverseRow el).drop 3 = reversed (el.drop 3) := by
    unfold reverseRow
    rw [List.drop_append_of_le_length (by rw [List.length_take]; omega), List.drop_eq_nil_of_le (by rw [List.length_take]; omega)]
    rfl
  refine ⟨?_, ?_, fun ps h => ?_⟩
  · unfold reverseRow
    rw [List.getElem?_append_left (by rw [List.length_take]; omega), List.getElem?_take_of_lt (by omega)]
  · unfold reverseRow
    rw [List.getElem?_append_left (by rw [List.length_take]; omega), List.getElem?_take_of_lt (by omega)]
  · rw [e, List.map_id]
    exact forall_reversed h

theorem member_length {fn : ℤ → Uel K → Prop} {mats nodes : Table K} {el : List ℤ} {m : Member K} (h : IsMember fn mats nodes el m) :
    3 ≤ el.length := by
  obtain ⟨_, _, _, _, _, _, _, -, h2, -⟩ := h
  have := (List.getElem?_eq_some_iff.1 h2).1
  omega

theorem members_mirrored (hs : SqrtFn sq) (hp : PlaneModel d) (hr : Mirrored Q t d d') (hQ : Q.transpose * Q = 1) (hd : Q.det = -1)
    (hms : Members sq d ms) : ∃ ms', Members sq d' ms' ∧
      ∀ V U, (ms'.map fun m => m.form 2 (turned Q V) (turned Q U)).sum = (ms.map fun m => m.form 2 V U).sum := by
  unfold Members at *
  rw [hr.elements]
  have hput : PutBy Q t id d.nodes d'.nodes := fun p hp' => ⟨by
    have := hr.placed.size
    dsimp only at this
    rw [this]
    exact hp', fun i => hr.placed.coord p hp' i⟩
  have hb : ∀ (V : ℕ → ℕ → K) p, ∀ j < 2, turned Q.transpose (turned Q V) p j = V p j := fun V p j hj =>
    (turned_back (Q := Q.transpose) (by rw [transpose_transpose]; exact hQ) V p j hj).symm ▸ by rw [transpose_transpose]
  have key : ∀ els : List (List ℤ), (∀ el ∈ els, el ∈ d.elements) → ∀ ms,
      List.Forall₂ (IsMember (Routine sq) d.mats d.nodes) els ms → ∃ ms',
      List.Forall₂ (IsMember (Routine sq) d'.mats d'.nodes) (els.map reverseRow) ms' ∧
      ∀ V U, (ms'.map fun m => m.form 2 (turned Q V) (turned Q U)).sum = (ms.map fun m => m.form 2 V U).sum := by
    intro els hels ms h
    induction h with
    | nil => exact ⟨[], .nil, fun _ _ => rfl⟩
    | cons h _ ih =>
      obtain ⟨ms', h1, h2⟩ := ih fun el hel => hels el (List.mem_cons_of_mem _ hel)
      obtain ⟨m', c1, c2⟩ := member_copied hs h hp.nodes hr.placed.width (hp.types _ (hels _ List.mem_cons_self))
        (by
          have := hr.placed.size
          dsimp only at this
          rw [this]
          exact reverseRow_copy (member_length h) _) hQ (by simpa using hd) hput
      refine ⟨m' :: ms', .cons (by rw [show d'.mats = d.mats from hr.placed.mats]; exact c1) h1, fun V U => ?_⟩
      rw [List.map_cons, List.map_cons, List.sum_cons, List.sum_cons, h2, c2]
      congr 1
      unfold Member.form Member.force
      refine Finset.sum_congr rfl fun a _ => Finset.sum_congr rfl fun j hj => ?_
      rw [Finset.mem_range] at hj
      dsimp only [id]
      rw [hb V _ j hj]
      congr 1
      refine Finset.sum_congr rfl fun b _ => Finset.sum_congr rfl fun c hc => ?_
      rw [Finset.mem_range] at hc
      rw [hb U _ c hc]
  exact key _ (fun _ h => h) _ hms

theorem Spec.Mirrored.carries (hs : SqrtFn sq) (hp : PlaneModel d) (hr : Mirrored Q t d d') (hQ : Q.transpose * Q = 1)
    (hd : Q.det = -1) (hms : Members sq d ms) (hms' : Members sq d' ms') : Carries (turned Q) 1 d d' ms ms' where
  size := hr.placed.size
  adm V hV := (hr.placed.supports V).1 hV
  onto V' hV' := by
    have hb : ∀ p, ∀ j < 2, V' p j = turned Q (turned Q.transpose V') p j := fun p =>
      turned_back (mul_eq_one_comm.1 hQ) V' p
    exact ⟨turned Q.transpose V', (hr.placed.supports _).2 ((admissible_congr hb).1 hV'), fun p _ => hb p⟩
  zero V hV p hp j hj := by
    unfold turned
    rw [dif_pos hj, hV p hp 0 (by omega), hV p hp 1 (by omega)]
    ring
  form V U := by
    obtain ⟨ms'', h1, h2⟩ := members_mirrored hs hp hr hQ hd hms
    obtain rfl := members_unique hms' h1
    rw [h2, one_mul]

/-- All elements of the mirror image are accepted. -/
theorem C138_accepted (hs : SqrtFn sq) (hp : PlaneModel d) (hr : Mirrored Q t d d') (hQ : Q.transpose * Q = 1) (hd : Q.det = -1)
    (hms : Members sq d ms) : ∃ ms', Members sq d' ms' := by
  obtain ⟨ms', h, -⟩ := members_mirrored hs hp hr hQ hd hms
  exact ⟨ms', h⟩

/-- The supports hold the mirror image if they hold the model. -/
theorem C138_stable (hs : SqrtFn sq) (hp : PlaneModel d) (hr : Mirrored Q t d d') (hQ : Q.transpose * Q = 1) (hd : Q.det = -1)
    (hwf : WellFormed d) (hwf' : WellFormed d') (hms : Members sq d ms) (hms' : Members sq d' ms') (hst : Stable d.cons 2 ms) :
    Stable d'.cons 2 ms' :=
  (hr.carries hs hp hQ hd hms hms').stable one_ne_zero hwf hwf' hms hms' hst

/-- The displacements of the mirror image are the mirror image of the displacements. -/
theorem C138_displacements (hs : SqrtFn sq) (hp : PlaneModel d) (hr : Mirrored Q t d d') (hQ : Q.transpose * Q = 1) (hd : Q.det = -1)
    (hwf : WellFormed d) (hwf' : WellFormed d') (hsp : SolverOk sp) (hms : Members sq d ms) (hst : Stable d.cons 2 ms)
    {plot plot' : Bool} {res res' : Gui.Result K} (h : Gui.solidsAuto sq sp de d plot = .ok res)
    (h' : Gui.solidsAuto sq sp de d' plot' = .ok res') {p : ℕ} (hpn : p < d.nodes.length) (i : Fin 2) :
    ∃ x y, entry res.disp p 0 = some x ∧ entry res.disp p 1 = some y ∧ entry res'.disp p i = some (Q i 0 * x + Q i 1 * y) := by
  obtain ⟨ms', hms'⟩ := C138_accepted hs hp hr hQ hd hms
  obtain ⟨F, hF⟩ : ∃ F, LoadField d F := by
    choose F hF using fun p : ℕ => fun j : ℕ => isLoad_exists (n := d.nodes.length) (p := p) (j := j) (loads := d.loads)
    exact ⟨fun p j => if h : j < 2 then F p j h hr.placed.rows else 0, fun p j _ hj => by
      dsimp only
      rw [dif_pos hj]
      exact hF p j hj hr.placed.rows⟩
  have hc := hr.carries hs hp hQ hd hms hms'
  have hF' : LoadField d' (turned Q F) := hr.placed.load hF
  have := hc.disp one_ne_zero hwf hwf' hms hms' hsp hst hF hF' (fun V _ => by
    rw [one_mul]
    exact Finset.sum_congr rfl fun p _ => turned_dot hQ V F p) h h' p hpn i i.2
  obtain ⟨⟨hl, hw⟩, -⟩ := C18_nodal_equilibrium hwf hsp hms hst h
  have he : ∀ j < 2, entry res.disp p j = some (fieldOf res.disp p j) := by
    intro j hj
    have hp' : p < res.disp.length := by rw [hl]; exact hpn
    have hr := hw _ (List.getElem_mem hp')
    have : entry res.disp p j = some (res.disp[p][j]'(by omega)) := by
      rw [entry_some]
      exact ⟨_, List.getElem?_eq_getElem hp', List.getElem?_eq_getElem _⟩
    unfold fieldOf
    rw [this]
    rfl
  refine ⟨_, _, he 0 (by omega), he 1 (by omega), ?_⟩
  rw [this]
  unfold turned
  rw [dif_pos i.2]

/-- A run on the mirror image returns. -/
theorem C138_returns (hs : SqrtFn sq) (hp : PlaneModel d) (hr : Mirrored Q t d d') (hQ : Q.transpose * Q = 1) (hd : Q.det = -1)
    (hwf : WellFormed d) (hwf' : WellFormed d') (hsp : SolverOk sp) (hms : Members sq d ms) (hst : Stable d.cons 2 ms)
    (hfree : ∃ p j, Free d.cons 2 p j) (hl : ∀ L ∈ d.loads, ∃ p, Names d.nodes.length L p) :
    ∃ res, Gui.solidsAuto sq sp de d' false = .ok res := by
  obtain ⟨ms', hms'⟩ := C138_accepted hs hp hr hQ hd hms
  have hsize : d'.nodes.length = d.nodes.length := hr.placed.size
  refine C93_solids_auto_returns ⟨hr.placed.width, ?_⟩ hwf' hsp hms' (C138_stable hs hp hr hQ hd hwf hwf' hms hms' hst) ?_ ?_
  · intro el' hel' ty hty
    rw [hr.elements] at hel'
    obtain ⟨el, hel, rfl⟩ := List.mem_map.1 hel'
    obtain ⟨i, hi, rfl⟩ := List.mem_iff_getElem.1 hel
    have hi' : i < ms.length := by rw [← hms.length_eq]; exact hi
    have hm := member_length (hms.get (i := i) hi hi')
    simp only [List.get_eq_getElem] at hm
    have hc := reverseRow_copy hm 0
    rw [hc.type] at hty
    have e : ((reverseRow d.elements[i]).drop 3).length = (d.elements[i].drop 3).length := by
      unfold reverseRow
      rw [List.length_drop, List.length_append, reversed_length, List.length_take, List.length_drop]
      omega
    rw [e]
    exact hp.types _ hel ty hty
  · by_contra hno
    push Not at hno
    obtain ⟨p, j, hf⟩ := hfree
    let u : ℕ → ℕ → K := fun p' j' => if p' = p ∧ j' = j then 1 else 0
    have hu : Admissible d.cons 2 u := by
      intro p' j' _ _ hnf
      dsimp only [u]
      rw [if_neg]
      rintro ⟨rfl, rfl⟩
      exact hnf hf
    have hv : Admissible d'.cons 2 (turned Q u) := (hr.placed.supports u).1 hu
    have hpn : p < d'.cons.length := by
      have := free_lt hf
      rw [hwf'.size, hsize, ← hwf.size]
      exact this
    have h0 := hv p 0 hpn (by omega) (hno p 0)
    have h1 := hv p 1 hpn (by omega) (hno p 1)
    have := turned_dot hQ u u p
    rw [Finset.sum_range_succ, Finset.sum_range_one, Finset.sum_range_succ, Finset.sum_range_one, h0, h1] at this
    have hj := hf.1
    rcases (by omega : j = 0 ∨ j = 1) with rfl | rfl <;> simp [u] at this
  · intro L hL
    rw [show d'.loads = d.loads.map (turnLoad Q) from hr.placed.loads] at hL
    obtain ⟨L', hL', rfl⟩ := List.mem_map.1 hL
    obtain ⟨p, hp⟩ := hl L' hL'
    refine ⟨?_, p, by rw [hsize, names_turnLoad]; exact hp⟩
    have := hr.placed.rows L' hL'
    match L', this with
    | [_, _, _], _ => simp [turnLoad]

/-- The reflection which changes the sign of one component. -/
def flipped (i : Fin 2) : Matrix (Fin 2) (Fin 2) K := Matrix.diagonal fun j => if j = i then -1 else 1

theorem flipped_orth (i : Fin 2) : (flipped i : Matrix (Fin 2) (Fin 2) K).transpose * flipped i = 1 := by
  unfold flipped
  rw [diagonal_transpose, diagonal_mul_diagonal, ← diagonal_one]
  congr 1
  funext j
  split <;> simp

theorem flipped_det (i : Fin 2) : (flipped i : Matrix (Fin 2) (Fin 2) K).det = -1 := by
  unfold flipped
  rw [det_diagonal, Fin.prod_univ_two]
  fin_cases i <;> simp

theorem turned_flipped (i : Fin 2) (u : ℕ → ℕ → K) (p : ℕ) {j : ℕ} (hj : j < 2) :
    turned (flipped i) u p j = (if j = (i : ℕ) then -1 else 1) * u p j := by
  rcases (by omega : j = 0 ∨ j = 1) with rfl | rfl
  · rw [turned_zero]
    fin_cases i <;> simp [flipped]
  · rw [turned_one]
    fin_cases i <;> simp [flipped]

/-- Across a coordinate axis the same constraints will do. -/
theorem supports_flipped (i : Fin 2) (cons : Table K) (u : ℕ → ℕ → K) : Admissible cons 2 u ↔ Admissible cons 2 (turned (flipped i) u) := by
  unfold Admissible
  refine forall₂_congr fun p j => forall_congr' fun _ => forall_congr' fun hj => forall_congr' fun _ => ?_
  rw [turned_flipped i u p hj]
  split <;> simp

end
end SolidsPy
