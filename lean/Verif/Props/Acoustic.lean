import Verif.Props.GroupVelocity
import Mathlib.Analysis.SpecialFunctions.Trigonometric.Bounds

/-! # C183: the two branches that start from zero, and the finite speed of sound -/

set_option linter.unusedSectionVars false

namespace SolidsPy
open Spec Assem Bloch Matrix
open scoped ComplexOrder

section
variable {n : ℕ}

theorem form_le_norm (A : Matrix (Fin n) (Fin n) ℂ) (y : Fin n → ℂ) :
    (star y ⬝ᵥ A.mulVec y).re ≤ (∑ i, ∑ j, ‖A i j‖) * ∑ i, ‖y i‖ ^ 2 := by
  have e : star y ⬝ᵥ A.mulVec y = ∑ i, ∑ j, star (y i) * (A i j * y j) := by
    simp only [dotProduct, Matrix.mulVec, Finset.mul_sum, Pi.star_apply]
  rw [e, Complex.re_sum, Finset.sum_mul]
  refine Finset.sum_le_sum fun i _ => ?_
  rw [Complex.re_sum, Finset.sum_mul]
  refine Finset.sum_le_sum fun j _ => ?_
  refine (Complex.re_le_norm _).trans ?_
  rw [norm_mul, norm_mul, norm_star]
  have h : ∀ i, ‖y i‖ ^ 2 ≤ ∑ i, ‖y i‖ ^ 2 := fun i => Finset.single_le_sum (f := fun i => ‖y i‖ ^ 2) (fun _ _ => sq_nonneg _) (Finset.mem_univ i)
  have : ‖y i‖ * ‖y j‖ ≤ ∑ i, ‖y i‖ ^ 2 := by nlinarith [h i, h j, sq_nonneg (‖y i‖ - ‖y j‖)]
  calc ‖y i‖ * (‖A i j‖ * ‖y j‖) = ‖A i j‖ * (‖y i‖ * ‖y j‖) := by ring
    _ ≤ _ := mul_le_mul_of_nonneg_left this (norm_nonneg _)

theorem norm_le_form {A : Matrix (Fin n) (Fin n) ℂ} (hA : A.PosDef) :
    ∃ m : ℝ, 0 < m ∧ ∀ y : Fin n → ℂ, m * ∑ i, ‖y i‖ ^ 2 ≤ (star y ⬝ᵥ A.mulVec y).re := by
  obtain ⟨w, φ, hw⟩ := exists_waves hA.1 (Matrix.PosDef.one (n := Fin n) (R := ℂ))
  have pos : ∀ k, 0 < w k := fun k => by
    have e : star (φ k) ⬝ᵥ A.mulVec (φ k) = (w k : ℂ) := by
      rw [hw.motion, dotProduct_smul, hw.normal, if_pos rfl, smul_eq_mul, mul_one]
    have hne : φ k ≠ 0 := fun h0 => by
      have := hw.normal k k
      simp [h0] at this
    have := hA.dotProduct_mulVec_pos hne
    rw [e] at this
    exact_mod_cast this
  have sp : 0 ≤ ∑ k, 1 / w k := Finset.sum_nonneg fun k _ => (one_div_pos.2 (pos k)).le
  refine ⟨1 / (∑ k, 1 / w k + 1), by positivity, fun y => ?_⟩
  have e1 := hw.form_mass Matrix.isHermitian_one y
  have e2 : (star y ⬝ᵥ (1 : Matrix (Fin n) (Fin n) ℂ).mulVec y).re = ∑ i, ‖y i‖ ^ 2 := by
    rw [Matrix.one_mulVec, dotProduct, Complex.re_sum]
    refine Finset.sum_congr rfl fun i _ => ?_
    rw [Pi.star_apply, Complex.star_def, ← Complex.normSq_eq_conj_mul_self, Complex.ofReal_re, Complex.normSq_eq_norm_sq]
  rw [← e2, e1, hw.form_stiff Matrix.isHermitian_one y, Finset.mul_sum]
  refine Finset.sum_le_sum fun k _ => mul_le_mul_of_nonneg_right ?_ (sq_nonneg _)
  rw [one_div_le (by positivity) (pos k)]
  have := Finset.single_le_sum (f := fun k => 1 / w k) (fun k _ => (one_div_pos.2 (pos k)).le) (Finset.mem_univ k)
  linarith

end

section
variable {neq D : ℕ} {Kg Mg : Matrix (Fin neq) (Fin neq) ℝ} {nodesRef nodesIma dofsRef dofsIma : List ℤ} {refDof imaDof : ℤ → Option (List ℤ)}
  {newNum : List ℤ} {coords : List (List ℝ)} {l : (Fin D → ℝ) → Fin (neq - dofsRef.length) → ℝ}

/-- How far two Bloch vectors with the same reduced vector are from each other. -/
theorem bloch_between (ht : Tied neq nodesRef nodesIma dofsRef dofsIma refDof imaDof newNum)
    {T : (Fin D → ℝ) → Matrix (Fin neq) (Fin (neq - dofsRef.length)) ℂ}
    (hT : ∀ κ, blochTransformMat (List.ofFn κ) coords neq nodesRef nodesIma dofsRef dofsIma refDof imaDof newNum = .ok (T κ)) (i : Fin neq) :
    ∃ b : ℝ, 0 ≤ b ∧ ∀ κ κ' w, ‖(T κ').mulVec w i - (T κ).mulVec w i‖ ^ 2 ≤ b * (∑ s, (κ' s - κ s) ^ 2) * ‖(T κ).mulVec w i‖ ^ 2 ∧
      ‖(T κ').mulVec w i‖ = ‖(T κ).mulVec w i‖ := by
  by_cases hi : ((i : ℕ) : ℤ) ∈ dofsIma
  · obtain ⟨l, hl, hli⟩ := ht.pairing.all i i.2 hi
    obtain ⟨d, r, φ, f1, f2, f3, c, f4, f5⟩ := (bloch_rows (hT 0) ht.pairing).2 l hl
    obtain ⟨ki, kr, xi, xr, g1, g2, g3, g4, -⟩ := shift_ofFn f3
    have row : ∀ (κ : Fin D → ℝ) w, (T κ).mulVec w i =
        Complex.exp (Complex.I * ((∑ t : Fin D, κ t * (xi.getD t 0 - xr.getD t 0) : ℝ) : ℂ)) * w c := by
      intro κ w
      obtain ⟨d', r', φ', f1', f2', f3', c', f4', f5'⟩ := (bloch_rows (hT κ) ht.pairing).2 l hl
      obtain ⟨ki', kr', xi', xr', g1', g2', g3', g4', g5'⟩ := shift_ofFn f3'
      obtain rfl : i = d' := Fin.ext (by exact_mod_cast hli.symm.trans f1')
      obtain rfl : r = r' := Fin.ext (by exact_mod_cast f2.symm.trans f2')
      obtain rfl := resolves_unique g1 g1'
      obtain rfl := resolves_unique g2 g2'
      rw [g3, Option.some.injEq] at g3'
      rw [g4, Option.some.injEq] at g4'
      rw [f4, Option.some.injEq] at f4'
      obtain rfl : c = c' := Fin.ext (by exact_mod_cast f4')
      subst g3' g4'
      rw [Matrix.mulVec, dotProduct]
      simp only [f5', ← g5', ite_mul, zero_mul, Finset.sum_ite_eq, Finset.mem_univ, if_true]
    refine ⟨∑ t : Fin D, (xi.getD t 0 - xr.getD t 0) ^ 2, Finset.sum_nonneg fun _ _ => sq_nonneg _, fun κ κ' w => ?_⟩
    have split : ∑ t : Fin D, κ' t * (xi.getD t 0 - xr.getD t 0) = ∑ t : Fin D, (κ' t - κ t) * (xi.getD t 0 - xr.getD t 0) +
        ∑ t : Fin D, κ t * (xi.getD t 0 - xr.getD t 0) := by
      rw [← Finset.sum_add_distrib]
      exact Finset.sum_congr rfl fun t _ => by ring
    have e : (T κ').mulVec w i = Complex.exp (Complex.I * ((∑ t : Fin D, (κ' t - κ t) * (xi.getD t 0 - xr.getD t 0) : ℝ) : ℂ)) *
        (T κ).mulVec w i := by
      rw [row κ', row κ, split, Complex.ofReal_add, mul_add, Complex.exp_add, mul_assoc]
    refine ⟨?_, by rw [e, norm_mul, phase_norm, one_mul]⟩
    generalize (T κ).mulVec w i = z at e
    rw [e, show Complex.exp (Complex.I * ((∑ t : Fin D, (κ' t - κ t) * (xi.getD t 0 - xr.getD t 0) : ℝ) : ℂ)) * z - z =
      (Complex.exp (Complex.I * ((∑ t : Fin D, (κ' t - κ t) * (xi.getD t 0 - xr.getD t 0) : ℝ) : ℂ)) - 1) * z by ring, norm_mul, mul_pow]
    refine mul_le_mul_of_nonneg_right ?_ (sq_nonneg _)
    have h1 := Real.norm_exp_I_mul_ofReal_sub_one_le (x := ∑ t : Fin D, (κ' t - κ t) * (xi.getD t 0 - xr.getD t 0))
    refine (pow_le_pow_left₀ (norm_nonneg _) h1 2).trans ?_
    rw [Real.norm_eq_abs, sq_abs, mul_comm]
    exact Finset.sum_mul_sq_le_sq_mul_sq _ _ _
  · refine ⟨0, le_rfl, fun κ κ' w => ?_⟩
    obtain ⟨c, h1, h2⟩ := (bloch_rows (hT κ) ht.pairing).1 i hi
    obtain ⟨c', h1', h2'⟩ := (bloch_rows (hT κ') ht.pairing).1 i hi
    rw [h1, Option.some.injEq] at h1'
    obtain rfl : c = c' := Fin.ext (by exact_mod_cast h1')
    have : (T κ').mulVec w i = (T κ).mulVec w i := by
      rw [Matrix.mulVec, Matrix.mulVec, dotProduct, dotProduct]
      simp only [h2, h2']
    rw [this, sub_self]
    simp

/-- How far a Bloch vector is from the one with the same reduced vector and no phases. -/
theorem bloch_near (ht : Tied neq nodesRef nodesIma dofsRef dofsIma refDof imaDof newNum)
    {T : (Fin D → ℝ) → Matrix (Fin neq) (Fin (neq - dofsRef.length)) ℂ}
    (hT : ∀ κ, blochTransformMat (List.ofFn κ) coords neq nodesRef nodesIma dofsRef dofsIma refDof imaDof newNum = .ok (T κ)) (i : Fin neq) :
    ∃ b : ℝ, 0 ≤ b ∧ ∀ κ w, ‖(T κ).mulVec w i - (T 0).mulVec w i‖ ^ 2 ≤ b * (∑ s, κ s ^ 2) * ‖(T κ).mulVec w i‖ ^ 2 := by
  obtain ⟨b, hb, h⟩ := bloch_between ht hT i
  refine ⟨b, hb, fun κ w => ?_⟩
  have := (h κ 0 w).1
  rw [norm_sub_rev] at this
  simpa using this

/-- As many branches stay below a multiple of the square of the wave vector as there are independent motions without forces. -/
theorem branches_acoustic (hK : Kg.IsSymm) (hM : Mg.IsSymm ∧ ∀ v, v ≠ 0 → 0 < v ⬝ᵥ Mg.mulVec v)
    (ht : Tied neq nodesRef nodesIma dofsRef dofsIma refDof imaDof newNum)
    (hb : Branches D Kg Mg coords nodesRef nodesIma dofsRef dofsIma refDof imaDof newNum l)
    {T₀ : Matrix (Fin neq) (Fin (neq - dofsRef.length)) ℂ}
    (hT : blochTransformMat (List.ofFn (0 : Fin D → ℝ)) coords neq nodesRef nodesIma dofsRef dofsIma refDof imaDof newNum = .ok T₀)
    {r : ℕ} {v : Fin r → Fin (neq - dofsRef.length) → ℂ} (hv : LinearIndependent ℂ v)
    (h0 : ∀ a, (Kg.map Complex.ofReal).mulVec (T₀.mulVec (v a)) = 0) :
    ∃ C : ℝ, 0 ≤ C ∧ ∀ (κ : Fin D → ℝ) (k : Fin (neq - dofsRef.length)), (k : ℕ) < r → l κ k ≤ C * ∑ s, κ s ^ 2 := by
  choose T q h1 h2 using hb
  obtain rfl : T 0 = T₀ := Except.ok.inj ((h1 0).symm.trans hT)
  choose b hb0 hb using bloch_near ht h1
  obtain ⟨m, hm, hmass⟩ := norm_le_form (map_posDef hM.1 hM.2)
  set A := Kg.map Complex.ofReal with hA
  have herm : A.IsHermitian := map_hermitian hK
  have s0 : 0 ≤ ∑ i, ∑ j, ‖A i j‖ := Finset.sum_nonneg fun i _ => Finset.sum_nonneg fun j _ => norm_nonneg _
  have b0 : 0 ≤ ∑ i, b i := Finset.sum_nonneg fun i _ => hb0 i
  refine ⟨(∑ i, ∑ j, ‖A i j‖) * (∑ i, b i) / m, by positivity, fun κ k hk => ?_⟩
  have hQ : ((T κ).conjTranspose * Mg.map Complex.ofReal * T κ).IsHermitian := Matrix.isHermitian_conjTranspose_mul_mul _ (map_hermitian hM.1)
  rw [(h2 κ).minmax hQ]
  refine ⟨fun a => v ⟨a, by omega⟩, hv.comp (fun a : Fin (k + 1) => (⟨a, by omega⟩ : Fin r)) (by
    intro a b hab
    simpa [Fin.ext_iff] using hab), fun c => ?_⟩
  set w := ∑ a : Fin (k + 1), c a • v ⟨a, by omega⟩ with hw
  have hz : A.mulVec ((T 0).mulVec w) = 0 := by
    rw [hw, Matrix.mulVec_sum, Matrix.mulVec_sum]
    refine Finset.sum_eq_zero fun a _ => ?_
    rw [Matrix.mulVec_smul, Matrix.mulVec_smul, h0, smul_zero]
  rw [form_product, form_product]
  set x := (T κ).mulVec w
  set z := (T 0).mulVec w
  have e1 : star x ⬝ᵥ A.mulVec x = star (x - z) ⬝ᵥ A.mulVec (x - z) := by
    rw [Matrix.mulVec_sub, hz, sub_zero, star_sub, sub_dotProduct, Spec.Waves.swap herm z x, hz]
    simp
  have k0 : 0 ≤ ∑ s, κ s ^ 2 := Finset.sum_nonneg fun _ _ => sq_nonneg _
  have e2 : ∑ i, ‖(x - z) i‖ ^ 2 ≤ (∑ i, b i) * (∑ s, κ s ^ 2) * ∑ i, ‖x i‖ ^ 2 := by
    rw [Finset.mul_sum]
    refine Finset.sum_le_sum fun i _ => (hb i κ w).trans ?_
    refine mul_le_mul_of_nonneg_right (mul_le_mul_of_nonneg_right ?_ k0) (sq_nonneg _)
    exact Finset.single_le_sum (f := b) (fun i _ => hb0 i) (Finset.mem_univ i)
  rw [e1]
  calc _ ≤ _ := form_le_norm A (x - z)
    _ ≤ (∑ i, ∑ j, ‖A i j‖) * ((∑ i, b i) * (∑ s, κ s ^ 2) * ∑ i, ‖x i‖ ^ 2) := mul_le_mul_of_nonneg_left e2 s0
    _ = (∑ i, ∑ j, ‖A i j‖) * (∑ i, b i) / m * (∑ s, κ s ^ 2) * (m * ∑ i, ‖x i‖ ^ 2) := by field_simp
    _ ≤ _ := mul_le_mul_of_nonneg_left (hmass x) (by positivity)

end

section
variable {sq : ℝ → ℝ} {d : Gui.Data ℝ} {ms : List (Member ℝ)} {op bc : List (List ℤ)} {neq D : ℕ}
  {Kg Mg : Matrix (Fin neq) (Fin neq) ℝ} {nodesRef nodesIma dofsRef dofsIma : List ℤ}
  {refDof imaDof : ℤ → Option (List ℤ)} {newNum : List ℤ} {wave : List ℝ}
  {T : Matrix (Fin neq) (Fin (neq - dofsRef.length)) ℂ} {l : (Fin D → ℝ) → Fin (neq - dofsRef.length) → ℝ}

theorem solid_mass (h : SolidMesh sq d ms) (hwf : WellFormed d) (hh : Heavy d) (h1 : dme d.cons d.elements = .ok (op, bc, neq))
    (h2 : assembler (Uel.eleFun sq) d.elements d.mats d.nodes neq op = .ok (Kg, Mg)) :
    Mg.IsSymm ∧ ∀ v, v ≠ 0 → 0 < v ⬝ᵥ Mg.mulVec v := by
  refine mass_pd hwf hh h1 h2 fun p j hf => ?_
  have hp : p < d.nodes.length := by rw [← hwf.size]; exact free_lt hf
  obtain ⟨m, hm, hpm⟩ := h.used p hp
  obtain ⟨e, he, rfl⟩ := List.mem_iff_getElem.1 hm
  have he' : e < d.elements.length := by rw [h.members.length_eq]; exact he
  obtain ⟨ty, mi, params, rows, f, kl, ml, -, -, -, h5, -⟩ := h.members.get (i := e) he' he
  obtain ⟨a, ha, rfl⟩ := List.mem_iff_getElem.1 hpm
  have ha' := lt_of_lt_of_eq ha h5.length_eq.symm
  exact ⟨_, List.getElem_mem he', _, List.getElem_mem ha', h5.get (i := a) ha' ha⟩

theorem cell_tied (hc : Cell d bc neq nodesRef nodesIma dofsRef dofsIma refDof imaDof newNum) :
    Tied neq nodesRef nodesIma dofsRef dofsIma refDof imaDof newNum := ⟨hc.pairing, hc.onto, hc.once⟩

/-- The two translations as reduced vectors. -/
theorem two_translations (hs : SqrtFn sq) (h : SolidMesh sq d ms) (hwf : WellFormed d) (h1 : dme d.cons d.elements = .ok (op, bc, neq))
    (h2 : assembler (Uel.eleFun sq) d.elements d.mats d.nodes neq op = .ok (Kg, Mg))
    (hc : Cell d bc neq nodesRef nodesIma dofsRef dofsIma refDof imaDof newNum)
    (hT : blochTransformMat wave (d.nodes.map (List.drop 1)) neq nodesRef nodesIma dofsRef dofsIma refDof imaDof newNum = .ok T)
    (hsp : Spread d.nodes (nodesIma.zip nodesRef)) (hin : InPhase wave (d.nodes.map (List.drop 1)) (nodesIma.zip nodesRef)) :
    ∃ v : Fin 2 → Fin (neq - dofsRef.length) → ℂ, LinearIndependent ℂ v ∧
      ∀ a, (T.conjTranspose * Kg.map Complex.ofReal * T).mulVec (v a) = 0 := by
  choose v hv using fun a : Fin 2 => (C115_translations hwf h1 hc hT).1 hin (Pi.single a 1)
  refine ⟨v, ?_, fun a => (C115_null hs h hwf h1 h2 hc hT hsp _).2 ⟨_, hv a⟩⟩
  rw [Fintype.linearIndependent_iff]
  intro c h0 j
  obtain ⟨i, r, i', r', ⟨p, hp, hi, hr⟩, -⟩ := hsp
  obtain ⟨a, ha⟩ := dofEq_exists hc h1 hi.1 (j := j) j.2
  have e : T.mulVec (∑ b, c b • v b) a = c j := by
    rw [Matrix.mulVec_sum, Finset.sum_apply]
    simp only [Matrix.mulVec_smul, Pi.smul_apply, hv _ i hi.1 j a ha, Pi.single_apply, smul_eq_mul, mul_ite, mul_one, mul_zero]
    simp
  rw [← e, h0, Matrix.mulVec_zero, Pi.zero_apply]

/-- C183.  The values of the branches are not negative, and exactly two branches are zero at a wave vector that keeps the images in phase
(zero, for one), none at the others. -/
theorem C183_zero (hs : SqrtFn sq) (h : SolidMesh sq d ms) (hwf : WellFormed d) (hh : Heavy d) (h1 : dme d.cons d.elements = .ok (op, bc, neq))
    (h2 : assembler (Uel.eleFun sq) d.elements d.mats d.nodes neq op = .ok (Kg, Mg))
    (hc : Cell d bc neq nodesRef nodesIma dofsRef dofsIma refDof imaDof newNum) (hsp : Spread d.nodes (nodesIma.zip nodesRef))
    (hb : Branches D Kg Mg (d.nodes.map (List.drop 1)) nodesRef nodesIma dofsRef dofsIma refDof imaDof newNum l) (κ : Fin D → ℝ)
    (k : Fin (neq - dofsRef.length)) :
    0 ≤ l κ k ∧ (l κ k = 0 ↔ InPhase (List.ofFn κ) (d.nodes.map (List.drop 1)) (nodesIma.zip nodesRef) ∧ (k : ℕ) < 2) := by
  obtain ⟨T, q, hT, hq⟩ := hb κ
  obtain ⟨hsym, hpsd⟩ := stiffness_psd hs h hwf h1 h2
  obtain ⟨msym, mpos⟩ := solid_mass h hwf hh h1 h2
  have hP := (map_posSemidef hsym hpsd).conjTranspose_mul_mul_same T
  have hQ : (T.conjTranspose * Mg.map Complex.ofReal * T).IsHermitian := Matrix.isHermitian_conjTranspose_mul_mul _ (map_hermitian msym)
  have nonneg : ∀ j, 0 ≤ l κ j := fun j => by
    have e : star (q j) ⬝ᵥ (T.conjTranspose * Kg.map Complex.ofReal * T).mulVec (q j) = (l κ j : ℂ) := by
      rw [hq.motion, dotProduct_smul, hq.normal, if_pos rfl, smul_eq_mul, mul_one]
    have := hP.dotProduct_mulVec_nonneg (q j)
    rw [e] at this
    exact_mod_cast this
  refine ⟨nonneg k, fun hk => ?_, fun ⟨hin, hk⟩ => le_antisymm ?_ (nonneg k)⟩
  · have null : ∀ j ≤ k, ∃ c : Fin 2 → ℂ, ∀ p < d.nodes.length, ∀ (s : Fin 2) (i : Fin neq), DofEq bc neq p s i → T.mulVec (q j) i = c s := by
      intro j hj
      refine (C115_null hs h hwf h1 h2 hc hT hsp _).1 ?_
      rw [hq.motion, le_antisymm ((hq.order hj).trans hk.le) (nonneg j), Complex.ofReal_zero, zero_smul]
    refine ⟨by_contra fun hin => ?_, by_contra fun h2k => ?_⟩
    · obtain ⟨c, hc'⟩ := null k le_rfl
      have := ((C115_translations hwf h1 hc hT).2 hin c _ hc').2
      have h3 := hq.normal k k
      simp [this] at h3
    · let f : Fin 3 → Fin (neq - dofsRef.length) := fun a => ⟨a, by omega⟩
      have hf : ∀ a, f a ≤ k := fun a => by
        rw [Fin.le_def]
        dsimp only [f]
        omega
      choose c hc' using fun a => null (f a) (hf a)
      let A : Matrix (Fin 2) (Fin 3) ℂ := Matrix.of fun s a => c a s
      obtain ⟨x, hz, hx⟩ := (Submodule.ne_bot_iff _).1 (LinearMap.ker_ne_bot_of_finrank_lt (f := A.mulVecLin) (by simp))
      have hz' : ∀ s, ∑ a, c a s * x a = 0 := fun s => congrFun (LinearMap.mem_ker.1 hz) s
      have z : T.mulVec (∑ a, x a • q (f a)) = T.mulVec 0 := by
        funext i
        obtain ⟨p, s, hfr, hr⟩ := exists_free (dme_ok.1 h1).1 i.2
        have hp : p < d.nodes.length := by rw [← hwf.size]; exact free_lt hfr
        obtain ⟨i', hi'⟩ := dofEq_exists hc h1 hp hfr.1
        obtain ⟨c1, c2⟩ := free_entry (dme_ok.1 h1).1 hfr
        have hii : DofEq bc neq p s i := ⟨_, c1, by omega, by omega, .inl (by rw [hr])⟩
        rw [Matrix.mulVec_zero, Pi.zero_apply, Matrix.mulVec_sum, Finset.sum_apply, ← hz' ⟨s, hfr.1⟩]
        refine Finset.sum_congr rfl fun a _ => ?_
        rw [Matrix.mulVec_smul, Pi.smul_apply, hc' a p hp ⟨s, hfr.1⟩ i hii, smul_eq_mul, mul_comm]
      have z' := C86_injective hT hc.pairing hc.onto z
      refine hx (funext fun a => ?_)
      refine Fintype.linearIndependent_iff.1 (hq.independent.comp f fun a b hab => ?_) x z' a
      exact Fin.ext (by simpa [f] using hab)
  · obtain ⟨v, hv, h0⟩ := two_translations hs h hwf h1 h2 hc hT hsp hin
    rw [hq.minmax hQ]
    refine ⟨fun a => v ⟨a, by omega⟩, hv.comp (fun a : Fin (k + 1) => (⟨a, by omega⟩ : Fin 2)) (by
      intro a b hab
      simpa [Fin.ext_iff] using hab), fun c => ?_⟩
    have : (T.conjTranspose * Kg.map Complex.ofReal * T).mulVec (∑ a : Fin (k + 1), c a • v ⟨a, by omega⟩) = 0 := by
      rw [Matrix.mulVec_sum]
      exact Finset.sum_eq_zero fun a _ => by rw [Matrix.mulVec_smul, h0, smul_zero]
    rw [this]
    simp

/-- C183.  The speed of sound is finite: the first two branches stay below a multiple of the square of the wave vector. -/
theorem C183_speed (hs : SqrtFn sq) (h : SolidMesh sq d ms) (hwf : WellFormed d) (hh : Heavy d) (h1 : dme d.cons d.elements = .ok (op, bc, neq))
    (h2 : assembler (Uel.eleFun sq) d.elements d.mats d.nodes neq op = .ok (Kg, Mg))
    (hc : Cell d bc neq nodesRef nodesIma dofsRef dofsIma refDof imaDof newNum) (hsp : Spread d.nodes (nodesIma.zip nodesRef))
    (hb : Branches D Kg Mg (d.nodes.map (List.drop 1)) nodesRef nodesIma dofsRef dofsIma refDof imaDof newNum l) :
    ∃ C : ℝ, 0 ≤ C ∧ ∀ (κ : Fin D → ℝ) (k : Fin (neq - dofsRef.length)), (k : ℕ) < 2 → l κ k ≤ C * ∑ s, κ s ^ 2 := by
  obtain ⟨T, q, hT, hq⟩ := hb 0
  obtain ⟨hsym, hpsd⟩ := stiffness_psd hs h hwf h1 h2
  obtain ⟨v, hv, h0⟩ := two_translations hs h hwf h1 h2 hc hT hsp fun p _ φ hφ => by
    obtain ⟨ki, kr, xi, xr, -, -, -, -, rfl⟩ := shift_ofFn hφ
    exact ⟨0, by simp⟩
  refine branches_acoustic hsym (solid_mass h hwf hh h1 h2) (cell_tied hc) hb hT hv fun a => ?_
  rw [← (map_posSemidef hsym hpsd).dotProduct_mulVec_zero_iff, ← reduced_energy, h0, dotProduct_zero]

/-- C183.  There is a gap above the first two branches near the wave vector zero: the third is positive there. -/
theorem C183_gap (hs : SqrtFn sq) (h : SolidMesh sq d ms) (hwf : WellFormed d) (hh : Heavy d) (h1 : dme d.cons d.elements = .ok (op, bc, neq))
    (h2 : assembler (Uel.eleFun sq) d.elements d.mats d.nodes neq op = .ok (Kg, Mg))
    (hc : Cell d bc neq nodesRef nodesIma dofsRef dofsIma refDof imaDof newNum) (hsp : Spread d.nodes (nodesIma.zip nodesRef))
    (hb : Branches D Kg Mg (d.nodes.map (List.drop 1)) nodesRef nodesIma dofsRef dofsIma refDof imaDof newNum l)
    {k k' : Fin (neq - dofsRef.length)} (hk : (k : ℕ) < 2) (hk' : 2 ≤ (k' : ℕ)) :
    ∃ ε g : ℝ, 0 < ε ∧ 0 < g ∧ ∀ κ : Fin D → ℝ, (∑ s, κ s ^ 2) < ε → l κ k < g ∧ g < l κ k' := by
  have p0 : 0 < l 0 k' := by
    obtain ⟨a, b⟩ := C183_zero hs h hwf hh h1 h2 hc hsp hb 0 k'
    refine lt_of_le_of_ne a fun e => ?_
    have := (b.1 e.symm).2
    omega
  obtain ⟨C, hC, hle⟩ := C183_speed hs h hwf hh h1 h2 hc hsp hb
  have cont := branches_continuous (solid_mass h hwf hh h1 h2).1 (cell_tied hc) hb k'
  obtain ⟨δ, hδ, hball⟩ := Metric.continuousAt_iff.1 cont.continuousAt (l 0 k' / 2) (by linarith)
  refine ⟨min (δ ^ 2) (l 0 k' / (2 * (C + 1))), l 0 k' / 2, by positivity, by linarith, fun κ hκ => ⟨?_, ?_⟩⟩
  · have h3 := hκ.trans_le (min_le_right _ _)
    rw [lt_div_iff₀ (by positivity)] at h3
    have h4 := hle κ k hk
    have h5 : 0 ≤ ∑ s, κ s ^ 2 := Finset.sum_nonneg fun _ _ => sq_nonneg _
    nlinarith
  · have h3 := hκ.trans_le (min_le_left _ _)
    have : dist κ 0 < δ := by
      rw [dist_pi_lt_iff hδ]
      intro i
      rw [Pi.zero_apply, Real.dist_eq, sub_zero]
      refine abs_lt_of_sq_lt_sq (lt_of_le_of_lt ?_ h3) hδ.le
      exact Finset.single_le_sum (f := fun s => κ s ^ 2) (fun _ _ => sq_nonneg _) (Finset.mem_univ i)
    have := abs_lt.1 (by simpa [Real.dist_eq] using hball this)
    linarith

end

/-- The square of side 2 as a strip whose right side is the image of the left one. -/
theorem freeStrip : ∃ (ms : List (Member ℝ)) (op : List (List ℤ)) (Kg Mg : Matrix (Fin 8) (Fin 8) ℝ)
    (l : (Fin 2 → ℝ) → Fin (8 - [(0 : ℤ), 1, 4, 5].length) → ℝ) (i0 i1 i2 i3 : ℝ),
    (freeSquare []).nodes = [[i0, -1, -1], [i1, 1, -1], [i2, -1, 1], [i3, 1, 1]] ∧
    SolidMesh Real.sqrt (freeSquare []) ms ∧ WellFormed (freeSquare []) ∧ Heavy (freeSquare []) ∧
    dme (freeSquare []).cons (freeSquare []).elements = .ok (op, [[0, 1], [2, 3], [4, 5], [6, 7]], 8) ∧
    assembler (Uel.eleFun Real.sqrt) (freeSquare []).elements (freeSquare []).mats (freeSquare []).nodes 8 op = .ok (Kg, Mg) ∧
    Cell (freeSquare []) [[0, 1], [2, 3], [4, 5], [6, 7]] 8 [0, 2] [1, 3] [0, 1, 4, 5]
      [2, 3, 6, 7] (fun z => if z = 0 then some [0, 1] else if z = 2 then some [4, 5] else none)
      (fun z => if z = 1 then some [2, 3] else if z = 3 then some [6, 7] else none)
      [0, 1, 0, 1, 2, 3, 2, 3] ∧
    Spread (freeSquare []).nodes ([(1 : ℤ), 3].zip [0, 2]) ∧
    Branches 2 Kg Mg ((freeSquare []).nodes.map (List.drop 1)) [0, 2] [1, 3] [0, 1, 4, 5]
      [2, 3, 6, 7] (fun z => if z = 0 then some [0, 1] else if z = 2 then some [4, 5] else none)
      (fun z => if z = 1 then some [2, 3] else if z = 3 then some [6, 7] else none)
      [0, 1, 0, 1, 2, 3, 2, 3] l := by
  obtain ⟨ms, hm⟩ := freeSquare_mesh []
  have hwf := freeSquare_wf []
  obtain ⟨op, bc, neq, Kg, Mg, h1, h2⟩ := plane_assembly hm.plane hwf hm.members
  obtain ⟨rfl, rfl⟩ := freeSquare_rows h1
  obtain ⟨i0, r0⟩ := (freeSquare_grid []).row (r := 0) (c := 0) (by omega) (by omega)
  obtain ⟨i1, r1⟩ := (freeSquare_grid []).row (r := 0) (c := 1) (by omega) (by omega)
  obtain ⟨i2, r2⟩ := (freeSquare_grid []).row (r := 1) (c := 0) (by omega) (by omega)
  obtain ⟨i3, r3⟩ := (freeSquare_grid []).row (r := 1) (c := 1) (by omega) (by omega)
  have hlen : (freeSquare []).nodes.length = 4 := by rw [(freeSquare_grid []).size]
  have hn : (freeSquare []).nodes = [[i0, -1, -1], [i1, 1, -1], [i2, -1, 1], [i3, 1, 1]] := by
    apply List.ext_getElem?
    intro v
    rcases (by omega : v = 0 ∨ v = 1 ∨ v = 2 ∨ v = 3 ∨ 4 ≤ v) with rfl | rfl | rfl | rfl | hv
    · refine Eq.trans r0 ?_
      norm_num
    · refine Eq.trans r1 ?_
      norm_num
    · refine Eq.trans r2 ?_
      norm_num
    · refine Eq.trans r3 ?_
      norm_num
    · rw [List.getElem?_eq_none (by omega), List.getElem?_eq_none (by simpa using hv)]
  have hc : Cell (freeSquare []) [[0, 1], [2, 3], [4, 5], [6, 7]] 8 [0, 2] [1, 3] [0, 1, 4, 5]
      [2, 3, 6, 7] (fun z => if z = 0 then some [0, 1] else if z = 2 then some [4, 5] else none)
      (fun z => if z = 1 then some [2, 3] else if z = 3 then some [6, 7] else none)
      [0, 1, 0, 1, 2, 3, 2, 3] := by
    refine ⟨?_, ?_, ⟨by decide, by decide, by decide, by decide⟩, by decide, ?_⟩
    · intro p hp j hj
      rw [hlen] at hp
      refine ⟨hj, 0, ?_, by norm_num, by norm_num⟩
      rcases (by omega : p = 0 ∨ p = 1 ∨ p = 2 ∨ p = 3) with rfl | rfl | rfl | rfl <;>
        rcases (by omega : j = 0 ∨ j = 1) with rfl | rfl <;> rfl
    · rw [hlen]
      intro p hp
      have : p = (1, 0) ∨ p = (3, 2) := by simpa using hp
      rcases this with rfl | rfl
      · exact ⟨1, 0, by decide, by decide, rfl, rfl⟩
      · exact ⟨3, 2, by decide, by decide, rfl, rfl⟩
    · intro e e' he he' hk hk'
      have h0 : ∀ e : ℕ, e < 8 → (e : ℤ) ∉ [(2 : ℤ), 3, 6, 7] → e = 0 ∨ e = 1 ∨ e = 4 ∨ e = 5 := by decide
      rcases h0 e he hk with rfl | rfl | rfl | rfl <;> rcases h0 e' he' hk' with rfl | rfl | rfl | rfl <;> simp
  have hh : Heavy (freeSquare []) := by
    intro el hel
    have hel : el = [0, 1, 0, 0, 1, 3, 2] := by
      have h5 : (freeSquare []).elements = [[0, 1, 0, 0, 1, 3, 2]] := rfl
      rw [h5] at hel
      simpa using hel
    subst hel
    exact ⟨1, 0, 0, 1000, 1 / 4, [], rfl, by simp, rfl, ⟨by simp [freeSquare, tensionPlate], .inl rfl⟩, rfl, by simp⟩
  have hsp : Spread (freeSquare []).nodes ([(1 : ℤ), 3].zip [0, 2]) := by
    rw [hn]
    refine ⟨1, 0, 3, 2, ⟨(1, 0), by simp, by simp [Resolves], by simp [Resolves]⟩,
      ⟨(3, 2), by simp, by simp [Resolves], by simp [Resolves]⟩, ?_, ?_, ?_⟩
    · left
      simp [coordOf, fieldOf, entry]
      norm_num
    · left
      simp [coordOf, fieldOf, entry]
      norm_num
    · right
      simp [coordOf, fieldOf, entry]
      norm_num
  obtain ⟨T, hT⟩ : ∃ T, blochTransformMat [0, 0] ((freeSquare []).nodes.map (List.drop 1)) 8 [0, 2] [1, 3] [0, 1, 4, 5]
      [2, 3, 6, 7] (fun z => if z = 0 then some [0, 1] else if z = 2 then some [4, 5] else none)
      (fun z => if z = 1 then some [2, 3] else if z = 3 then some [6, 7] else none)
      [0, 1, 0, 1, 2, 3, 2, 3] = .ok T := by
    rw [hn]
    exact ⟨_, rfl⟩
  obtain ⟨hsym, -⟩ := stiffness_psd sqrtFn_real hm hwf h1 h2
  obtain ⟨l, hl, -⟩ := branches_exist (D := 2) hsym (solid_mass hm hwf hh h1 h2) (cell_tied hc) hT rfl
  exact ⟨ms, op, Kg, Mg, l, i0, i1, i2, i3, hn, hm, hwf, hh, h1, h2, hc, hsp, hl⟩

/-- Case for C183: the square of side 2 as a strip whose right side is the image of the left one.  Of its four branches two start from zero
and stay below `C |κ|²`, and the other two stay apart from them near the wave vector zero. -/
example : ∃ op bc, ∃ Kg Mg : Matrix (Fin 8) (Fin 8) ℝ, ∃ l : (Fin 2 → ℝ) → Fin (8 - [(0 : ℤ), 1, 4, 5].length) → ℝ,
    dme (freeSquare []).cons (freeSquare []).elements = .ok (op, bc, 8) ∧
    assembler (Uel.eleFun Real.sqrt) (freeSquare []).elements (freeSquare []).mats (freeSquare []).nodes 8 op = .ok (Kg, Mg) ∧
    Branches 2 Kg Mg ((freeSquare []).nodes.map (List.drop 1)) [0, 2] [1, 3] [0, 1, 4, 5]
      [2, 3, 6, 7] (fun z => if z = 0 then some [0, 1] else if z = 2 then some [4, 5] else none)
      (fun z => if z = 1 then some [2, 3] else if z = 3 then some [6, 7] else none)
      [0, 1, 0, 1, 2, 3, 2, 3] l ∧
    l 0 ⟨0, by decide⟩ = 0 ∧ l 0 ⟨1, by decide⟩ = 0 ∧ 0 < l 0 ⟨2, by decide⟩ ∧
    (∃ C : ℝ, 0 ≤ C ∧ ∀ κ : Fin 2 → ℝ, l κ ⟨1, by decide⟩ ≤ C * ∑ s, κ s ^ 2) ∧
    ∃ ε g : ℝ, 0 < ε ∧ 0 < g ∧ ∀ κ : Fin 2 → ℝ, (∑ s, κ s ^ 2) < ε → l κ ⟨1, by decide⟩ < g ∧ g < l κ ⟨2, by decide⟩ := by
  obtain ⟨ms, op, Kg, Mg, l, i0, i1, i2, i3, -, hm, hwf, hh, h1, h2, hc, hsp, hl⟩ := freeStrip
  have hin : InPhase (List.ofFn (0 : Fin 2 → ℝ)) ((freeSquare []).nodes.map (List.drop 1)) ([(1 : ℤ), 3].zip [0, 2]) := fun p _ φ hφ => by
    obtain ⟨ki, kr, xi, xr, -, -, -, -, rfl⟩ := shift_ofFn hφ
    exact ⟨0, by simp⟩
  have z := C183_zero sqrtFn_real hm hwf hh h1 h2 hc hsp hl 0
  obtain ⟨C, hC, hle⟩ := C183_speed sqrtFn_real hm hwf hh h1 h2 hc hsp hl
  refine ⟨op, _, Kg, Mg, l, h1, h2, hl, (z _).2.2 ⟨hin, by decide⟩, (z _).2.2 ⟨hin, by decide⟩, ?_, ⟨C, hC, fun κ => hle κ _ (by decide)⟩,
    C183_gap sqrtFn_real hm hwf hh h1 h2 hc hsp hl (by decide) (by decide)⟩
  refine lt_of_le_of_ne (z _).1 fun e => ?_
  exact absurd ((z _).2.1 e.symm).2 (by decide)

end SolidsPy
