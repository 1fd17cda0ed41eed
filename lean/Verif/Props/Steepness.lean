import Verif.Props.Mechanisms

/-! # C184: the steepness of the dispersion branches, and what samples tell -/

set_option linter.unusedSectionVars false

namespace SolidsPy
open Spec Assem Bloch Matrix
open scoped ComplexOrder

section
variable {n : ℕ}

theorem bilinear_le_norm (A : Matrix (Fin n) (Fin n) ℂ) (u v : Fin n → ℂ) :
    ‖star u ⬝ᵥ A.mulVec v‖ ≤ (∑ i, ∑ j, ‖A i j‖) * (√(∑ i, ‖u i‖ ^ 2) * √(∑ i, ‖v i‖ ^ 2)) := by
  have e : star u ⬝ᵥ A.mulVec v = ∑ i, ∑ j, star (u i) * (A i j * v j) := by
    simp only [dotProduct, Matrix.mulVec, Finset.mul_sum, Pi.star_apply]
  have h : ∀ (y : Fin n → ℂ) i, ‖y i‖ ≤ √(∑ i, ‖y i‖ ^ 2) := fun y i =>
    Real.le_sqrt_of_sq_le (Finset.single_le_sum (f := fun i => ‖y i‖ ^ 2) (fun _ _ => sq_nonneg _) (Finset.mem_univ i))
  rw [e, Finset.sum_mul]
  refine (norm_sum_le _ _).trans (Finset.sum_le_sum fun i _ => ?_)
  rw [Finset.sum_mul]
  refine (norm_sum_le _ _).trans (Finset.sum_le_sum fun j _ => ?_)
  rw [norm_mul, norm_mul, norm_star]
  calc ‖u i‖ * (‖A i j‖ * ‖v j‖) = ‖A i j‖ * (‖u i‖ * ‖v j‖) := by ring
    _ ≤ _ := mul_le_mul_of_nonneg_left (mul_le_mul (h u i) (h v j) (norm_nonneg _) (Real.sqrt_nonneg _)) (norm_nonneg _)

/-- Forms of two vectors of one length that are near each other. -/
theorem form_near (A : Matrix (Fin n) (Fin n) ℂ) {x y : Fin n → ℂ} {g : ℝ} (hg : 0 ≤ g) (hn : ∑ i, ‖y i‖ ^ 2 = ∑ i, ‖x i‖ ^ 2)
    (hd : ∑ i, ‖(y - x) i‖ ^ 2 ≤ g ^ 2 * ∑ i, ‖x i‖ ^ 2) :
    |(star y ⬝ᵥ A.mulVec y).re - (star x ⬝ᵥ A.mulVec x).re| ≤ 2 * (∑ i, ∑ j, ‖A i j‖) * g * ∑ i, ‖x i‖ ^ 2 := by
  have N0 : 0 ≤ ∑ i, ‖x i‖ ^ 2 := Finset.sum_nonneg fun _ _ => sq_nonneg _
  have s0 : 0 ≤ ∑ i, ∑ j, ‖A i j‖ := Finset.sum_nonneg fun i _ => Finset.sum_nonneg fun j _ => norm_nonneg _
  have e : star y ⬝ᵥ A.mulVec y - star x ⬝ᵥ A.mulVec x = star (y - x) ⬝ᵥ A.mulVec y + star x ⬝ᵥ A.mulVec (y - x) := by
    rw [star_sub, sub_dotProduct, Matrix.mulVec_sub, dotProduct_sub]
    ring
  have r : √(∑ i, ‖(y - x) i‖ ^ 2) ≤ g * √(∑ i, ‖x i‖ ^ 2) := by
    refine (Real.sqrt_le_sqrt hd).trans ?_
    rw [Real.sqrt_mul (sq_nonneg _), Real.sqrt_sq hg]
  have q := Real.mul_self_sqrt N0
  have q0 := Real.sqrt_nonneg (∑ i, ‖x i‖ ^ 2)
  have h1 := bilinear_le_norm A (y - x) y
  have h2 := bilinear_le_norm A x (y - x)
  rw [hn] at h1
  have h3 : √(∑ i, ‖(y - x) i‖ ^ 2) * √(∑ i, ‖x i‖ ^ 2) ≤ g * ∑ i, ‖x i‖ ^ 2 := by
    calc _ ≤ g * √(∑ i, ‖x i‖ ^ 2) * √(∑ i, ‖x i‖ ^ 2) := mul_le_mul_of_nonneg_right r q0
      _ = _ := by rw [mul_assoc, q]
  have h4 := mul_le_mul_of_nonneg_left h3 s0
  rw [mul_comm (√(∑ i, ‖x i‖ ^ 2))] at h2
  rw [← Complex.sub_re, e]
  refine (Complex.abs_re_le_norm _).trans ((norm_add_le _ _).trans ?_)
  linarith

end

section
variable {neq D : ℕ} {Kg Mg : Matrix (Fin neq) (Fin neq) ℝ} {nodesRef nodesIma dofsRef dofsIma : List ℤ} {refDof imaDof : ℤ → Option (List ℤ)}
  {newNum : List ℤ} {coords : List (List ℝ)} {l : (Fin D → ℝ) → Fin (neq - dofsRef.length) → ℝ}

theorem branches_lipschitz (hM : Mg.IsSymm ∧ ∀ v, v ≠ 0 → 0 < v ⬝ᵥ Mg.mulVec v)
    (ht : Tied neq nodesRef nodesIma dofsRef dofsIma refDof imaDof newNum)
    (hb : Branches D Kg Mg coords nodesRef nodesIma dofsRef dofsIma refDof imaDof newNum l) :
    ∃ C : ℝ, 0 ≤ C ∧ ∀ (κ κ' : Fin D → ℝ) (k : Fin (neq - dofsRef.length)), |l κ' k - l κ k| ≤ C * √(∑ s, (κ' s - κ s) ^ 2) := by
  choose T q h1 h2 using hb
  choose b hb0 hb using bloch_between ht h1
  obtain ⟨m, hm, hmass⟩ := norm_le_form (map_posDef hM.1 hM.2)
  set A := Kg.map Complex.ofReal with hA
  set M := Mg.map Complex.ofReal with hMc
  set S := ∑ i, ∑ j, ‖A i j‖ with hS
  set R := ∑ i, ∑ j, ‖M i j‖ with hR
  have s0 : 0 ≤ S := Finset.sum_nonneg fun i _ => Finset.sum_nonneg fun j _ => norm_nonneg _
  have r0 : 0 ≤ R := Finset.sum_nonneg fun i _ => Finset.sum_nonneg fun j _ => norm_nonneg _
  have b0 : 0 ≤ ∑ i, b i := Finset.sum_nonneg fun i _ => hb0 i
  have herm : ∀ κ, ((T κ).conjTranspose * M * T κ).IsHermitian := fun κ => Matrix.isHermitian_conjTranspose_mul_mul _ (map_hermitian hM.1)
  have size : ∀ κ k, |l κ k| ≤ S / m := fun κ k => by
    have e1 : star ((T κ).mulVec (q κ k)) ⬝ᵥ A.mulVec ((T κ).mulVec (q κ k)) = (l κ k : ℂ) := by
      rw [← form_product, (h2 κ).motion, dotProduct_smul, (h2 κ).normal, if_pos rfl, smul_eq_mul, mul_one]
    have e2 : star ((T κ).mulVec (q κ k)) ⬝ᵥ M.mulVec ((T κ).mulVec (q κ k)) = 1 := by
      rw [← form_product, (h2 κ).normal, if_pos rfl]
    have f1 := bilinear_le_norm A ((T κ).mulVec (q κ k)) ((T κ).mulVec (q κ k))
    rw [e1, Complex.norm_real, Real.norm_eq_abs, Real.mul_self_sqrt (Finset.sum_nonneg fun _ _ => sq_nonneg _)] at f1
    have f2 := hmass ((T κ).mulVec (q κ k))
    rw [e2, Complex.one_re] at f2
    refine f1.trans ?_
    rw [← hS, div_eq_mul_inv]
    refine mul_le_mul_of_nonneg_left ?_ s0
    rw [← one_div, le_div_iff₀ hm, mul_comm]
    exact f2
  have c0 : 0 ≤ 2 * (S + S / m * R) * √(∑ i, b i) / m := by positivity
  have half : ∀ (κ κ' : Fin D → ℝ) k, l κ' k ≤ l κ k + 2 * (S + S / m * R) * √(∑ i, b i) / m * √(∑ s, (κ' s - κ s) ^ 2) := by
    intro κ κ' k
    obtain ⟨u, hu, hle⟩ := ((h2 κ).minmax (herm κ) k (l κ k)).1 le_rfl
    refine ((h2 κ').minmax (herm κ') k _).2 ⟨u, hu, fun c => ?_⟩
    have hle := hle c
    rw [form_product, form_product] at hle ⊢
    generalize ∑ a, c a • u a = w at hle ⊢
    have k0 : 0 ≤ ∑ s, (κ' s - κ s) ^ 2 := Finset.sum_nonneg fun _ _ => sq_nonneg _
    have hn : ∑ i, ‖(T κ').mulVec w i‖ ^ 2 = ∑ i, ‖(T κ).mulVec w i‖ ^ 2 := Finset.sum_congr rfl fun i _ => by rw [(hb i κ κ' w).2]
    have hd : ∑ i, ‖((T κ').mulVec w - (T κ).mulVec w) i‖ ^ 2 ≤ (√(∑ i, b i) * √(∑ s, (κ' s - κ s) ^ 2)) ^ 2 * ∑ i, ‖(T κ).mulVec w i‖ ^ 2 := by
      rw [mul_pow, Real.sq_sqrt b0, Real.sq_sqrt k0, Finset.mul_sum]
      refine Finset.sum_le_sum fun i _ => (hb i κ κ' w).1.trans ?_
      refine mul_le_mul_of_nonneg_right (mul_le_mul_of_nonneg_right ?_ k0) (sq_nonneg _)
      exact Finset.single_le_sum (f := b) (fun i _ => hb0 i) (Finset.mem_univ i)
    have g0 : 0 ≤ √(∑ i, b i) * √(∑ s, (κ' s - κ s) ^ 2) := by positivity
    have f1 := form_near A g0 hn hd
    have f2 := form_near M g0 hn hd
    have f3 := hmass ((T κ').mulVec w)
    rw [hn] at f3
    rw [← hS] at f1
    rw [← hR] at f2
    generalize (T κ').mulVec w = y at *
    generalize (T κ).mulVec w = x at *
    generalize ∑ i, ‖x i‖ ^ 2 = N at *
    generalize √(∑ i, b i) = B at *
    generalize √(∑ s, (κ' s - κ s) ^ 2) = δ at *
    generalize (star y ⬝ᵥ A.mulVec y).re = ya at *
    generalize (star x ⬝ᵥ A.mulVec x).re = xa at *
    generalize (star y ⬝ᵥ M.mulVec y).re = ym at *
    generalize (star x ⬝ᵥ M.mulVec x).re = xm at *
    have f4 : l κ k * (xm - ym) ≤ S / m * (2 * R * (B * δ) * N) := by
      refine (le_abs_self _).trans ?_
      rw [abs_mul, abs_sub_comm]
      exact mul_le_mul (size κ k) f2 (abs_nonneg _) (by positivity)
    have f5 := (abs_le.1 f1).2
    have f6 : 2 * (S + S / m * R) * (B * δ) / m * (m * N) ≤ 2 * (S + S / m * R) * (B * δ) / m * ym :=
      mul_le_mul_of_nonneg_left f3 (by positivity)
    have f7 : 2 * (S + S / m * R) * (B * δ) / m * (m * N) = 2 * (S + S / m * R) * (B * δ) * N := by field_simp
    have f8 : 2 * (S + S / m * R) * B / m * δ * ym = 2 * (S + S / m * R) * (B * δ) / m * ym := by ring
    rw [add_mul, f8]
    linarith
  refine ⟨_, c0, fun κ κ' k => abs_sub_le_iff.2 ⟨by linarith [half κ κ' k], ?_⟩⟩
  have := half κ' κ k
  rw [Finset.sum_congr rfl fun s _ => show (κ s - κ' s) ^ 2 = (κ' s - κ s) ^ 2 by ring] at this
  linarith

/-- What a sample of the wave vectors tells about all of them. -/
theorem branches_sampled {C : ℝ} (hC : 0 ≤ C) (h : ∀ (κ κ' : Fin D → ℝ) (k : Fin (neq - dofsRef.length)), |l κ' k - l κ k| ≤ C * √(∑ s, (κ' s - κ s) ^ 2))
    {Ω P : Set (Fin D → ℝ)} {r : ℝ} (hP : ∀ κ ∈ Ω, ∃ κ' ∈ P, √(∑ s, (κ' s - κ s) ^ 2) ≤ r) (k : Fin (neq - dofsRef.length)) (a : ℝ) :
    ((∀ κ' ∈ P, l κ' k + C * r ≤ a) → ∀ κ ∈ Ω, l κ k ≤ a) ∧ ((∀ κ' ∈ P, a ≤ l κ' k - C * r) → ∀ κ ∈ Ω, a ≤ l κ k) := by
  have near : ∀ κ ∈ Ω, ∃ κ' ∈ P, |l κ' k - l κ k| ≤ C * r := fun κ hκ => by
    obtain ⟨κ', h1, h2⟩ := hP κ hκ
    exact ⟨κ', h1, (h κ κ' k).trans (mul_le_mul_of_nonneg_left h2 hC)⟩
  refine ⟨fun h κ hκ => ?_, fun h κ hκ => ?_⟩ <;> obtain ⟨κ', h1, h2⟩ := near κ hκ <;> have := h κ' h1 <;> have := abs_le.1 h2 <;> linarith

end

section
variable {sq : ℝ → ℝ} {d : Gui.Data ℝ} {neq D : ℕ} {Kg Mg : Matrix (Fin neq) (Fin neq) ℝ} {ks ms : List (Member ℝ)}
  {nodesRef nodesIma dofsRef dofsIma : List ℤ} {refDof imaDof : ℤ → Option (List ℤ)} {newNum : List ℤ} {coords : List (List ℝ)}
  {l : (Fin D → ℝ) → Fin (neq - dofsRef.length) → ℝ}

/-- C184.  Plane cells: one constant bounds the steepness of all branches, at all wave vectors. -/
theorem C184_steepness (hs : SqrtFn sq) (h : Vibrating sq d ks ms Kg Mg) (ht : Tied neq nodesRef nodesIma dofsRef dofsIma refDof imaDof newNum)
    (hb : Branches D Kg Mg coords nodesRef nodesIma dofsRef dofsIma refDof imaDof newNum l) :
    ∃ C : ℝ, 0 ≤ C ∧ ∀ (κ κ' : Fin D → ℝ) (k : Fin (neq - dofsRef.length)), |l κ' k - l κ k| ≤ C * √(∑ s, (κ' s - κ s) ^ 2) :=
  branches_lipschitz (h.mass hs) ht hb

/-- C184.  Plane cells: bounds seen on a sample of the wave vectors hold between them, up to the constant times the step. -/
theorem C184_sampled (hs : SqrtFn sq) (h : Vibrating sq d ks ms Kg Mg) (ht : Tied neq nodesRef nodesIma dofsRef dofsIma refDof imaDof newNum)
    (hb : Branches D Kg Mg coords nodesRef nodesIma dofsRef dofsIma refDof imaDof newNum l) :
    ∃ C : ℝ, 0 ≤ C ∧ ∀ (Ω P : Set (Fin D → ℝ)) (r : ℝ), (∀ κ ∈ Ω, ∃ κ' ∈ P, √(∑ s, (κ' s - κ s) ^ 2) ≤ r) → ∀ k (a : ℝ),
      ((∀ κ' ∈ P, l κ' k + C * r ≤ a) → ∀ κ ∈ Ω, l κ k ≤ a) ∧ ((∀ κ' ∈ P, a ≤ l κ' k - C * r) → ∀ κ ∈ Ω, a ≤ l κ k) := by
  obtain ⟨C, hC, hle⟩ := C184_steepness hs h ht hb
  exact ⟨C, hC, fun Ω P r hP => branches_sampled hC hle hP⟩

end

section
variable {sq : ℝ → ℝ} {cons mats nodes : Table ℝ} {elements : List (List ℤ)} {neq D : ℕ} {ks ms : List (Member ℝ)}
  {Kg Mg : Matrix (Fin neq) (Fin neq) ℝ} {w : Fin neq → ℝ} {φ : Fin neq → Fin neq → ℝ}
  {nodesRef nodesIma dofsRef dofsIma : List ℤ} {refDof imaDof : ℤ → Option (List ℤ)} {newNum : List ℤ} {coords : List (List ℝ)}
  {l : (Fin D → ℝ) → Fin (neq - dofsRef.length) → ℝ}

/-- C184.  Cells made of beams: the steepness of the branches. -/
theorem C184_frame_steepness (hs : SqrtFn sq) (h : BeamModel sq cons mats nodes elements ks ms Kg Mg) (hm : Modes Kg Mg w φ)
    (ht : Tied neq nodesRef nodesIma dofsRef dofsIma refDof imaDof newNum)
    (hb : Branches D Kg Mg coords nodesRef nodesIma dofsRef dofsIma refDof imaDof newNum l) :
    ∃ C : ℝ, 0 ≤ C ∧ ∀ (κ κ' : Fin D → ℝ) (k : Fin (neq - dofsRef.length)), |l κ' k - l κ k| ≤ C * √(∑ s, (κ' s - κ s) ^ 2) :=
  branches_lipschitz ⟨(h.symm hs).2, modes_mass hm⟩ ht hb

/-- C184.  Cells made of beams: samples. -/
theorem C184_frame_sampled (hs : SqrtFn sq) (h : BeamModel sq cons mats nodes elements ks ms Kg Mg) (hm : Modes Kg Mg w φ)
    (ht : Tied neq nodesRef nodesIma dofsRef dofsIma refDof imaDof newNum)
    (hb : Branches D Kg Mg coords nodesRef nodesIma dofsRef dofsIma refDof imaDof newNum l) :
    ∃ C : ℝ, 0 ≤ C ∧ ∀ (Ω P : Set (Fin D → ℝ)) (r : ℝ), (∀ κ ∈ Ω, ∃ κ' ∈ P, √(∑ s, (κ' s - κ s) ^ 2) ≤ r) → ∀ k (a : ℝ),
      ((∀ κ' ∈ P, l κ' k + C * r ≤ a) → ∀ κ ∈ Ω, l κ k ≤ a) ∧ ((∀ κ' ∈ P, a ≤ l κ' k - C * r) → ∀ κ ∈ Ω, a ≤ l κ k) := by
  obtain ⟨C, hC, hle⟩ := C184_frame_steepness hs h hm ht hb
  exact ⟨C, hC, fun Ω P r hP => branches_sampled hC hle hP⟩

end

/-- Case for C184: the rod of `n` bars with the wave vectors sampled on a square grid of any step. -/
example (n : ℕ) (hn : 0 < n) : ∃ (Kg Mg : Matrix (Fin (n + 1)) (Fin (n + 1)) ℝ) (newNum : List ℤ) (ks ms : List (Member ℝ))
    (l : (Fin 2 → ℝ) → Fin (n + 1 - [(0 : ℤ)].length) → ℝ), Vibrating Real.sqrt (testRod n 1 1 1 1) ks ms Kg Mg ∧
    Branches 2 Kg Mg ((testRod n 1 1 1 1).nodes.map (List.drop 1)) [0] [(n : ℤ)] [0] [(n : ℤ)] (fun z => if z = 0 then some [0] else none)
      (fun z => if z = n then some [(n : ℤ)] else none) newNum l ∧
    ∃ C : ℝ, 0 ≤ C ∧ ∀ t : ℝ, 0 < t → ∀ k (a : ℝ), (∀ z : Fin 2 → ℤ, l (fun s => t * z s) k + C * t ≤ a) → ∀ κ, l κ k ≤ a := by
  obtain ⟨op, bc, Kg, Mg, newNum, T, h1, h2, hw⟩ := C144_returns (refDof := fun z => if z = 0 then some [0] else none)
    (imaDof := fun z => if z = n then some [(n : ℤ)] else none) (testRod_periodic n 1 1 1 1) sqrtFn_real one_pos hn 0 0 (by simp) (by simp)
  obtain ⟨ks, ms, hv⟩ := (testRod_periodic n 1 1 1 1).vibrating sqrtFn_real hn one_pos one_pos one_pos h1 h2
  obtain ⟨l, hl, -⟩ := C180_exists (D := 2) sqrtFn_real hv (rod_tied hw) hw.matrix rfl
  obtain ⟨C, hC, hle⟩ := C184_sampled sqrtFn_real hv (rod_tied hw) hl
  refine ⟨Kg, Mg, newNum, ks, ms, l, hv, hl, C, hC, fun t ht k a ha κ => ?_⟩
  refine (hle Set.univ (Set.range fun (z : Fin 2 → ℤ) s => t * (z s : ℝ)) t (fun κ _ => ⟨_, ⟨fun s => round (κ s / t), rfl⟩, ?_⟩) k a).1
    (fun κ' ⟨z, hz⟩ => hz ▸ ha z) κ trivial
  refine Real.sqrt_le_iff.2 ⟨ht.le, ?_⟩
  have near : ∀ s, (t * (round (κ s / t) : ℝ) - κ s) ^ 2 ≤ t ^ 2 / 4 := fun s => by
    have h := abs_sub_round (κ s / t)
    have e : t * (round (κ s / t) : ℝ) - κ s = -t * (κ s / t - round (κ s / t)) := by field_simp; ring
    rw [e, mul_pow, neg_sq, ← sq_abs (κ s / t - _)]
    nlinarith [abs_nonneg (κ s / t - round (κ s / t)), sq_nonneg t, mul_le_mul h h (abs_nonneg _) (by norm_num)]
  rw [Fin.sum_univ_two]
  nlinarith [near 0, near 1, sq_nonneg t]

end SolidsPy
