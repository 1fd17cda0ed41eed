import Verif.Props.Steepness

/-! # C185: no group velocity is above a constant of the cell -/

set_option linter.unusedSectionVars false

namespace SolidsPy
open Spec Assem Bloch Matrix
open scoped ComplexOrder

section
variable {n : ℕ}

/-- The root of a form without negative values obeys the triangle inequality. -/
theorem form_triangle {A : Matrix (Fin n) (Fin n) ℂ} (hA : A.PosSemidef) (x y : Fin n → ℂ) :
    √(star (x + y) ⬝ᵥ A.mulVec (x + y)).re ≤ √(star x ⬝ᵥ A.mulVec x).re + √(star y ⬝ᵥ A.mulVec y).re := by
  have nn : ∀ v, 0 ≤ (star v ⬝ᵥ A.mulVec v).re := fun v => (Complex.le_def.1 (hA.dotProduct_mulVec_nonneg v)).1
  have sw : (star y ⬝ᵥ A.mulVec x).re = (star x ⬝ᵥ A.mulVec y).re := by
    rw [Spec.Waves.swap hA.1 y x, Complex.star_def, Complex.conj_re]
  have ex : ∀ t : ℝ, (star (x + (t : ℂ) • y) ⬝ᵥ A.mulVec (x + (t : ℂ) • y)).re =
      (star y ⬝ᵥ A.mulVec y).re * (t * t) + 2 * (star x ⬝ᵥ A.mulVec y).re * t + (star x ⬝ᵥ A.mulVec x).re := fun t => by
    rw [Matrix.mulVec_add, Matrix.mulVec_smul, star_add, star_smul, Complex.star_def, Complex.conj_ofReal, add_dotProduct, dotProduct_add,
      dotProduct_add, smul_dotProduct, smul_dotProduct, dotProduct_smul, dotProduct_smul]
    simp only [smul_eq_mul, Complex.add_re, Complex.re_ofReal_mul, sw]
    ring
  have cs := discrim_le_zero fun t => by rw [← ex t]; exact nn _
  rw [discrim] at cs
  have e1 := ex 1
  rw [Complex.ofReal_one, one_smul] at e1
  rw [e1]
  have hx := nn x
  have hy := nn y
  generalize (star x ⬝ᵥ A.mulVec x).re = a at *
  generalize (star y ⬝ᵥ A.mulVec y).re = b at *
  generalize (star x ⬝ᵥ A.mulVec y).re = c at *
  have hc : c ≤ √a * √b := by
    rw [← Real.sqrt_mul hx]
    exact Real.le_sqrt_of_sq_le (by linarith)
  refine Real.sqrt_le_iff.2 ⟨by positivity, ?_⟩
  nlinarith [Real.sq_sqrt hx, Real.sq_sqrt hy]

end

section
variable {neq D : ℕ} {Kg Mg : Matrix (Fin neq) (Fin neq) ℝ} {nodesRef nodesIma dofsRef dofsIma : List ℤ} {refDof imaDof : ℤ → Option (List ℤ)}
  {newNum : List ℤ} {coords : List (List ℝ)} {l : (Fin D → ℝ) → Fin (neq - dofsRef.length) → ℝ}

theorem branches_speed (hK : Kg.IsSymm ∧ ∀ v, 0 ≤ v ⬝ᵥ Kg.mulVec v) (hM : Mg.IsSymm ∧ ∀ v, v ≠ 0 → 0 < v ⬝ᵥ Mg.mulVec v)
    (ht : Tied neq nodesRef nodesIma dofsRef dofsIma refDof imaDof newNum)
    (hb : Branches D Kg Mg coords nodesRef nodesIma dofsRef dofsIma refDof imaDof newNum l) :
    ∃ C : ℝ, 0 ≤ C ∧ ∀ (κ κ' : Fin D → ℝ) (k : Fin (neq - dofsRef.length)), 0 ≤ l κ k ∧
      |√(l κ' k) - √(l κ k)| ≤ C * √(∑ s, (κ' s - κ s) ^ 2) := by
  choose T q h1 h2 using hb
  choose b hb0 hb using bloch_between ht h1
  have pK := map_posSemidef hK.1 hK.2
  have pM := map_posDef hM.1 hM.2
  obtain ⟨m, hm, hmass⟩ := norm_le_form pM
  set A := Kg.map Complex.ofReal with hA
  set M := Mg.map Complex.ofReal with hMc
  set S := ∑ i, ∑ j, ‖A i j‖ with hS
  set R := ∑ i, ∑ j, ‖M i j‖ with hR
  have s0 : 0 ≤ S := Finset.sum_nonneg fun i _ => Finset.sum_nonneg fun j _ => norm_nonneg _
  have r0 : 0 ≤ R := Finset.sum_nonneg fun i _ => Finset.sum_nonneg fun j _ => norm_nonneg _
  have b0 : 0 ≤ ∑ i, b i := Finset.sum_nonneg fun i _ => hb0 i
  have herm : ∀ κ, ((T κ).conjTranspose * M * T κ).IsHermitian := fun κ => Matrix.isHermitian_conjTranspose_mul_mul _ (map_hermitian hM.1)
  have nnA : ∀ v, 0 ≤ (star v ⬝ᵥ A.mulVec v).re := fun v => (Complex.le_def.1 (pK.dotProduct_mulVec_nonneg v)).1
  have nnM : ∀ v, 0 ≤ (star v ⬝ᵥ M.mulVec v).re := fun v => (Complex.le_def.1 (pM.posSemidef.dotProduct_mulVec_nonneg v)).1
  have size : ∀ κ k, 0 ≤ l κ k ∧ l κ k ≤ S / m := fun κ k => by
    have e1 : star ((T κ).mulVec (q κ k)) ⬝ᵥ A.mulVec ((T κ).mulVec (q κ k)) = (l κ k : ℂ) := by
      rw [← form_product, (h2 κ).motion, dotProduct_smul, (h2 κ).normal, if_pos rfl, smul_eq_mul, mul_one]
    have e2 : star ((T κ).mulVec (q κ k)) ⬝ᵥ M.mulVec ((T κ).mulVec (q κ k)) = 1 := by
      rw [← form_product, (h2 κ).normal, if_pos rfl]
    have f0 := nnA ((T κ).mulVec (q κ k))
    have f1 := form_le_norm A ((T κ).mulVec (q κ k))
    have f2 := hmass ((T κ).mulVec (q κ k))
    rw [e1, Complex.ofReal_re] at f0 f1
    rw [e2, Complex.one_re] at f2
    refine ⟨f0, f1.trans ?_⟩
    rw [← hS, div_eq_mul_inv]
    refine mul_le_mul_of_nonneg_left ?_ s0
    rw [← one_div, le_div_iff₀ hm, mul_comm]
    exact f2
  have half : ∀ (κ κ' : Fin D → ℝ) k, √(l κ' k) ≤ √(l κ k) + (√S + √(S / m) * √R) * √(∑ i, b i) / √m * √(∑ s, (κ' s - κ s) ^ 2) := by
    intro κ κ' k
    obtain ⟨u, hu, hle⟩ := ((h2 κ).minmax (herm κ) k (l κ k)).1 le_rfl
    refine Real.sqrt_le_iff.2 ⟨by positivity, ((h2 κ').minmax (herm κ') k _).2 ⟨u, hu, fun c => ?_⟩⟩
    have hle := hle c
    rw [form_product, form_product] at hle ⊢
    generalize ∑ a, c a • u a = w at hle ⊢
    have k0 : 0 ≤ ∑ s, (κ' s - κ s) ^ 2 := Finset.sum_nonneg fun _ _ => sq_nonneg _
    have hn : ∑ i, ‖(T κ').mulVec w i‖ ^ 2 = ∑ i, ‖(T κ).mulVec w i‖ ^ 2 := Finset.sum_congr rfl fun i _ => by rw [(hb i κ κ' w).2]
    have hd : ∑ i, ‖((T κ').mulVec w - (T κ).mulVec w) i‖ ^ 2 ≤ (√(∑ i, b i) * √(∑ s, (κ' s - κ s) ^ 2)) ^ 2 * ∑ i, ‖(T κ).mulVec w i‖ ^ 2 := by
      rw [mul_pow, Real.sq_sqrt b0, Real.sq_sqrt k0, Finset.mul_sum]
      refine Finset.sum_le_sum fun i _ => (hb i κ κ' w).1.trans ?_
      refine mul_le_mul_of_nonneg_right (mul_le_mul_of_nonneg_right ?_ k0) (sq_nonneg _)
      exact Finset.single_le_sum (f := b) (fun i _ => hb0 i) (Finset.mem_univ i)
    have f3 := hmass ((T κ').mulVec w)
    rw [hn] at f3
    have nx := nnA ((T κ).mulVec w)
    have ny := nnA ((T κ').mulVec w)
    have my := nnM ((T κ').mulVec w)
    have mx := nnM ((T κ).mulVec w)
    obtain ⟨l0, l1⟩ := size κ k
    generalize (T κ').mulVec w = y at *
    generalize (T κ).mulVec w = x at *
    have N0 : 0 ≤ ∑ i, ‖x i‖ ^ 2 := Finset.sum_nonneg fun _ _ => sq_nonneg _
    have t1 := form_triangle pK x (y - x)
    have t2 := form_triangle pM.posSemidef y (x - y)
    rw [add_sub_cancel] at t1 t2
    have a1 := form_le_norm A (y - x)
    have a2 := form_le_norm M (x - y)
    rw [Finset.sum_congr rfl fun i _ => show ‖(x - y) i‖ ^ 2 = ‖(y - x) i‖ ^ 2 by rw [Pi.sub_apply, norm_sub_rev, Pi.sub_apply]] at a2
    rw [← hS] at a1
    rw [← hR] at a2
    have g0 : 0 ≤ √(∑ i, b i) * √(∑ s, (κ' s - κ s) ^ 2) := by positivity
    rw [mul_div_right_comm, mul_assoc _ (√(∑ i, b i))]
    generalize √(∑ i, b i) * √(∑ s, (κ' s - κ s) ^ 2) = g at *
    generalize ∑ i, ‖x i‖ ^ 2 = N at *
    generalize ∑ i, ‖(y - x) i‖ ^ 2 = E at *
    have u1 : √(star (y - x) ⬝ᵥ A.mulVec (y - x)).re ≤ √S * (g * √N) := by
      refine (Real.sqrt_le_sqrt (a1.trans (mul_le_mul_of_nonneg_left hd s0))).trans (le_of_eq ?_)
      rw [Real.sqrt_mul s0, Real.sqrt_mul (sq_nonneg _), Real.sqrt_sq g0]
    have u2 : √(star (x - y) ⬝ᵥ M.mulVec (x - y)).re ≤ √R * (g * √N) := by
      refine (Real.sqrt_le_sqrt (a2.trans (mul_le_mul_of_nonneg_left hd r0))).trans (le_of_eq ?_)
      rw [Real.sqrt_mul r0, Real.sqrt_mul (sq_nonneg _), Real.sqrt_sq g0]
    have u3 : √m * √N ≤ √(star y ⬝ᵥ M.mulVec y).re := by
      rw [← Real.sqrt_mul hm.le]
      exact Real.sqrt_le_sqrt f3
    have u4 : √(star x ⬝ᵥ A.mulVec x).re ≤ √(l κ k) * √(star x ⬝ᵥ M.mulVec x).re := by
      rw [← Real.sqrt_mul l0]
      exact Real.sqrt_le_sqrt hle
    have u5 : √(l κ k) ≤ √(S / m) := Real.sqrt_le_sqrt l1
    have key : √(star y ⬝ᵥ A.mulVec y).re ≤ (√(l κ k) + (√S + √(S / m) * √R) / √m * g) * √(star y ⬝ᵥ M.mulVec y).re := by
      have v1 : √(l κ k) * √(star x ⬝ᵥ M.mulVec x).re ≤ √(l κ k) * √(star y ⬝ᵥ M.mulVec y).re + √(S / m) * (√R * (g * √N)) := by
        have := mul_le_mul_of_nonneg_left (t2.trans (add_le_add_right u2 _)) (Real.sqrt_nonneg (l κ k))
        have := mul_le_mul_of_nonneg_right u5 (show 0 ≤ √R * (g * √N) by positivity)
        linarith
      have v2 : (√S + √(S / m) * √R) / √m * g * (√m * √N) ≤ (√S + √(S / m) * √R) / √m * g * √(star y ⬝ᵥ M.mulVec y).re :=
        mul_le_mul_of_nonneg_left u3 (by positivity)
      have v3 : (√S + √(S / m) * √R) / √m * g * (√m * √N) = √S * (g * √N) + √(S / m) * (√R * (g * √N)) := by
        have : √m ≠ 0 := (Real.sqrt_pos.2 hm).ne'
        field_simp
      rw [add_mul]
      linarith
    have := pow_le_pow_left₀ (Real.sqrt_nonneg _) key 2
    rwa [Real.sq_sqrt ny, mul_pow, Real.sq_sqrt my] at this
  refine ⟨(√S + √(S / m) * √R) * √(∑ i, b i) / √m, by positivity, fun κ κ' k => ⟨(size κ k).1, abs_sub_le_iff.2 ⟨by linarith [half κ κ' k], ?_⟩⟩⟩
  have := half κ' κ k
  rw [Finset.sum_congr rfl fun s _ => show (κ s - κ' s) ^ 2 = (κ' s - κ s) ^ 2 by ring] at this
  linarith

/-- No speed is above the constant. -/
theorem speed_bound {C : ℝ} (hC : 0 ≤ C) {f : (Fin D → ℝ) → ℝ} (h : ∀ κ κ' : Fin D → ℝ, |f κ' - f κ| ≤ C * √(∑ s, (κ' s - κ s) ^ 2))
    {κ e : Fin D → ℝ} {v : ℝ} (hv : HasDerivAt (fun t : ℝ => f fun i => κ i + t * e i) v 0) : |v| ≤ C * √(∑ s, e s ^ 2) := by
  refine hv.le_of_lip' (by positivity) (.of_forall fun t => ?_)
  refine (h _ _).trans (le_of_eq ?_)
  rw [Finset.sum_congr rfl fun s _ => show (κ s + t * e s - (κ s + 0 * e s)) ^ 2 = t ^ 2 * e s ^ 2 by ring, ← Finset.mul_sum,
    Real.sqrt_mul (sq_nonneg _), Real.sqrt_sq_eq_abs, sub_zero, Real.norm_eq_abs]
  ring

end

section
variable {sq : ℝ → ℝ} {d : Gui.Data ℝ} {neq D : ℕ} {Kg Mg : Matrix (Fin neq) (Fin neq) ℝ} {ks ms : List (Member ℝ)}
  {nodesRef nodesIma dofsRef dofsIma : List ℤ} {refDof imaDof : ℤ → Option (List ℤ)} {newNum : List ℤ} {coords : List (List ℝ)}
  {l : (Fin D → ℝ) → Fin (neq - dofsRef.length) → ℝ}

/-- C185.  Plane cells: the frequencies of two wave vectors differ by at most a constant times their distance, and no group velocity is above
that constant. -/
theorem C185_speed (hs : SqrtFn sq) (h : Vibrating sq d ks ms Kg Mg) (hphys : Physical d)
    (ht : Tied neq nodesRef nodesIma dofsRef dofsIma refDof imaDof newNum)
    (hb : Branches D Kg Mg coords nodesRef nodesIma dofsRef dofsIma refDof imaDof newNum l) :
    ∃ C : ℝ, 0 ≤ C ∧ ∀ k : Fin (neq - dofsRef.length), (∀ κ κ' : Fin D → ℝ, 0 ≤ l κ k ∧ |√(l κ' k) - √(l κ k)| ≤ C * √(∑ s, (κ' s - κ s) ^ 2)) ∧
      ∀ (κ e : Fin D → ℝ) (v : ℝ), HasDerivAt (fun t : ℝ => √(l (fun i => κ i + t * e i) k)) v 0 → |v| ≤ C * √(∑ s, e s ^ 2) := by
  obtain ⟨C, hC, hle⟩ := branches_speed ⟨h.stiff hs, h.stiff_nonneg hs hphys⟩ (h.mass hs) ht hb
  exact ⟨C, hC, fun k => ⟨fun κ κ' => hle κ κ' k, fun κ e v hv => speed_bound (f := fun κ => √(l κ k)) hC (fun κ κ' => (hle κ κ' k).2) hv⟩⟩

end

section
variable {sq : ℝ → ℝ} {cons mats nodes : Table ℝ} {elements : List (List ℤ)} {neq D : ℕ} {ks ms : List (Member ℝ)}
  {Kg Mg : Matrix (Fin neq) (Fin neq) ℝ} {w : Fin neq → ℝ} {φ : Fin neq → Fin neq → ℝ}
  {nodesRef nodesIma dofsRef dofsIma : List ℤ} {refDof imaDof : ℤ → Option (List ℤ)} {newNum : List ℤ} {coords : List (List ℝ)}
  {l : (Fin D → ℝ) → Fin (neq - dofsRef.length) → ℝ}

/-- C185.  Cells made of beams. -/
theorem C185_frame_speed (hs : SqrtFn sq) (h : BeamModel sq cons mats nodes elements ks ms Kg Mg) (hm : Modes Kg Mg w φ)
    (he : ∀ el ∈ elements, ElasticBeam mats nodes el) (ht : Tied neq nodesRef nodesIma dofsRef dofsIma refDof imaDof newNum)
    (hb : Branches D Kg Mg coords nodesRef nodesIma dofsRef dofsIma refDof imaDof newNum l) :
    ∃ C : ℝ, 0 ≤ C ∧ ∀ k : Fin (neq - dofsRef.length), (∀ κ κ' : Fin D → ℝ, 0 ≤ l κ k ∧ |√(l κ' k) - √(l κ k)| ≤ C * √(∑ s, (κ' s - κ s) ^ 2)) ∧
      ∀ (κ e : Fin D → ℝ) (v : ℝ), HasDerivAt (fun t : ℝ => √(l (fun i => κ i + t * e i) k)) v 0 → |v| ≤ C * √(∑ s, e s ^ 2) := by
  obtain ⟨C, hC, hle⟩ := branches_speed ⟨(h.symm hs).1, fun v => by
    rw [hm.form_stiff (h.symm hs).2]
    exact Finset.sum_nonneg fun k _ => mul_nonneg (C122_nonneg hs h he hm k) (sq_nonneg _)⟩ ⟨(h.symm hs).2, modes_mass hm⟩ ht hb
  exact ⟨C, hC, fun k => ⟨fun κ κ' => hle κ κ' k, fun κ e v hv => speed_bound (f := fun κ => √(l κ k)) hC (fun κ κ' => (hle κ κ' k).2) hv⟩⟩

end

/-- Case for C185: the rod of `n` bars, whose frequencies grow from zero no faster than the constant. -/
example (n : ℕ) (hn : 0 < n) : ∃ (Kg Mg : Matrix (Fin (n + 1)) (Fin (n + 1)) ℝ) (newNum : List ℤ) (ks ms : List (Member ℝ))
    (l : (Fin 2 → ℝ) → Fin (n + 1 - [(0 : ℤ)].length) → ℝ), Vibrating Real.sqrt (testRod n 1 1 1 1) ks ms Kg Mg ∧
    Branches 2 Kg Mg ((testRod n 1 1 1 1).nodes.map (List.drop 1)) [0] [(n : ℤ)] [0] [(n : ℤ)] (fun z => if z = 0 then some [0] else none)
      (fun z => if z = n then some [(n : ℤ)] else none) newNum l ∧
    ∃ C : ℝ, 0 ≤ C ∧ ∀ k (x y : ℝ), |√(l ![x, 0] k) - √(l ![y, 0] k)| ≤ C * |x - y| := by
  obtain ⟨op, bc, Kg, Mg, newNum, T, h1, h2, hw⟩ := C144_returns (refDof := fun z => if z = 0 then some [0] else none)
    (imaDof := fun z => if z = n then some [(n : ℤ)] else none) (testRod_periodic n 1 1 1 1) sqrtFn_real one_pos hn 0 0 (by simp) (by simp)
  obtain ⟨ks, ms, hv⟩ := (testRod_periodic n 1 1 1 1).vibrating sqrtFn_real hn one_pos one_pos one_pos h1 h2
  obtain ⟨l, hl, -⟩ := C180_exists (D := 2) sqrtFn_real hv (rod_tied hw) hw.matrix rfl
  obtain ⟨C, hC, hle⟩ := C185_speed sqrtFn_real hv (testRod_physical n (h := 1) (E := 1) (A := 1) (ρ := 1) zero_le_one zero_le_one) (rod_tied hw) hl
  refine ⟨Kg, Mg, newNum, ks, ms, l, hv, hl, C, hC, fun k x y => ?_⟩
  have := ((hle k).1 ![y, 0] ![x, 0]).2
  simpa [Fin.sum_univ_two, Real.sqrt_sq_eq_abs] using this

end SolidsPy
