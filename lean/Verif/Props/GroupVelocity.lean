import Verif.Props.Branches
import Mathlib.Analysis.Calculus.Deriv.Slope
import Mathlib.Analysis.Calculus.Deriv.Star
import Mathlib.Analysis.SpecialFunctions.ExpDeriv

/-! # C182: the slope of a branch is the power that passes the border of the cell -/

set_option linter.unusedSectionVars false

namespace SolidsPy
open Filter Topology
open Spec Assem Bloch Matrix

section
variable {N : ℕ} {P Q : ℝ → Matrix (Fin N) (Fin N) ℂ} {P' Q' : Matrix (Fin N) (Fin N) ℂ} {l : ℝ → Fin N → ℝ} {q : ℝ → Fin N → Fin N → ℂ}

theorem Spec.Waves.stiff_part {P Q : Matrix (Fin N) (Fin N) ℂ} {l : Fin N → ℝ} {q : Fin N → Fin N → ℂ} (h : Waves P Q l q) (hP : P.IsHermitian)
    (hQ : Q.IsHermitian) (x : Fin N → ℂ) (k : Fin N) : star (q k) ⬝ᵥ P.mulVec x = l k * (star (q k) ⬝ᵥ Q.mulVec x) := by
  rw [Spec.Waves.swap hP, h.motion, dotProduct_smul, star_smul, ← Spec.Waves.swap hQ]
  simp

/-- The rate of change of a simple value of a Hermitian pair. -/
theorem waves_rate (hP : ∀ t, (P t).IsHermitian) (hQ : ∀ t, (Q t).IsHermitian) (h : ∀ t, Waves (P t) (Q t) (l t) (q t))
    {φ : Fin N → Fin N → ℂ} (h0 : Waves (P 0) (Q 0) (l 0) φ)
    (dP : ∀ i j, HasDerivAt (fun t => P t i j) (P' i j) 0) (dQ : ∀ i j, HasDerivAt (fun t => Q t i j) (Q' i j) 0) {k : Fin N}
    (hk : ∀ j, j ≠ k → l 0 j ≠ l 0 k) :
    HasDerivAt (fun t => l t k) (star (φ k) ⬝ᵥ (P' - (l 0 k : ℂ) • Q').mulVec (φ k)).re 0 := by
  have tP : Tendsto P (𝓝 0) (𝓝 (P 0)) := tendsto_pi_nhds.2 fun i => tendsto_pi_nhds.2 fun j => (dP i j).continuousAt
  have tQ : Tendsto Q (𝓝 0) (𝓝 (Q 0)) := tendsto_pi_nhds.2 fun i => tendsto_pi_nhds.2 fun j => (dQ i j).continuousAt
  have tl : Tendsto (fun t => l t k) (𝓝 0) (𝓝 (l 0 k)) :=
    Spec.Waves.tendsto tP tQ h0 (hQ 0) (Eventually.of_forall fun t => ⟨hQ t, _, h t⟩) k
  let F : Matrix (Fin N) (Fin N) ℂ → Fin N → Fin N → ℂ := fun A i j => star (φ i) ⬝ᵥ A.mulVec (φ j)
  have F_eq : ∀ A i j, F A i j = ∑ a, ∑ b, star (φ i a) * (A a b * φ j b) := fun A i j => by
    simp only [F, Matrix.mulVec, dotProduct, Finset.mul_sum, Pi.star_apply]
  let c : ℝ → Fin N → ℂ := fun t j => star (φ j) ⬝ᵥ (Q 0).mulVec (q t k)
  have hx : ∀ t, q t k = ∑ j, c t j • φ j := fun t => h0.expand _
  -- the difference of the pairs
  let E : ℝ → Matrix (Fin N) (Fin N) ℂ := fun t => (P t - P 0) - (l t k : ℂ) • (Q t - Q 0)
  have part : ∀ t i, star (φ i) ⬝ᵥ (E t).mulVec (q t k) = ∑ j, c t j * F (E t) i j := fun t i => by
    conv_lhs => rw [hx t]
    rw [Matrix.mulVec_sum, dotProduct_sum]
    exact Finset.sum_congr rfl fun j _ => by rw [Matrix.mulVec_smul, dotProduct_smul, smul_eq_mul]
  have key : ∀ t i, ((l t k : ℂ) - l 0 i) * c t i = ∑ j, c t j * F (E t) i j := fun t i => by
    rw [← part]
    have e1 := h0.stiff_part (hP 0) (hQ 0) (q t k) i
    have e2 : star (φ i) ⬝ᵥ (P t).mulVec (q t k) = l t k * (star (φ i) ⬝ᵥ (Q t).mulVec (q t k)) := by
      rw [(h t).motion, dotProduct_smul, smul_eq_mul]
    simp only [E, Matrix.sub_mulVec, Matrix.smul_mulVec, dotProduct_sub, dotProduct_smul, smul_eq_mul]
    rw [e2, e1]
    simp only [c]
    ring
  -- the difference of the masses
  let S : Matrix (Fin N) (Fin N) ℂ → ℝ := fun A => ∑ i, ∑ j, ‖F A i j‖
  have tS : Tendsto (fun t => S (Q t - Q 0)) (𝓝 0) (𝓝 0) := by
    have hS : Continuous S := by
      refine continuous_finsetSum _ fun i _ => continuous_finsetSum _ fun j _ => Continuous.norm ?_
      simp only [F_eq]
      fun_prop
    have S0 : S 0 = 0 := by simp [S, F]
    have h1 : Tendsto (fun t => Q t - Q 0) (𝓝 0) (𝓝 0) := by
      have := tQ.sub_const (Q 0)
      rwa [sub_self] at this
    have := (hS.tendsto 0).comp h1
    rwa [S0] at this
  have mass : ∀ᶠ t in 𝓝 0, (∑ j, ‖c t j‖ ^ 2 ≤ 2) ∧ 2 / 3 ≤ ∑ j, ‖c t j‖ ^ 2 := by
    filter_upwards [tS.eventually (gt_mem_nhds (by norm_num : (0 : ℝ) < 1 / 2))] with t ht
    have e0 : (star (q t k) ⬝ᵥ (Q 0).mulVec (q t k)).re = ∑ j, ‖c t j‖ ^ 2 := h0.form_mass (hQ 0) _
    have e1 : (star (q t k) ⬝ᵥ (Q t).mulVec (q t k)).re = 1 := by rw [(h t).normal, if_pos rfl, Complex.one_re]
    have e2 := h0.form_le_mass (hQ 0) (Q t - Q 0) (q t k)
    rw [Matrix.sub_mulVec, dotProduct_sub, Complex.sub_re, e0, e1] at e2
    have n0 : 0 ≤ ∑ j, ‖c t j‖ ^ 2 := Finset.sum_nonneg fun _ _ => sq_nonneg _
    have e3 : |1 - ∑ j, ‖c t j‖ ^ 2| ≤ 1 / 2 * ∑ j, ‖c t j‖ ^ 2 := e2.trans (mul_le_mul_of_nonneg_right ht.le n0)
    have := abs_le.1 e3
    constructor <;> linarith
  have bounded : ∀ j, ∀ᶠ t in 𝓝 0, ‖c t j‖ ≤ 2 := fun j => by
    filter_upwards [mass] with t ht
    have h1 : ‖c t j‖ ^ 2 ≤ ∑ j, ‖c t j‖ ^ 2 := Finset.single_le_sum (f := fun j => ‖c t j‖ ^ 2) (fun _ _ => sq_nonneg _) (Finset.mem_univ j)
    nlinarith [norm_nonneg (c t j), ht.1]
  have dl : Tendsto (fun t => (l t k : ℂ)) (𝓝 0) (𝓝 (l 0 k : ℂ)) := (Complex.continuous_ofReal.tendsto _).comp tl
  have tE : ∀ i j, Tendsto (fun t => F (E t) i j) (𝓝 0) (𝓝 0) := fun i j => by
    have : ∀ a b, Tendsto (fun t => E t a b) (𝓝 0) (𝓝 0) := fun a b => by
      have h1 : Tendsto (fun t => P t a b - P 0 a b) (𝓝 0) (𝓝 0) := by simpa using (dP a b).continuousAt.tendsto.sub_const (P 0 a b)
      have h2 : Tendsto (fun t => Q t a b - Q 0 a b) (𝓝 0) (𝓝 0) := by simpa using (dQ a b).continuousAt.tendsto.sub_const (Q 0 a b)
      simpa [E] using h1.sub (dl.mul h2)
    simp only [F_eq]
    have : Tendsto (fun t => ∑ a, ∑ b, star (φ i a) * (E t a b * φ j b)) (𝓝 0) (𝓝 (∑ a, ∑ b, star (φ i a) * (0 * φ j b))) :=
      tendsto_finsetSum _ fun a _ => tendsto_finsetSum _ fun b _ => ((this a b).mul_const _).const_mul _
    simpa using this
  have tsum : ∀ i, Tendsto (fun t => ∑ j, c t j * F (E t) i j) (𝓝 0) (𝓝 0) := fun i => by
    have : ∀ j, Tendsto (fun t => c t j * F (E t) i j) (𝓝 0) (𝓝 0) := fun j => by
      refine squeeze_zero_norm' (a := fun t => 2 * ‖F (E t) i j‖) ?_ (by simpa using (tE i j).norm.const_mul 2)
      filter_upwards [bounded j] with t ht
      rw [norm_mul]
      exact mul_le_mul_of_nonneg_right ht (norm_nonneg _)
    simpa using tendsto_finsetSum Finset.univ fun j _ => this j
  have tc : ∀ j, j ≠ k → Tendsto (fun t => c t j) (𝓝 0) (𝓝 0) := fun j hj => by
    have h1 : Tendsto (fun t => (l t k : ℂ) - l 0 j) (𝓝 0) (𝓝 ((l 0 k : ℂ) - l 0 j)) := dl.sub_const _
    have hne : (l 0 k : ℂ) - l 0 j ≠ 0 := sub_ne_zero.2 fun e => hk j hj (by exact_mod_cast e.symm)
    have h2 := (tsum j).div h1 hne
    rw [zero_div] at h2
    refine h2.congr' ?_
    filter_upwards [h1.eventually_ne hne] with t ht
    show (∑ i, c t i * F (E t) j i) / _ = _
    rw [← key, mul_div_cancel_left₀ _ ht]
  have ck : ∀ᶠ t in 𝓝 0, 1 / 2 ≤ ‖c t k‖ := by
    have t0 : Tendsto (fun t => ∑ j ∈ Finset.univ.erase k, ‖c t j‖ ^ 2) (𝓝 0) (𝓝 0) := by
      have := tendsto_finsetSum (Finset.univ.erase k) fun j hj => ((tc j (Finset.ne_of_mem_erase hj)).norm.pow 2)
      simpa using this
    filter_upwards [mass, t0.eventually (gt_mem_nhds (by norm_num : (0 : ℝ) < 1 / 6))] with t h1 h2
    have := Finset.add_sum_erase Finset.univ (fun j => ‖c t j‖ ^ 2) (Finset.mem_univ k)
    have h3 : 1 / 2 ≤ ‖c t k‖ ^ 2 := by linarith [h1.2]
    nlinarith [norm_nonneg (c t k)]
  have tr : ∀ j, Tendsto (fun t => c t j / c t k) (𝓝 0) (𝓝 (if j = k then 1 else 0)) := fun j => by
    by_cases hj : j = k
    · rw [if_pos hj, hj]
      refine tendsto_const_nhds.congr' ?_
      filter_upwards [ck] with t ht
      rw [div_self]
      intro hc
      rw [hc, norm_zero] at ht
      norm_num at ht
    · rw [if_neg hj]
      refine squeeze_zero_norm' (a := fun t => 2 * ‖c t j‖) ?_ (by simpa using (tc j hj).norm.const_mul 2)
      filter_upwards [ck] with t ht
      rw [norm_div, div_le_iff₀ (by linarith)]
      nlinarith [norm_nonneg (c t j)]
  -- slopes
  have tD : ∀ j, Tendsto (fun t : ℝ => (t : ℂ)⁻¹ * F (E t) k j) (𝓝[≠] 0) (𝓝 (F (P' - (l 0 k : ℂ) • Q') k j)) := fun j => by
    have sl : ∀ {A : ℝ → Matrix (Fin N) (Fin N) ℂ} {A' : Matrix (Fin N) (Fin N) ℂ}, (∀ i j, HasDerivAt (fun t => A t i j) (A' i j) 0) → ∀ a b,
        Tendsto (fun t : ℝ => (t : ℂ)⁻¹ * (A t a b - A 0 a b)) (𝓝[≠] 0) (𝓝 (A' a b)) := fun {A A'} hA a b => by
      have := hasDerivAt_iff_tendsto_slope.1 (hA a b)
      refine this.congr fun t => ?_
      rw [slope_def_module, sub_zero, Complex.real_smul, Complex.ofReal_inv]
    have e : ∀ a b, Tendsto (fun t : ℝ => (t : ℂ)⁻¹ * E t a b) (𝓝[≠] 0) (𝓝 ((P' - (l 0 k : ℂ) • Q') a b)) := fun a b => by
      have := (sl dP a b).sub ((dl.mono_left nhdsWithin_le_nhds).mul (sl dQ a b))
      refine this.congr fun t => ?_
      simp only [E, Matrix.sub_apply, Matrix.smul_apply, smul_eq_mul]
      ring
    have : Tendsto (fun t : ℝ => ∑ a, ∑ b, star (φ k a) * (((t : ℂ)⁻¹ * E t a b) * φ j b)) (𝓝[≠] 0)
        (𝓝 (∑ a, ∑ b, star (φ k a) * ((P' - (l 0 k : ℂ) • Q') a b * φ j b))) :=
      tendsto_finsetSum _ fun a _ => tendsto_finsetSum _ fun b _ => ((e a b).mul_const _).const_mul _
    rw [F_eq]
    refine this.congr fun t => ?_
    rw [F_eq, Finset.mul_sum]
    refine Finset.sum_congr rfl fun a _ => ?_
    rw [Finset.mul_sum]
    exact Finset.sum_congr rfl fun b _ => by ring
  have lim : Tendsto (fun t : ℝ => ∑ j, c t j / c t k * ((t : ℂ)⁻¹ * F (E t) k j)) (𝓝[≠] 0) (𝓝 (F (P' - (l 0 k : ℂ) • Q') k k)) := by
    have := tendsto_finsetSum Finset.univ fun j _ => ((tr j).mono_left nhdsWithin_le_nhds).mul (tD j)
    simpa using this
  rw [hasDerivAt_iff_tendsto_slope]
  refine ((Complex.continuous_re.tendsto _).comp lim).congr' ?_
  filter_upwards [ck.filter_mono nhdsWithin_le_nhds] with t ht
  have hc : c t k ≠ 0 := fun hc => by
    rw [hc, norm_zero] at ht
    norm_num at ht
  have e := key t k
  have e' : ∑ j, c t j / c t k * ((t : ℂ)⁻¹ * F (E t) k j) = ((t⁻¹ * (l t k - l 0 k) : ℝ) : ℂ) := by
    have : ∑ j, c t j / c t k * ((t : ℂ)⁻¹ * F (E t) k j) = (t : ℂ)⁻¹ * ((∑ j, c t j * F (E t) k j) / c t k) := by
      rw [Finset.sum_div, Finset.mul_sum]
      exact Finset.sum_congr rfl fun j _ => by ring
    rw [this, ← e, mul_div_cancel_right₀ _ hc]
    push_cast
    ring
  show (∑ j, c t j / c t k * ((t : ℂ)⁻¹ * F (E t) k j)).re = _
  rw [e', Complex.ofReal_re, slope_def_module, sub_zero, smul_eq_mul]

end

/-! ## The transformation along a line of wave vectors -/

section
variable {neq D : ℕ} {Kg Mg : Matrix (Fin neq) (Fin neq) ℝ} {nodesRef nodesIma dofsRef dofsIma : List ℤ} {refDof imaDof : ℤ → Option (List ℤ)}
  {newNum : List ℤ} {coords : List (List ℝ)} {l : (Fin D → ℝ) → Fin (neq - dofsRef.length) → ℝ} {κ e : Fin D → ℝ} {ψ : Fin neq → ℝ}

/-- `ψ` gives how far, in the direction `e`, the image of each degree of freedom is from its reference: zero for the degrees of freedom that
are not images, and for an image the product of `e` with the vector from the reference node to the image node. -/
def Spec.Offsets (e : Fin D → ℝ) (coords : List (List ℝ)) (nodesRef nodesIma dofsIma : List ℤ) (refDof imaDof : ℤ → Option (List ℤ))
    (ψ : Fin neq → ℝ) : Prop :=
  ∀ i : Fin neq, (((i : ℕ) : ℤ) ∉ dofsIma → ψ i = 0) ∧ (((i : ℕ) : ℤ) ∈ dofsIma → ∃ x ∈ links nodesIma nodesRef refDof imaDof,
    x.ima = ((i : ℕ) : ℤ) ∧ Shift (List.ofFn e) coords x.nodeIma x.nodeRef (ψ i))

theorem exists_offsets (ht : Tied neq nodesRef nodesIma dofsRef dofsIma refDof imaDof newNum) {T : Matrix (Fin neq) (Fin (neq - dofsRef.length)) ℂ}
    (hT : blochTransformMat (List.ofFn e) coords neq nodesRef nodesIma dofsRef dofsIma refDof imaDof newNum = .ok T) :
    ∃ ψ : Fin neq → ℝ, Offsets e coords nodesRef nodesIma dofsIma refDof imaDof ψ := by
  have : ∀ i : Fin neq, ∃ x : ℝ, (((i : ℕ) : ℤ) ∉ dofsIma → x = 0) ∧ (((i : ℕ) : ℤ) ∈ dofsIma → ∃ y ∈ links nodesIma nodesRef refDof imaDof,
      y.ima = ((i : ℕ) : ℤ) ∧ Shift (List.ofFn e) coords y.nodeIma y.nodeRef x) := fun i => by
    by_cases hi : ((i : ℕ) : ℤ) ∈ dofsIma
    · obtain ⟨y, hy, hyi⟩ := ht.pairing.all i i.2 hi
      obtain ⟨d, r, φ, f1, f2, f3, -⟩ := (bloch_rows hT ht.pairing).2 y hy
      exact ⟨φ, fun h => absurd hi h, fun _ => ⟨y, hy, hyi, f3⟩⟩
    · exact ⟨0, fun _ => rfl, fun h => absurd h hi⟩
  choose ψ hψ using this
  exact ⟨ψ, hψ⟩

theorem bloch_rate (ht : Tied neq nodesRef nodesIma dofsRef dofsIma refDof imaDof newNum)
    {T : ℝ → Matrix (Fin neq) (Fin (neq - dofsRef.length)) ℂ}
    (hT : ∀ t, blochTransformMat (List.ofFn fun i => κ i + t * e i) coords neq nodesRef nodesIma dofsRef dofsIma refDof imaDof newNum = .ok (T t))
    (hψ : Offsets e coords nodesRef nodesIma dofsIma refDof imaDof ψ) (i : Fin neq) (j : Fin (neq - dofsRef.length)) :
    HasDerivAt (fun t => T t i j) (Complex.I * ψ i * T 0 i j) 0 := by
  by_cases hi : ((i : ℕ) : ℤ) ∈ dofsIma
  · obtain ⟨l, hl, hli, hs⟩ := (hψ i).2 hi
    obtain ⟨d, r, φ, f1, f2, f3, c, f4, f5⟩ := (bloch_rows (hT 0) ht.pairing).2 l hl
    obtain ⟨ki, kr, xi, xr, g1, g2, g3, g4, g5⟩ := shift_ofFn hs
    have : ∀ t, T t i j = if c = j then
        Complex.exp (Complex.I * ((∑ s : Fin D, κ s * (xi.getD s 0 - xr.getD s 0) + t * ψ i : ℝ) : ℂ)) else 0 := by
      intro t
      obtain ⟨d', r', φ', f1', f2', f3', c', f4', f5'⟩ := (bloch_rows (hT t) ht.pairing).2 l hl
      obtain ⟨ki', kr', xi', xr', g1', g2', g3', g4', g5'⟩ := shift_ofFn f3'
      obtain rfl : i = d' := Fin.ext (by exact_mod_cast hli.symm.trans f1')
      obtain rfl : r = r' := Fin.ext (by exact_mod_cast f2.symm.trans f2')
      obtain rfl := resolves_unique g1 g1'
      obtain rfl := resolves_unique g2 g2'
      rw [g3, Option.some.injEq] at g3'
      rw [g4, Option.some.injEq] at g4'
      rw [f4, Option.some.injEq] at f4'
      obtain rfl : c = c' := Fin.ext (by exact_mod_cast f4')
      subst g3' g4'
      rw [f5', g5', g5, Finset.mul_sum, ← Finset.sum_add_distrib]
      simp only [add_mul, mul_assoc]
    rw [funext this, this 0]
    split
    · have h1 : HasDerivAt (fun t : ℝ => Complex.I * ((∑ s : Fin D, κ s * (xi.getD s 0 - xr.getD s 0) + t * ψ i : ℝ) : ℂ)) (Complex.I * ψ i) 0 := by
        have h2 : HasDerivAt (fun t : ℝ => ∑ s : Fin D, κ s * (xi.getD s 0 - xr.getD s 0) + t * ψ i) (ψ i) 0 := by
          simpa using ((hasDerivAt_id (0 : ℝ)).mul_const (ψ i)).const_add (∑ s : Fin D, κ s * (xi.getD s 0 - xr.getD s 0))
        exact h2.ofReal_comp.const_mul Complex.I
      have := h1.cexp
      rwa [mul_comm] at this
    · rw [mul_zero]
      exact hasDerivAt_const _ _
  · have : (fun t => T t i j) = fun _ => T 0 i j := by
      funext t
      obtain ⟨c, h1, h2⟩ := (bloch_rows (hT t) ht.pairing).1 i hi
      obtain ⟨c', h1', h2'⟩ := (bloch_rows (hT 0) ht.pairing).1 i hi
      rw [h1, Option.some.injEq] at h1'
      obtain rfl : c = c' := Fin.ext (by exact_mod_cast h1')
      rw [h2, h2']
    rw [this, (hψ i).1 hi]
    simpa using hasDerivAt_const (0 : ℝ) (T 0 i j)

theorem product_rate {m n : ℕ} {T : ℝ → Matrix (Fin m) (Fin n) ℂ} {T' : Matrix (Fin m) (Fin n) ℂ} (A : Matrix (Fin m) (Fin m) ℂ)
    (h : ∀ i j, HasDerivAt (fun t => T t i j) (T' i j) 0) (i j : Fin n) :
    HasDerivAt (fun t => ((T t).conjTranspose * A * T t) i j) ((T'.conjTranspose * A * T 0 + (T 0).conjTranspose * A * T') i j) 0 := by
  simp only [Matrix.mul_apply, Matrix.conjTranspose_apply, Matrix.add_apply]
  rw [← Finset.sum_add_distrib]
  refine HasDerivAt.fun_sum fun a _ => ?_
  exact (HasDerivAt.fun_sum fun b _ => ((h b i).star.mul_const (A b a))).mul (h a j)

theorem form_product {m n : ℕ} (S T : Matrix (Fin m) (Fin n) ℂ) (A : Matrix (Fin m) (Fin m) ℂ) (u v : Fin n → ℂ) :
    star u ⬝ᵥ (S.conjTranspose * A * T).mulVec v = star (S.mulVec u) ⬝ᵥ A.mulVec (T.mulVec v) := by
  rw [← Matrix.mulVec_mulVec, ← Matrix.mulVec_mulVec, Matrix.dotProduct_mulVec, Matrix.star_mulVec]

theorem branches_slope (hK : Kg.IsSymm) (hM : Mg.IsSymm) (ht : Tied neq nodesRef nodesIma dofsRef dofsIma refDof imaDof newNum)
    (hb : Branches D Kg Mg coords nodesRef nodesIma dofsRef dofsIma refDof imaDof newNum l) {k : Fin (neq - dofsRef.length)}
    (hk : ∀ j, j ≠ k → l κ j ≠ l κ k) {T : Matrix (Fin neq) (Fin (neq - dofsRef.length)) ℂ} {q : Fin (neq - dofsRef.length) → Fin (neq - dofsRef.length) → ℂ}
    (hT : blochTransformMat (List.ofFn κ) coords neq nodesRef nodesIma dofsRef dofsIma refDof imaDof newNum = .ok T)
    (hq : Waves (T.conjTranspose * Kg.map Complex.ofReal * T) (T.conjTranspose * Mg.map Complex.ofReal * T) (l κ) q)
    (hψ : Offsets e coords nodesRef nodesIma dofsIma refDof imaDof ψ) {x : Fin neq → ℂ} (hx : x = T.mulVec (q k)) :
    HasDerivAt (fun t : ℝ => l (fun i => κ i + t * e i) k) (2 * ∑ i, ψ i * (star (x i) *
      ((Kg.map Complex.ofReal).mulVec x i - (l κ k : ℂ) * (Mg.map Complex.ofReal).mulVec x i)).im) 0 := by
  choose T' q' h1 h2 using hb
  have k0 : (fun i => κ i + 0 * e i) = κ := by funext i; ring
  have T0 : T' κ = T := Except.ok.inj ((h1 κ).symm.trans hT)
  have dT := fun i j => bloch_rate (T := fun t => T' fun i => κ i + t * e i) ht (fun t => h1 _) hψ i j
  simp only [k0, T0] at dT
  have rate := waves_rate (P := fun t => (T' fun i => κ i + t * e i).conjTranspose * Kg.map Complex.ofReal * T' fun i => κ i + t * e i)
    (Q := fun t => (T' fun i => κ i + t * e i).conjTranspose * Mg.map Complex.ofReal * T' fun i => κ i + t * e i)
    (l := fun t => l fun i => κ i + t * e i) (q := fun t => q' fun i => κ i + t * e i) (φ := q) (k := k)
    (fun t => Matrix.isHermitian_conjTranspose_mul_mul _ (map_hermitian hK)) (fun t => Matrix.isHermitian_conjTranspose_mul_mul _ (map_hermitian hM))
    (fun t => h2 _) (by simp only [k0, T0]; exact hq)
    (product_rate (T' := Matrix.of fun i j => Complex.I * ψ i * T i j) _ dT)
    (product_rate (T' := Matrix.of fun i j => Complex.I * ψ i * T i j) _ dT) (by simp only [k0]; exact hk)
  simp only [k0, T0] at rate
  convert rate using 1
  have hy : (Matrix.of fun i j => Complex.I * ψ i * T i j).mulVec (q k) = fun i => Complex.I * ψ i * x i := by
    funext i
    rw [hx]
    simp only [Matrix.mulVec, dotProduct, Matrix.of_apply, Finset.mul_sum, mul_assoc]
  set y : Fin neq → ℂ := fun i => Complex.I * ψ i * x i with hydef
  have re2 : ∀ {A : Matrix (Fin neq) (Fin neq) ℝ}, A.IsSymm → (star y ⬝ᵥ (A.map Complex.ofReal).mulVec x + star x ⬝ᵥ (A.map Complex.ofReal).mulVec y).re =
      2 * ∑ i, ψ i * (star (x i) * (A.map Complex.ofReal).mulVec x i).im := fun {A} hA => by
    rw [Spec.Waves.swap (map_hermitian hA) x y, Complex.add_re]
    have : (star (star y ⬝ᵥ (A.map Complex.ofReal).mulVec x)).re = (star y ⬝ᵥ (A.map Complex.ofReal).mulVec x).re := Complex.conj_re _
    rw [this, ← two_mul]
    congr 1
    rw [dotProduct, Complex.re_sum]
    refine Finset.sum_congr rfl fun i _ => ?_
    simp only [hydef, Pi.star_apply, Complex.star_def, map_mul, Complex.conj_I, Complex.conj_ofReal]
    simp only [Complex.mul_re, Complex.mul_im, Complex.neg_re, Complex.neg_im, Complex.I_re, Complex.I_im, Complex.ofReal_re, Complex.ofReal_im]
    ring
  rw [Matrix.sub_mulVec, Matrix.smul_mulVec, dotProduct_sub, dotProduct_smul, Matrix.add_mulVec, Matrix.add_mulVec, dotProduct_add, dotProduct_add,
    form_product, form_product, form_product, form_product, hy, ← hx, smul_eq_mul, Complex.sub_re, Complex.re_ofReal_mul, re2 hK, re2 hM]
  rw [show l κ k * (2 * ∑ i, ψ i * (star (x i) * (Mg.map Complex.ofReal).mulVec x i).im) =
    2 * ∑ i, ψ i * (l κ k * (star (x i) * (Mg.map Complex.ofReal).mulVec x i).im) by
      rw [mul_left_comm, Finset.mul_sum]
      congr 1
      exact Finset.sum_congr rfl fun i _ => by ring]
  rw [← mul_sub, ← Finset.sum_sub_distrib]
  congr 1
  refine Finset.sum_congr rfl fun i _ => ?_
  rw [mul_sub, Complex.sub_im, mul_left_comm (star (x i)), Complex.im_ofReal_mul, mul_sub]

theorem shift_double {i r : ℤ} {g : ℝ} (h : Shift (List.ofFn (κ + κ)) coords i r g) : Shift (List.ofFn κ) coords i r (g / 2) := by
  obtain ⟨ki, kr, xi, xr, h1, h2, h3, h4, h5, h6⟩ := h
  refine ⟨ki, kr, xi, xr, h1, h2, h3, h4, by simpa using h5, ?_⟩
  rw [h6, Fin.sum_univ_eq_sum_range (fun t => (List.ofFn (κ + κ)).getD t 0 * (xi.getD t 0 - xr.getD t 0)), List.length_ofFn,
    Fin.sum_univ_eq_sum_range (fun t => (List.ofFn κ).getD t 0 * (xi.getD t 0 - xr.getD t 0)), List.length_ofFn, Finset.sum_div]
  refine Finset.sum_congr rfl fun t ht => ?_
  have := Finset.mem_range.1 ht
  simp [this]
  ring

theorem branches_flat (hK : Kg.IsSymm) (hM : Mg.IsSymm) (ht : Tied neq nodesRef nodesIma dofsRef dofsIma refDof imaDof newNum)
    (hb : Branches D Kg Mg coords nodesRef nodesIma dofsRef dofsIma refDof imaDof newNum l) {k : Fin (neq - dofsRef.length)}
    (hk : ∀ j, j ≠ k → l κ j ≠ l κ k)
    (hG : ∀ p ∈ nodesIma.zip nodesRef, ∀ g, Shift (List.ofFn κ) coords p.1 p.2 g → ∃ n : ℤ, g = n * Real.pi) (e : Fin D → ℝ) :
    HasDerivAt (fun t : ℝ => l (fun i => κ i + t * e i) k) 0 0 := by
  obtain ⟨T, q, hT, hq⟩ := hb κ
  obtain ⟨Te, -, hTe, -⟩ := hb e
  obtain ⟨ψ, hψ⟩ := exists_offsets ht hTe
  obtain ⟨s, h⟩ : ∃ s, HasDerivAt (fun t : ℝ => l (fun i => κ i + t * e i) k) s 0 := ⟨_, branches_slope hK hM ht hb hk hT hq hψ rfl⟩
  have sym : ∀ t : ℝ, l (fun i => κ i + -t * e i) k = l (fun i => κ i + t * e i) k := fun t => by
    have h1 := branches_periodic hM hb (G := κ + κ) (fun p hp g hg => by
      obtain ⟨n, hn⟩ := hG p hp _ (shift_double hg)
      exact ⟨n, by linarith⟩) (-fun i => κ i + t * e i)
    rw [branches_even hM hb] at h1
    rw [← h1]
    congr 1
    funext i
    simp only [Pi.add_apply, Pi.neg_apply]
    ring
  have h' : HasDerivAt (fun t : ℝ => l (fun i => κ i + -t * e i) k) (-s) 0 := by
    have h0 : HasDerivAt (fun t : ℝ => l (fun i => κ i + t * e i) k) s (-0) := by rwa [neg_zero]
    have := h0.scomp (0 : ℝ) (hasDerivAt_neg (0 : ℝ))
    simpa [Function.comp_def] using this
  rw [funext sym] at h'
  have := h.unique h'
  have s0 : s = 0 := by linarith
  rwa [s0] at h

end

section
variable {sq : ℝ → ℝ} {d : Gui.Data ℝ} {neq D : ℕ} {Kg Mg : Matrix (Fin neq) (Fin neq) ℝ} {ks ms : List (Member ℝ)}
  {nodesRef nodesIma dofsRef dofsIma : List ℤ} {refDof imaDof : ℤ → Option (List ℤ)} {newNum : List ℤ} {coords : List (List ℝ)}
  {l : (Fin D → ℝ) → Fin (neq - dofsRef.length) → ℝ} {κ e : Fin D → ℝ} {ψ : Fin neq → ℝ} {k : Fin (neq - dofsRef.length)}
  {T : Matrix (Fin neq) (Fin (neq - dofsRef.length)) ℂ} {q : Fin (neq - dofsRef.length) → Fin (neq - dofsRef.length) → ℂ}

/-- C182.  Plane cells: where a branch does not meet another, its slope in the direction `e` is twice the sum, over the images, of their
distance from the reference along `e` times the work, out of phase, of the force that acts on the image. -/
theorem C182_slope (hs : SqrtFn sq) (h : Vibrating sq d ks ms Kg Mg) (ht : Tied neq nodesRef nodesIma dofsRef dofsIma refDof imaDof newNum)
    (hb : Branches D Kg Mg coords nodesRef nodesIma dofsRef dofsIma refDof imaDof newNum l) (hk : ∀ j, j ≠ k → l κ j ≠ l κ k)
    (hT : blochTransformMat (List.ofFn κ) coords neq nodesRef nodesIma dofsRef dofsIma refDof imaDof newNum = .ok T)
    (hq : Waves (T.conjTranspose * Kg.map Complex.ofReal * T) (T.conjTranspose * Mg.map Complex.ofReal * T) (l κ) q)
    (hψ : Offsets e coords nodesRef nodesIma dofsIma refDof imaDof ψ) {x : Fin neq → ℂ} (hx : x = T.mulVec (q k)) :
    HasDerivAt (fun t : ℝ => l (fun i => κ i + t * e i) k) (2 * ∑ i, ψ i * (star (x i) *
      ((Kg.map Complex.ofReal).mulVec x i - (l κ k : ℂ) * (Mg.map Complex.ofReal).mulVec x i)).im) 0 :=
  branches_slope (h.stiff hs) (h.mass hs).1 ht hb hk hT hq hψ hx

/-- C182.  Plane cells: the distances of the images exist for every direction, and they vanish away from the images. -/
theorem C182_offsets (ht : Tied neq nodesRef nodesIma dofsRef dofsIma refDof imaDof newNum)
    (hb : Branches D Kg Mg coords nodesRef nodesIma dofsRef dofsIma refDof imaDof newNum l) (e : Fin D → ℝ) :
    ∃ ψ : Fin neq → ℝ, Offsets e coords nodesRef nodesIma dofsIma refDof imaDof ψ := by
  obtain ⟨T, -, hT, -⟩ := hb e
  exact exists_offsets ht hT

/-- C182.  Plane cells: at the wave vectors that are half of one of the reciprocal lattice, zero among them, a branch that does not meet
another is flat in all directions. -/
theorem C182_flat (hs : SqrtFn sq) (h : Vibrating sq d ks ms Kg Mg) (ht : Tied neq nodesRef nodesIma dofsRef dofsIma refDof imaDof newNum)
    (hb : Branches D Kg Mg coords nodesRef nodesIma dofsRef dofsIma refDof imaDof newNum l) (hk : ∀ j, j ≠ k → l κ j ≠ l κ k)
    (hG : ∀ p ∈ nodesIma.zip nodesRef, ∀ g, Shift (List.ofFn κ) coords p.1 p.2 g → ∃ n : ℤ, g = n * Real.pi) (e : Fin D → ℝ) :
    HasDerivAt (fun t : ℝ => l (fun i => κ i + t * e i) k) 0 0 :=
  branches_flat (h.stiff hs) (h.mass hs).1 ht hb hk hG e

end

section
variable {sq : ℝ → ℝ} {cons mats nodes : Table ℝ} {elements : List (List ℤ)} {neq D : ℕ} {Kg Mg : Matrix (Fin neq) (Fin neq) ℝ}
  {ks ms : List (Member ℝ)} {nodesRef nodesIma dofsRef dofsIma : List ℤ}
  {refDof imaDof : ℤ → Option (List ℤ)} {newNum : List ℤ} {coords : List (List ℝ)} {l : (Fin D → ℝ) → Fin (neq - dofsRef.length) → ℝ}
  {κ e : Fin D → ℝ} {ψ : Fin neq → ℝ} {k : Fin (neq - dofsRef.length)}
  {T : Matrix (Fin neq) (Fin (neq - dofsRef.length)) ℂ} {q : Fin (neq - dofsRef.length) → Fin (neq - dofsRef.length) → ℂ}

/-- C182.  Cells made of beams: the slope of a branch. -/
theorem C182_frame_slope (hs : SqrtFn sq) (h : BeamModel sq cons mats nodes elements ks ms Kg Mg)
    (ht : Tied neq nodesRef nodesIma dofsRef dofsIma refDof imaDof newNum)
    (hb : Branches D Kg Mg coords nodesRef nodesIma dofsRef dofsIma refDof imaDof newNum l) (hk : ∀ j, j ≠ k → l κ j ≠ l κ k)
    (hT : blochTransformMat (List.ofFn κ) coords neq nodesRef nodesIma dofsRef dofsIma refDof imaDof newNum = .ok T)
    (hq : Waves (T.conjTranspose * Kg.map Complex.ofReal * T) (T.conjTranspose * Mg.map Complex.ofReal * T) (l κ) q)
    (hψ : Offsets e coords nodesRef nodesIma dofsIma refDof imaDof ψ) {x : Fin neq → ℂ} (hx : x = T.mulVec (q k)) :
    HasDerivAt (fun t : ℝ => l (fun i => κ i + t * e i) k) (2 * ∑ i, ψ i * (star (x i) *
      ((Kg.map Complex.ofReal).mulVec x i - (l κ k : ℂ) * (Mg.map Complex.ofReal).mulVec x i)).im) 0 :=
  branches_slope (h.symm hs).1 (h.symm hs).2 ht hb hk hT hq hψ hx

/-- C182.  Cells made of beams: flat branches. -/
theorem C182_frame_flat (hs : SqrtFn sq) (h : BeamModel sq cons mats nodes elements ks ms Kg Mg)
    (ht : Tied neq nodesRef nodesIma dofsRef dofsIma refDof imaDof newNum)
    (hb : Branches D Kg Mg coords nodesRef nodesIma dofsRef dofsIma refDof imaDof newNum l) (hk : ∀ j, j ≠ k → l κ j ≠ l κ k)
    (hG : ∀ p ∈ nodesIma.zip nodesRef, ∀ g, Shift (List.ofFn κ) coords p.1 p.2 g → ∃ n : ℤ, g = n * Real.pi) (e : Fin D → ℝ) :
    HasDerivAt (fun t : ℝ => l (fun i => κ i + t * e i) k) 0 0 :=
  branches_flat (h.symm hs).1 (h.symm hs).2 ht hb hk hG e

end

/-- Case for C182: a rod of two bars.  Its two branches meet only where `cos κ` is zero; elsewhere they have slopes, which vanish at the
wave vector zero. -/
example : ∃ (Kg Mg : Matrix (Fin (2 + 1)) (Fin (2 + 1)) ℝ) (newNum : List ℤ) (ks ms : List (Member ℝ))
    (l : (Fin 2 → ℝ) → Fin (2 + 1 - [(0 : ℤ)].length) → ℝ), Vibrating Real.sqrt (testRod 2 1 1 1 1) ks ms Kg Mg ∧
    Branches 2 Kg Mg ((testRod 2 1 1 1 1).nodes.map (List.drop 1)) [0] [((2 : ℕ) : ℤ)] [0] [((2 : ℕ) : ℤ)] (fun z => if z = 0 then some [0] else none)
      (fun z => if z = (2 : ℕ) then some [((2 : ℕ) : ℤ)] else none) newNum l ∧
    (∀ κ : Fin 2 → ℝ, Real.cos (κ 0) ≠ 0 → ∀ (e : Fin 2 → ℝ) (k : Fin (2 + 1 - [(0 : ℤ)].length)), (∀ j, j ≠ k → l κ j ≠ l κ k) ∧
      ∃ s, HasDerivAt (fun t : ℝ => l (fun i => κ i + t * e i) k) s 0) ∧
    ∀ (e : Fin 2 → ℝ) k, HasDerivAt (fun t : ℝ => l (fun i => (0 : Fin 2 → ℝ) i + t * e i) k) 0 0 := by
  obtain ⟨op, bc, Kg, Mg, newNum, T, h1, h2, hw⟩ := C144_returns (refDof := fun z => if z = 0 then some [0] else none)
    (imaDof := fun z => if z = (2 : ℕ) then some [((2 : ℕ) : ℤ)] else none) (testRod_periodic 2 1 1 1 1) sqrtFn_real one_pos two_pos 0 0 (by simp) (by simp)
  obtain ⟨ks, ms, hv⟩ := (testRod_periodic 2 1 1 1 1).vibrating sqrtFn_real two_pos one_pos one_pos one_pos h1 h2
  obtain ⟨l, hl, -⟩ := C180_exists (D := 2) sqrtFn_real hv (rod_tied hw) hw.matrix rfl
  have simple : ∀ κ : Fin 2 → ℝ, Real.cos (κ 0) ≠ 0 → ∀ k j, j ≠ k → l κ j ≠ l κ k := fun κ hκ k j hjk he => by
    obtain ⟨T', q', hT', hq'⟩ := hl κ
    have hw' : RodWave (testRod 2 1 1 1 1) 2 (κ 0) (κ 1) (fun z => if z = 0 then some [0] else none)
        (fun z => if z = (2 : ℕ) then some [((2 : ℕ) : ℤ)] else none) newNum T' :=
      ⟨hw.cells, hw.refs, hw.imas, hw.numbers, by rw [← hT']; simp [List.ofFn_succ]⟩
    have herm : ∀ {A : Matrix (Fin (2 + 1)) (Fin (2 + 1)) ℝ}, A.IsSymm → (T'.conjTranspose * A.map Complex.ofReal * T').IsHermitian := fun hA =>
      Matrix.isHermitian_conjTranspose_mul_mul _ (map_hermitian hA)
    have all : ∀ i, l κ i = l κ k := fun i => by
      have : i = k ∨ i = j := by
        have a := i.2; have b := j.2; have c := k.2
        have e1 : (j : ℕ) ≠ k := fun h => hjk (Fin.ext h)
        simp only [List.length_singleton] at a b c
        rcases (by omega : (i : ℕ) = k ∨ (i : ℕ) = j) with h | h
        · exact .inl (Fin.ext h)
        · exact .inr (Fin.ext h)
      rcases this with rfl | rfl
      · rfl
      · exact he
    have val : ∀ m < 2, waveFreq 1 1 1 (rodAngle 2 1 (κ 0) m) = l κ k := fun m hm => by
      obtain ⟨i, hi⟩ := (hq'.eigen_iff (herm (hv.stiff sqrtFn_real)) (herm (hv.mass sqrtFn_real).1) _).1
        ((C144_frequencies (testRod_periodic 2 1 1 1 1) sqrtFn_real one_pos one_pos one_pos h1 h2 hw' _).2 ⟨m, hm, rfl⟩)
      rw [← all i]
      exact_mod_cast hi
    have e0 := val 0 (by norm_num)
    have e1 := val 1 (by norm_num)
    rw [← e1] at e0
    have r0 : rodAngle 2 1 (κ 0) 0 = κ 0 := by simp [rodAngle]
    have r1 : rodAngle 2 1 (κ 0) 1 = κ 0 + Real.pi := by simp [rodAngle]
    rw [r0, r1, waveFreq, waveFreq, Real.cos_add_pi] at e0
    have b1 := Real.neg_one_le_cos (κ 0)
    have b2 := Real.cos_le_one (κ 0)
    have p1 : 2 + Real.cos (κ 0) ≠ 0 := by linarith
    have p2 : 2 + -Real.cos (κ 0) ≠ 0 := by linarith
    field_simp at e0
    apply hκ
    linarith
  refine ⟨Kg, Mg, newNum, ks, ms, l, hv, hl, fun κ hκ e k => ⟨simple κ hκ k, ?_⟩, fun e k => ?_⟩
  · obtain ⟨T', q', hT', hq'⟩ := hl κ
    obtain ⟨ψ, hψ⟩ := C182_offsets (rod_tied hw) hl e
    exact ⟨_, C182_slope sqrtFn_real hv (rod_tied hw) hl (simple κ hκ k) hT' hq' hψ rfl⟩
  · refine C182_flat sqrtFn_real hv (rod_tied hw) hl (simple 0 (by simp) k) (fun p hp g hg => ⟨0, ?_⟩) e
    obtain ⟨ki, kr, xi, xr, -, -, -, -, rfl⟩ := shift_ofFn hg
    simp

end SolidsPy
