import Verif.Props.Bands
import Mathlib.Topology.Order.IntermediateValue
import Mathlib.Topology.Instances.Matrix
import Mathlib.Analysis.SpecialFunctions.Exp

/-! # C180: the branches of the dispersion diagram are continuous, even and periodic functions of the wave vector -/

set_option linter.unusedSectionVars false

namespace SolidsPy
open Filter Topology
open Spec Assem Bloch Matrix

/-! ## Hermitian pairs -/

section
variable {N : ℕ} {P Q P' Q' : Matrix (Fin N) (Fin N) ℂ} {w w' : Fin N → ℝ} {φ φ' : Fin N → Fin N → ℂ}

namespace Spec.Waves

theorem unique (h : Waves P Q w φ) (hQ : Q.IsHermitian) (h' : Waves P Q w' φ') : w = w' :=
  funext fun k => le_antisymm (h'.compare hQ h hQ LinearMap.id (fun _ hv => hv) (fun _ => rfl) (fun _ => rfl) k k rfl)
    (h.compare hQ h' hQ LinearMap.id (fun _ hv => hv) (fun _ => rfl) (fun _ => rfl) k k rfl)

theorem conj (h : Waves P Q w φ) : Waves (P.map (starRingEnd ℂ)) (Q.map (starRingEnd ℂ)) w (fun k => star (φ k)) where
  order := h.order
  motion k := by
    have e : ∀ A : Matrix (Fin N) (Fin N) ℂ, (A.map (starRingEnd ℂ)).mulVec (star (φ k)) = star (A.mulVec (φ k)) := fun A => by
      funext i
      simp [Matrix.mulVec, dotProduct]
    rw [e, e, h.motion]
    funext i
    simp
  normal k j := by
    have := congrArg star (h.normal k j)
    have e : star (star (φ k)) ⬝ᵥ (Q.map (starRingEnd ℂ)).mulVec (star (φ j)) = star (star (φ k) ⬝ᵥ Q.mulVec (φ j)) := by
      simp [Matrix.mulVec, dotProduct]
    rw [e, this]
    split <;> simp

theorem form_le_mass (h : Waves P Q w φ) (hQ : Q.IsHermitian) (A : Matrix (Fin N) (Fin N) ℂ) (x : Fin N → ℂ) :
    |(star x ⬝ᵥ A.mulVec x).re| ≤ (∑ k, ∑ l, ‖star (φ k) ⬝ᵥ A.mulVec (φ l)‖) * (star x ⬝ᵥ Q.mulVec x).re := by
  set y : Fin N → ℂ := fun k => star (φ k) ⬝ᵥ Q.mulVec x with hy
  have hq : (star x ⬝ᵥ Q.mulVec x).re = ∑ k, ‖y k‖ ^ 2 := h.form_mass hQ x
  have hx : x = ∑ k, y k • φ k := h.expand x
  have e : star x ⬝ᵥ A.mulVec x = ∑ k, ∑ l, star (y k) * y l * (star (φ k) ⬝ᵥ A.mulVec (φ l)) := by
    conv_lhs => rw [hx]
    rw [Matrix.mulVec_sum, star_sum, sum_dotProduct]
    refine Finset.sum_congr rfl fun k _ => ?_
    rw [dotProduct_sum]
    refine Finset.sum_congr rfl fun l _ => ?_
    rw [Matrix.mulVec_smul, star_smul, smul_dotProduct, dotProduct_smul, smul_eq_mul, smul_eq_mul]
    ring
  have hle : ∀ k, ‖y k‖ ^ 2 ≤ ∑ k, ‖y k‖ ^ 2 := fun k =>
    Finset.single_le_sum (f := fun k => ‖y k‖ ^ 2) (fun _ _ => sq_nonneg _) (Finset.mem_univ k)
  refine (Complex.abs_re_le_norm _).trans ?_
  rw [e, hq, Finset.sum_mul]
  refine (norm_sum_le _ _).trans (Finset.sum_le_sum fun k _ => ?_)
  rw [Finset.sum_mul]
  refine (norm_sum_le _ _).trans (Finset.sum_le_sum fun l _ => ?_)
  rw [norm_mul, norm_mul, norm_star, mul_comm]
  refine mul_le_mul_of_nonneg_left ?_ (norm_nonneg _)
  have h1 := hle k
  have h2 := hle l
  nlinarith [sq_nonneg (‖y k‖ - ‖y l‖)]

theorem mass_nonneg (h : Waves P Q w φ) (hQ : Q.IsHermitian) (x : Fin N → ℂ) : 0 ≤ (star x ⬝ᵥ Q.mulVec x).re := by
  rw [h.form_mass hQ]
  exact Finset.sum_nonneg fun _ _ => sq_nonneg _

theorem close (h : Waves P Q w φ) (hQ : Q.IsHermitian) (h' : Waves P' Q' w' φ') (hQ' : Q'.IsHermitian) {ε : ℝ} (h0 : 0 ≤ ε) (h1 : ε ≤ 1 / 2)
    (hK : ∀ x, |(star x ⬝ᵥ P'.mulVec x).re - (star x ⬝ᵥ P.mulVec x).re| ≤ ε * (star x ⬝ᵥ Q.mulVec x).re)
    (hm : ∀ x, |(star x ⬝ᵥ Q'.mulVec x).re - (star x ⬝ᵥ Q.mulVec x).re| ≤ ε * (star x ⬝ᵥ Q.mulVec x).re) (k : Fin N) :
    |w' k - w k| ≤ 2 * ε * (1 + |w k|) := by
  have up : w' k ≤ w k + 2 * ε * (1 + |w k|) := by
    obtain ⟨u, hu, hb⟩ := (h.minmax hQ k _).1 le_rfl
    refine (h'.minmax hQ' k _).2 ⟨u, hu, fun c => ?_⟩
    have b := hb c
    have q := h.mass_nonneg hQ (∑ a, c a • u a)
    have a1 := abs_le.1 (hK (∑ a, c a • u a))
    have a2 := abs_le.1 (hm (∑ a, c a • u a))
    generalize (star (∑ a, c a • u a) ⬝ᵥ P.mulVec (∑ a, c a • u a)).re = A at *
    generalize (star (∑ a, c a • u a) ⬝ᵥ Q.mulVec (∑ a, c a • u a)).re = q0 at *
    generalize (star (∑ a, c a • u a) ⬝ᵥ P'.mulVec (∑ a, c a • u a)).re = A' at *
    generalize (star (∑ a, c a • u a) ⬝ᵥ Q'.mulVec (∑ a, c a • u a)).re = q' at *
    have half : q0 / 2 ≤ q' := by nlinarith
    have g1 : w k * q0 - |w k| * (ε * q0) ≤ w k * q' := by
      rcases le_total 0 (w k) with hw | hw
      · rw [abs_of_nonneg hw]
        nlinarith
      · rw [abs_of_nonpos hw]
        nlinarith
    have g2 : 2 * ε * (1 + |w k|) * (q0 / 2) ≤ 2 * ε * (1 + |w k|) * q' :=
      mul_le_mul_of_nonneg_left half (by positivity)
    have : (w k + 2 * ε * (1 + |w k|)) * q' = w k * q' + 2 * ε * (1 + |w k|) * q' := by ring
    rw [this]
    nlinarith
  have down : w k ≤ w' k + ε * (1 + |w' k|) := by
    obtain ⟨u, hu, hb⟩ := (h'.minmax hQ' k _).1 le_rfl
    refine (h.minmax hQ k _).2 ⟨u, hu, fun c => ?_⟩
    have b := hb c
    have q := h.mass_nonneg hQ (∑ a, c a • u a)
    have a1 := abs_le.1 (hK (∑ a, c a • u a))
    have a2 := abs_le.1 (hm (∑ a, c a • u a))
    generalize (star (∑ a, c a • u a) ⬝ᵥ P.mulVec (∑ a, c a • u a)).re = A at *
    generalize (star (∑ a, c a • u a) ⬝ᵥ Q.mulVec (∑ a, c a • u a)).re = q0 at *
    generalize (star (∑ a, c a • u a) ⬝ᵥ P'.mulVec (∑ a, c a • u a)).re = A' at *
    generalize (star (∑ a, c a • u a) ⬝ᵥ Q'.mulVec (∑ a, c a • u a)).re = q' at *
    have g1 : w' k * q' ≤ w' k * q0 + |w' k| * (ε * q0) := by
      rcases le_total 0 (w' k) with hw | hw
      · rw [abs_of_nonneg hw]
        nlinarith
      · rw [abs_of_nonpos hw]
        nlinarith
    nlinarith
  rw [abs_le]
  refine ⟨?_, by linarith⟩
  have h2 : |w' k| ≤ |w k| + |w' k - w k| := by
    have := abs_add_le (w k) (w' k - w k)
    simpa using this
  rcases le_total (w k) (w' k) with hh | hh
  · have : 0 ≤ 2 * ε * (1 + |w k|) := by positivity
    linarith
  · rw [abs_of_nonpos (by linarith : w' k - w k ≤ 0)] at h2
    have : ε * |w' k| ≤ ε * (|w k| + (w k - w' k)) := mul_le_mul_of_nonneg_left (by linarith) h0
    have hd : 0 ≤ w k - w' k := by linarith
    nlinarith [mul_le_mul_of_nonneg_right h1 hd, abs_nonneg (w k), mul_nonneg h0 (abs_nonneg (w k))]

theorem tendsto {ι : Type} {l : Filter ι} {A B : ι → Matrix (Fin N) (Fin N) ℂ} {wi : ι → Fin N → ℝ} (hA : Tendsto A l (𝓝 P))
    (hB : Tendsto B l (𝓝 Q)) (h : Waves P Q w φ) (hQ : Q.IsHermitian)
    (hi : ∀ᶠ i in l, (B i).IsHermitian ∧ ∃ φ, Waves (A i) (B i) (wi i) φ) (k : Fin N) : Tendsto (fun i => wi i k) l (𝓝 (w k)) := by
  let S : Matrix (Fin N) (Fin N) ℂ → ℝ := fun A => ∑ k, ∑ l, ‖star (φ k) ⬝ᵥ A.mulVec (φ l)‖
  have hS : Continuous S := by
    refine continuous_finsetSum _ fun k _ => continuous_finsetSum _ fun l _ => Continuous.norm ?_
    unfold Matrix.mulVec dotProduct
    fun_prop
  have S0 : S 0 = 0 := by simp [S]
  have t : ∀ {A : ι → Matrix (Fin N) (Fin N) ℂ} {A0}, Tendsto A l (𝓝 A0) → Tendsto (fun i => S (A i - A0)) l (𝓝 0) := fun {A A0} hA => by
    have h1 : Tendsto (fun i => A i - A0) l (𝓝 0) := by
      have := hA.sub_const A0
      rwa [sub_self] at this
    rw [← S0]
    exact (hS.tendsto 0).comp h1
  have tε : Tendsto (fun i => S (A i - P) + S (B i - Q)) l (𝓝 0) := by simpa using (t hA).add (t hB)
  have S_nonneg : ∀ A, 0 ≤ S A := fun A => Finset.sum_nonneg fun _ _ => Finset.sum_nonneg fun _ _ => norm_nonneg _
  have bound : ∀ (A A0 : Matrix (Fin N) (Fin N) ℂ) (ε : ℝ), S (A - A0) ≤ ε → ∀ x, |(star x ⬝ᵥ A.mulVec x).re - (star x ⬝ᵥ A0.mulVec x).re| ≤
      ε * (star x ⬝ᵥ Q.mulVec x).re := fun A A0 ε hε x => by
    rw [← Complex.sub_re, ← dotProduct_sub, ← Matrix.sub_mulVec]
    exact (form_le_mass h hQ (A - A0) x).trans (mul_le_mul_of_nonneg_right hε (mass_nonneg h hQ x))
  rw [tendsto_iff_dist_tendsto_zero]
  have t2 : Tendsto (fun i => 2 * (S (A i - P) + S (B i - Q)) * (1 + |w k|)) l (𝓝 0) := by
    simpa using (tε.const_mul 2).mul_const (1 + |w k|)
  refine squeeze_zero' (Eventually.of_forall fun _ => dist_nonneg) ?_ t2
  filter_upwards [hi, tε.eventually (gt_mem_nhds (by norm_num : (0 : ℝ) < 1 / 2))] with i ⟨h1, φi, h2⟩ h3
  rw [Real.dist_eq]
  exact close h hQ h2 h1 (add_nonneg (S_nonneg _) (S_nonneg _)) h3.le
    (bound _ _ _ (le_add_of_nonneg_right (S_nonneg _))) (bound _ _ _ (le_add_of_nonneg_left (S_nonneg _))) k

end Spec.Waves

end

/-! ## The transformation as a function of the wave vector -/

section
variable {neq D : ℕ} {nodesRef nodesIma dofsRef dofsIma : List ℤ} {refDof imaDof : ℤ → Option (List ℤ)} {newNum : List ℤ} {wave wave' : List ℝ}
  {coords : List (List ℝ)} {T : Matrix (Fin neq) (Fin (neq - dofsRef.length)) ℂ}

theorem blochPair_other (hw : wave'.length = wave.length) {p : ℤ × ℤ} {L : List (ℤ × ℤ × ℂ)}
    (h : blochPair wave coords refDof imaDof newNum p = .ok L) :
    ∃ φ : ℂ, blochPair wave' coords refDof imaDof newNum p = .ok (L.map fun e => (e.1, e.2.1, φ)) := by
  rw [blochPair_eq] at h
  obtain ⟨ph, h1, h2⟩ := bind_ok.1 h
  unfold pairPhase at h1
  obtain ⟨ci, h3, h1⟩ := bind_ok.1 h1
  obtain ⟨cr, h4, h1⟩ := bind_ok.1 h1
  obtain ⟨g, h5, h1⟩ := bind_ok.1 h1
  have hl : wave.length = (List.zipWith (· - ·) ci cr).length := by
    by_contra hne
    rw [dot, if_neg hne] at h5
    cases h5
  obtain ⟨dr, h6, h2⟩ := bind_ok.1 h2
  obtain ⟨di, h7, h2⟩ := bind_ok.1 h2
  refine ⟨Complex.exp (Complex.I * (((List.zipWith (· * ·) wave' (List.zipWith (· - ·) ci cr)).sum : ℝ) : ℂ)), ?_⟩
  rw [blochPair_eq]
  have e1 : pairPhase wave' coords p =
      .ok (Complex.exp (Complex.I * (((List.zipWith (· * ·) wave' (List.zipWith (· - ·) ci cr)).sum : ℝ) : ℂ))) := by
    unfold pairPhase
    rw [h3, h4]
    simp only [ok_bind]
    rw [dot, if_pos (hw.trans hl)]
    rfl
  rw [e1]
  simp only [ok_bind]
  rw [h6, ok_bind, h7, ok_bind]
  rw [mapM_map (f := fun c : ℤ × ℤ => (do
    let n ← pyGet newNum c.1
    pure (c.2, n, ph) : Py (ℤ × ℤ × ℂ))) (g := fun e => (e.1, e.2.1, _)), h2]
  · rfl
  · intro c _
    cases pyGet newNum c.1 <;> rfl

/-- Whether the transformation is computed does not depend on the wave vector. -/
theorem bloch_other (hw : wave'.length = wave.length)
    (h : blochTransformMat wave coords neq nodesRef nodesIma dofsRef dofsIma refDof imaDof newNum = .ok T) :
    ∃ T', blochTransformMat wave' coords neq nodesRef nodesIma dofsRef dofsIma refDof imaDof newNum = .ok T' := by
  unfold blochTransformMat at h ⊢
  obtain ⟨inner, h1, h⟩ := bind_ok.1 h
  obtain ⟨bl, h2, h⟩ := bind_ok.1 h
  rw [h1, ok_bind]
  have key : ∀ (z : List (ℤ × ℤ)) (bl : List (List (ℤ × ℤ × ℂ))), List.Forall₂ (fun a b => blochPair wave coords refDof imaDof newNum a = .ok b) z bl →
      ∃ bl', List.Forall₂ (fun a b => blochPair wave' coords refDof imaDof newNum a = .ok b) z bl' ∧
        bl'.flatten.map (fun e => (e.1, e.2.1)) = bl.flatten.map (fun e => (e.1, e.2.1)) := by
    intro z bl hf
    induction hf with
    | nil => exact ⟨[], .nil, rfl⟩
    | cons a _ ih =>
      obtain ⟨bl', i1, i2⟩ := ih
      obtain ⟨φ, hφ⟩ := blochPair_other hw a
      refine ⟨_, .cons hφ i1, ?_⟩
      rw [List.flatten_cons, List.flatten_cons, List.map_append, List.map_append, i2, List.map_map]
      rfl
  obtain ⟨bl', k1, k2⟩ := key _ _ (mapM_ok.1 h2)
  rw [mapM_ok.2 k1, ok_bind]
  dsimp only at h ⊢
  split at h
  · cases h
  · rename_i hn
    rw [if_neg hn]
    have h' : cooMatrix neq (neq - dofsRef.length) (inner ++ bl.flatten) = .ok T := h
    show ∃ T', cooMatrix neq (neq - dofsRef.length) (inner ++ bl'.flatten) = .ok T'
    unfold cooMatrix at h' ⊢
    split at h'
    · rename_i hall
      rw [if_pos]
      · exact ⟨_, rfl⟩
      · rw [List.all_append, Bool.and_eq_true, List.all_eq_true, List.all_eq_true] at hall ⊢
        refine ⟨hall.1, fun e he => ?_⟩
        have : (e.1, e.2.1) ∈ bl.flatten.map (fun e => (e.1, e.2.1)) := by
          rw [← k2]
          exact List.mem_map_of_mem he
        obtain ⟨e', he', heq⟩ := List.mem_map.1 this
        obtain ⟨q1, q2⟩ := Prod.mk.inj heq
        have := hall.2 e' he'
        rw [← q1, ← q2]
        exact this
    · cases h'

theorem shift_ofFn {κ : Fin D → ℝ} {i r : ℤ} {φ : ℝ} (h : Shift (List.ofFn κ) coords i r φ) :
    ∃ ki kr xi xr, Resolves coords.length i ki ∧ Resolves coords.length r kr ∧ coords[ki]? = some xi ∧ coords[kr]? = some xr ∧
      φ = ∑ t : Fin D, κ t * (xi.getD t 0 - xr.getD t 0) := by
  obtain ⟨ki, kr, xi, xr, h1, h2, h3, h4, -, h6⟩ := h
  refine ⟨ki, kr, xi, xr, h1, h2, h3, h4, ?_⟩
  rw [h6, Fin.sum_univ_eq_sum_range (fun t => (List.ofFn κ).getD t 0 * (xi.getD t 0 - xr.getD t 0)), List.length_ofFn,
    ← Fin.sum_univ_eq_sum_range (fun t => (List.ofFn κ).getD t 0 * (xi.getD t 0 - xr.getD t 0))]
  refine Finset.sum_congr rfl fun t _ => ?_
  simp

theorem bloch_continuous (ht : Tied neq nodesRef nodesIma dofsRef dofsIma refDof imaDof newNum)
    {T : (Fin D → ℝ) → Matrix (Fin neq) (Fin (neq - dofsRef.length)) ℂ}
    (hT : ∀ κ, blochTransformMat (List.ofFn κ) coords neq nodesRef nodesIma dofsRef dofsIma refDof imaDof newNum = .ok (T κ)) : Continuous T := by
  refine continuous_matrix fun i j => ?_
  by_cases hi : ((i : ℕ) : ℤ) ∈ dofsIma
  · obtain ⟨l, hl, hli⟩ := ht.pairing.all i i.2 hi
    obtain ⟨d, r, φ, f1, f2, f3, c, f4, f5⟩ := (bloch_rows (hT 0) ht.pairing).2 l hl
    obtain ⟨ki, kr, xi, xr, g1, g2, g3, g4, -⟩ := shift_ofFn f3
    have : (fun κ => T κ i j) = fun κ : Fin D → ℝ => if c = j then
        Complex.exp (Complex.I * ((∑ t : Fin D, κ t * (xi.getD t 0 - xr.getD t 0) : ℝ) : ℂ)) else 0 := by
      funext κ
      obtain ⟨d', r', φ', f1', f2', f3', c', f4', f5'⟩ := (bloch_rows (hT κ) ht.pairing).2 l hl
      obtain ⟨ki', kr', xi', xr', g1', g2', g3', g4', g5'⟩ := shift_ofFn f3'
      obtain rfl : i = d' := Fin.ext (by exact_mod_cast hli.symm.trans f1')
      obtain rfl : r = r' := Fin.ext (by exact_mod_cast f2.symm.trans f2')
      obtain rfl := resolves_unique g1 g1'
      obtain rfl := resolves_unique g2 g2'
      rw [g3, Option.some.injEq] at g3'
      rw [g4, Option.some.injEq] at g4'
      rw [f4, Option.some.injEq] at f4'
      obtain rfl : c = c' := Fin.ext (by exact_mod_cast f4')
      subst g3' g4'
      rw [f5', g5']
    rw [this]
    split
    · fun_prop
    · exact continuous_const
  · have : (fun κ => T κ i j) = fun _ : Fin D → ℝ => T 0 i j := by
      funext κ
      obtain ⟨c, h1, h2⟩ := (bloch_rows (hT κ) ht.pairing).1 i hi
      obtain ⟨c', h1', h2'⟩ := (bloch_rows (hT 0) ht.pairing).1 i hi
      rw [h1, Option.some.injEq] at h1'
      obtain rfl : c = c' := Fin.ext (by exact_mod_cast h1')
      rw [h2, h2']
    rw [this]
    exact continuous_const

end

/-! ## Branches -/

section
variable {neq D : ℕ} {Kg Mg : Matrix (Fin neq) (Fin neq) ℝ} {nodesRef nodesIma dofsRef dofsIma : List ℤ} {refDof imaDof : ℤ → Option (List ℤ)}
  {newNum : List ℤ} {coords : List (List ℝ)} {l : (Fin D → ℝ) → Fin (neq - dofsRef.length) → ℝ}

/-- `l` gives at every wave vector of the space of dimension `D` the values of the reduced matrices in rising order: the branches of the
dispersion diagram. -/
def Spec.Branches (D : ℕ) (Kg Mg : Matrix (Fin neq) (Fin neq) ℝ) (coords : List (List ℝ)) (nodesRef nodesIma dofsRef dofsIma : List ℤ)
    (refDof imaDof : ℤ → Option (List ℤ)) (newNum : List ℤ) (l : (Fin D → ℝ) → Fin (neq - dofsRef.length) → ℝ) : Prop :=
  ∀ κ : Fin D → ℝ, ∃ T q, blochTransformMat (List.ofFn κ) coords neq nodesRef nodesIma dofsRef dofsIma refDof imaDof newNum = .ok T ∧
    Waves (T.conjTranspose * Kg.map Complex.ofReal * T) (T.conjTranspose * Mg.map Complex.ofReal * T) (l κ) q

theorem branches_exist (hK : Kg.IsSymm) (hM : Mg.IsSymm ∧ ∀ v, v ≠ 0 → 0 < v ⬝ᵥ Mg.mulVec v)
    (ht : Tied neq nodesRef nodesIma dofsRef dofsIma refDof imaDof newNum) {wave : List ℝ} {T : Matrix (Fin neq) (Fin (neq - dofsRef.length)) ℂ}
    (hT : blochTransformMat wave coords neq nodesRef nodesIma dofsRef dofsIma refDof imaDof newNum = .ok T) (hD : wave.length = D) :
    ∃! l, Branches D Kg Mg coords nodesRef nodesIma dofsRef dofsIma refDof imaDof newNum l := by
  choose T' hT' using fun κ : Fin D → ℝ => bloch_other (wave' := List.ofFn κ) (by rw [List.length_ofFn, hD]) hT
  choose l q hl _ using fun κ => bands_exist hK hM ht (hT' κ)
  refine ⟨l, fun κ => ⟨T' κ, q κ, hT' κ, hl κ⟩, fun l' h' => funext fun κ => ?_⟩
  obtain ⟨T'', q', h1, h2⟩ := h' κ
  obtain rfl := Except.ok.inj (h1.symm.trans (hT' κ))
  exact h2.unique (Matrix.isHermitian_conjTranspose_mul_mul _ (map_hermitian hM.1)) (hl κ)

theorem branches_continuous (hM : Mg.IsSymm) (ht : Tied neq nodesRef nodesIma dofsRef dofsIma refDof imaDof newNum)
    (h : Branches D Kg Mg coords nodesRef nodesIma dofsRef dofsIma refDof imaDof newNum l) (k : Fin (neq - dofsRef.length)) :
    Continuous fun κ => l κ k := by
  choose T q h1 h2 using h
  have hc := bloch_continuous ht h1
  have herm : ∀ κ, ((T κ).conjTranspose * Mg.map Complex.ofReal * T κ).IsHermitian := fun κ =>
    Matrix.isHermitian_conjTranspose_mul_mul _ (map_hermitian hM)
  have cont : ∀ A : Matrix (Fin neq) (Fin neq) ℂ, Continuous fun κ => (T κ).conjTranspose * A * T κ := fun A =>
    (hc.matrix_conjTranspose.matrix_mul continuous_const).matrix_mul hc
  refine continuous_iff_continuousAt.2 fun κ => ?_
  exact Spec.Waves.tendsto ((cont _).tendsto κ) ((cont _).tendsto κ) (h2 κ) (herm κ) (Eventually.of_forall fun κ' => ⟨herm κ', _, h2 κ'⟩) k

theorem branches_even (hM : Mg.IsSymm) (h : Branches D Kg Mg coords nodesRef nodesIma dofsRef dofsIma refDof imaDof newNum l) (κ : Fin D → ℝ) :
    l (-κ) = l κ := by
  obtain ⟨T, q, h1, h2⟩ := h κ
  obtain ⟨T', q', h1', h2'⟩ := h (-κ)
  have e := C87_opposite h1
  rw [List.map_ofFn, show ((fun x => -x) ∘ κ) = -κ from rfl, h1', Except.ok.injEq] at e
  subst e
  refine h2'.unique (Matrix.isHermitian_conjTranspose_mul_mul _ (map_hermitian hM)) (φ' := fun k => star (q k)) ?_
  have e : ∀ A : Matrix (Fin neq) (Fin neq) ℝ, (T.map (starRingEnd ℂ)).conjTranspose * A.map Complex.ofReal * T.map (starRingEnd ℂ) =
      (T.conjTranspose * A.map Complex.ofReal * T).map (starRingEnd ℂ) := fun A => by
    ext i j
    simp [Matrix.mul_apply]
  rw [e, e]
  exact h2.conj

theorem branches_periodic (hM : Mg.IsSymm) (h : Branches D Kg Mg coords nodesRef nodesIma dofsRef dofsIma refDof imaDof newNum l)
    {G : Fin D → ℝ} (hG : ∀ p ∈ nodesIma.zip nodesRef, ∀ g, Shift (List.ofFn G) coords p.1 p.2 g → ∃ n : ℤ, g = n * (2 * Real.pi))
    (κ : Fin D → ℝ) : l (κ + G) = l κ := by
  obtain ⟨T, q, h1, h2⟩ := h κ
  obtain ⟨T', q', h1', h2'⟩ := h (κ + G)
  have e := C87_periodic (G := List.ofFn G) (by simp) (fun p hp ci cr g1 g2 g g3 => hG p hp g (shift_of_dot g1 g2 g3)) h1
  have e' : List.zipWith (· + ·) (List.ofFn κ) (List.ofFn G) = List.ofFn (κ + G) := by
    apply List.ext_getElem
    · simp
    · intro i a b
      simp
  rw [e', h1', Except.ok.injEq] at e
  subst e
  exact h2'.unique (Matrix.isHermitian_conjTranspose_mul_mul _ (map_hermitian hM)) h2

theorem branches_interval (hM : Mg.IsSymm) (ht : Tied neq nodesRef nodesIma dofsRef dofsIma refDof imaDof newNum)
    (h : Branches D Kg Mg coords nodesRef nodesIma dofsRef dofsIma refDof imaDof newNum l) {k : Fin (neq - dofsRef.length)} {κ κ' : Fin D → ℝ}
    {x : ℝ} (h1 : l κ k ≤ x) (h2 : x ≤ l κ' k) : ∃ t : ℝ, 0 ≤ t ∧ t ≤ 1 ∧ l (fun i => (1 - t) * κ i + t * κ' i) k = x := by
  have hc : Continuous fun t : ℝ => l (fun i => (1 - t) * κ i + t * κ' i) k :=
    (branches_continuous hM ht h k).comp (by fun_prop)
  have e0 : (fun i => (1 - 0) * κ i + 0 * κ' i) = κ := by funext i; ring
  have e1 : (fun i => (1 - 1) * κ i + 1 * κ' i) = κ' := by funext i; ring
  obtain ⟨t, ⟨t0, t1⟩, htx⟩ := intermediate_value_Icc (zero_le_one (α := ℝ)) hc.continuousOn (show x ∈ Set.Icc _ _ from by
    simp only [e0, e1]; exact ⟨h1, h2⟩)
  exact ⟨t, t0, t1, htx⟩

end

section
variable {sq : ℝ → ℝ} {d : Gui.Data ℝ} {neq D : ℕ} {Kg Mg : Matrix (Fin neq) (Fin neq) ℝ} {ks ms : List (Member ℝ)}
  {nodesRef nodesIma dofsRef dofsIma : List ℤ} {refDof imaDof : ℤ → Option (List ℤ)} {newNum : List ℤ} {coords : List (List ℝ)}
  {l : (Fin D → ℝ) → Fin (neq - dofsRef.length) → ℝ}

/-- C180.  Plane cells: if `bloch_transform_mat` works at one wave vector it works at all, and the cell has branches, in one way. -/
theorem C180_exists (hs : SqrtFn sq) (h : Vibrating sq d ks ms Kg Mg) (ht : Tied neq nodesRef nodesIma dofsRef dofsIma refDof imaDof newNum)
    {wave : List ℝ} {T : Matrix (Fin neq) (Fin (neq - dofsRef.length)) ℂ}
    (hT : blochTransformMat wave coords neq nodesRef nodesIma dofsRef dofsIma refDof imaDof newNum = .ok T) (hD : wave.length = D) :
    ∃! l, Branches D Kg Mg coords nodesRef nodesIma dofsRef dofsIma refDof imaDof newNum l :=
  branches_exist (h.stiff hs) (h.mass hs) ht hT hD

/-- C180.  Plane cells: the branches have no jumps, and a branch takes, on the way from one wave vector to another, all values between. -/
theorem C180_continuous (hs : SqrtFn sq) (h : Vibrating sq d ks ms Kg Mg) (ht : Tied neq nodesRef nodesIma dofsRef dofsIma refDof imaDof newNum)
    (hb : Branches D Kg Mg coords nodesRef nodesIma dofsRef dofsIma refDof imaDof newNum l) (k : Fin (neq - dofsRef.length)) :
    (Continuous fun κ => l κ k) ∧ ∀ (κ κ' : Fin D → ℝ) (x : ℝ), l κ k ≤ x → x ≤ l κ' k →
      ∃ t : ℝ, 0 ≤ t ∧ t ≤ 1 ∧ l (fun i => (1 - t) * κ i + t * κ' i) k = x :=
  ⟨branches_continuous (h.mass hs).1 ht hb k, fun _ _ _ h1 h2 => branches_interval (h.mass hs).1 ht hb h1 h2⟩

/-- C180.  Plane cells: opposite wave vectors have the same frequencies, and so have wave vectors that differ by one of the reciprocal
lattice. -/
theorem C180_symmetric (hs : SqrtFn sq) (h : Vibrating sq d ks ms Kg Mg)
    (hb : Branches D Kg Mg coords nodesRef nodesIma dofsRef dofsIma refDof imaDof newNum l) (κ : Fin D → ℝ) :
    l (-κ) = l κ ∧ ∀ G : Fin D → ℝ, (∀ p ∈ nodesIma.zip nodesRef, ∀ g, Shift (List.ofFn G) coords p.1 p.2 g → ∃ n : ℤ, g = n * (2 * Real.pi)) →
      l (κ + G) = l κ :=
  ⟨branches_even (h.mass hs).1 hb κ, fun _ hG => branches_periodic (h.mass hs).1 hb hG κ⟩

end

section
variable {sq : ℝ → ℝ} {cons mats nodes : Table ℝ} {elements : List (List ℤ)} {neq D : ℕ} {Kg Mg : Matrix (Fin neq) (Fin neq) ℝ}
  {ks ms : List (Member ℝ)} {w : Fin neq → ℝ} {φ : Fin neq → Fin neq → ℝ} {nodesRef nodesIma dofsRef dofsIma : List ℤ}
  {refDof imaDof : ℤ → Option (List ℤ)} {newNum : List ℤ} {coords : List (List ℝ)} {l : (Fin D → ℝ) → Fin (neq - dofsRef.length) → ℝ}

/-- C180.  Cells made of beams: the branches. -/
theorem C180_frame_exists (hs : SqrtFn sq) (h : BeamModel sq cons mats nodes elements ks ms Kg Mg) (hm : Modes Kg Mg w φ)
    (ht : Tied neq nodesRef nodesIma dofsRef dofsIma refDof imaDof newNum)
    {wave : List ℝ} {T : Matrix (Fin neq) (Fin (neq - dofsRef.length)) ℂ}
    (hT : blochTransformMat wave coords neq nodesRef nodesIma dofsRef dofsIma refDof imaDof newNum = .ok T) (hD : wave.length = D) :
    ∃! l, Branches D Kg Mg coords nodesRef nodesIma dofsRef dofsIma refDof imaDof newNum l := by
  refine branches_exist (h.symm hs).1 ⟨(h.symm hs).2, fun v hv => ?_⟩ ht hT hD
  rw [hm.form_mass]
  refine lt_of_le_of_ne (Finset.sum_nonneg fun k _ => sq_nonneg _) fun h0 => hv ?_
  have := (Finset.sum_eq_zero_iff_of_nonneg fun k _ => sq_nonneg _).1 h0.symm
  rw [hm.expand v]
  exact Finset.sum_eq_zero fun k hk => by rw [pow_eq_zero_iff (by omega) |>.1 (this k hk), zero_smul]

/-- C180.  Cells made of beams: no jumps. -/
theorem C180_frame_continuous (hs : SqrtFn sq) (h : BeamModel sq cons mats nodes elements ks ms Kg Mg)
    (ht : Tied neq nodesRef nodesIma dofsRef dofsIma refDof imaDof newNum)
    (hb : Branches D Kg Mg coords nodesRef nodesIma dofsRef dofsIma refDof imaDof newNum l) (k : Fin (neq - dofsRef.length)) :
    (Continuous fun κ => l κ k) ∧ ∀ (κ κ' : Fin D → ℝ) (x : ℝ), l κ k ≤ x → x ≤ l κ' k →
      ∃ t : ℝ, 0 ≤ t ∧ t ≤ 1 ∧ l (fun i => (1 - t) * κ i + t * κ' i) k = x :=
  ⟨branches_continuous (h.symm hs).2 ht hb k, fun _ _ _ h1 h2 => branches_interval (h.symm hs).2 ht hb h1 h2⟩

/-- C180.  Cells made of beams: opposite and equivalent wave vectors. -/
theorem C180_frame_symmetric (hs : SqrtFn sq) (h : BeamModel sq cons mats nodes elements ks ms Kg Mg)
    (hb : Branches D Kg Mg coords nodesRef nodesIma dofsRef dofsIma refDof imaDof newNum l) (κ : Fin D → ℝ) :
    l (-κ) = l κ ∧ ∀ G : Fin D → ℝ, (∀ p ∈ nodesIma.zip nodesRef, ∀ g, Shift (List.ofFn G) coords p.1 p.2 g → ∃ n : ℤ, g = n * (2 * Real.pi)) →
      l (κ + G) = l κ :=
  ⟨branches_even (h.symm hs).2 hb κ, fun _ hG => branches_periodic (h.symm hs).2 hb hG κ⟩

end

/-- Case for C180: the branches of a rod of `n` bars have the period `2 π / n` in the first component of the wave vector, are even, and
have no jumps. -/
example (n : ℕ) (hn : 0 < n) : ∃ (Kg Mg : Matrix (Fin (n + 1)) (Fin (n + 1)) ℝ) (newNum : List ℤ) (ks ms : List (Member ℝ))
    (l : (Fin 2 → ℝ) → Fin (n + 1 - [(0 : ℤ)].length) → ℝ), Vibrating Real.sqrt (testRod n 1 1 1 1) ks ms Kg Mg ∧
    Branches 2 Kg Mg ((testRod n 1 1 1 1).nodes.map (List.drop 1)) [0] [(n : ℤ)] [0] [(n : ℤ)] (fun z => if z = 0 then some [0] else none)
      (fun z => if z = n then some [(n : ℤ)] else none) newNum l ∧
    (∀ k, Continuous fun κ => l κ k) ∧ (∀ κ, l (-κ) = l κ) ∧ ∀ κ, l (κ + ![2 * Real.pi / n, 0]) = l κ := by
  obtain ⟨op, bc, Kg, Mg, newNum, T, h1, h2, hw⟩ := C144_returns (refDof := fun z => if z = 0 then some [0] else none)
    (imaDof := fun z => if z = n then some [(n : ℤ)] else none) (testRod_periodic n 1 1 1 1) sqrtFn_real one_pos hn 0 0 (by simp) (by simp)
  obtain ⟨ks, ms, hv⟩ := (testRod_periodic n 1 1 1 1).vibrating sqrtFn_real hn one_pos one_pos one_pos h1 h2
  obtain ⟨l, hl, -⟩ := C180_exists (D := 2) sqrtFn_real hv (rod_tied hw) hw.matrix rfl
  refine ⟨Kg, Mg, newNum, ks, ms, l, hv, hl, fun k => (C180_continuous sqrtFn_real hv (rod_tied hw) hl k).1,
    fun κ => (C180_symmetric sqrtFn_real hv hl κ).1, fun κ => (C180_symmetric sqrtFn_real hv hl κ).2 _ fun p hp g hg => ⟨1, ?_⟩⟩
  obtain rfl : p = ((n : ℤ), 0) := by simpa using hp
  obtain ⟨ki, kr, xi, xr, g1, g2, g3, g4, rfl⟩ := shift_ofFn hg
  have hlen : ((testRod n 1 1 1 1).nodes.map (List.drop 1)).length = n + 1 := by simp [testRod, testBar]
  rw [hlen] at g1 g2
  obtain rfl : n = ki := by
    obtain ⟨a, b⟩ := g1
    dsimp only at b
    omega
  obtain rfl : kr = 0 := by
    obtain ⟨a, b⟩ := g2
    dsimp only at b
    omega
  have c : ∀ p ≤ n, ((testRod n 1 1 1 1).nodes.map (List.drop 1))[p]? = some [(p : ℝ) * 1, 0] := fun p hp => by
    simp [testRod, testBar, List.getElem?_range (show p < n + 1 by omega)]
  rw [c _ le_rfl, Option.some.injEq] at g3
  rw [c 0 (by omega), Option.some.injEq] at g4
  subst g3 g4
  have : (n : ℝ) ≠ 0 := by exact_mod_cast hn.ne'
  simp [Fin.sum_univ_two]
  field_simp

/-- Case for C180: the frame of the tests as a cell. -/
example : ∃ (Kg Mg : Matrix (Fin 9) (Fin 9) ℝ) (ks ms : List (Member ℝ)) (l : (Fin 2 → ℝ) → Fin (9 - [(0 : ℤ), 1, 2].length) → ℝ),
    BeamModel Real.sqrt [[0, 0, 0], [0, 0, 0], [0, 0, 0]] testFrame.2.2.1 testFrame.2.2.2.1 testFrame.2.1 ks ms Kg Mg ∧
    Branches 2 Kg Mg (testFrame.2.2.2.1.map (List.drop 1)) [0] [2] [0, 1, 2] [6, 7, 8] (fun z => if z = 0 then some [0, 1, 2] else none)
      (fun z => if z = 2 then some [6, 7, 8] else none) [0, 1, 2, 3, 4, 5, 0, 1, 2] l ∧
    (∀ k, Continuous fun κ => l κ k) ∧ ∀ κ, l (-κ) = l κ := by
  obtain ⟨Kg, Mg, ks, ms, w, φ, hB, hm, -⟩ := freeFrame_vibrates
  obtain ⟨T, hT⟩ : ∃ T, blochTransformMat [0, 0] (testFrame.2.2.2.1.map (List.drop 1)) 9 [0] [2] [0, 1, 2] [6, 7, 8]
      (fun z => if z = 0 then some [0, 1, 2] else none) (fun z => if z = 2 then some [6, 7, 8] else none) [0, 1, 2, 3, 4, 5, 0, 1, 2] = .ok T :=
    ⟨_, rfl⟩
  obtain ⟨l, hl, -⟩ := C180_frame_exists (D := 2) sqrtFn_real hB hm freeFrame_tied hT rfl
  exact ⟨Kg, Mg, ks, ms, l, hB, hl, fun k => (C180_frame_continuous sqrtFn_real hB freeFrame_tied hl k).1,
    fun κ => (C180_frame_symmetric sqrtFn_real hB hl κ).1⟩

end SolidsPy
