import Verif.Props.WaveSpeed

/-! # C186: the bending branch of a strip -/

set_option linter.unusedSectionVars false

namespace SolidsPy
open Spec Assem Bloch Matrix
open scoped ComplexOrder

section
variable {neq D : ℕ} {Kg Mg : Matrix (Fin neq) (Fin neq) ℝ} {nodesRef nodesIma dofsRef dofsIma : List ℤ} {refDof imaDof : ℤ → Option (List ℤ)}
  {newNum : List ℤ} {coords : List (List ℝ)} {l : (Fin D → ℝ) → Fin (neq - dofsRef.length) → ℝ} {κ : Fin D → ℝ}

/-- A displacement with the phases of the wave vector between images and references is a Bloch vector. -/
theorem bloch_reached (ht : Tied neq nodesRef nodesIma dofsRef dofsIma refDof imaDof newNum) {T : Matrix (Fin neq) (Fin (neq - dofsRef.length)) ℂ}
    (hT : blochTransformMat (List.ofFn κ) coords neq nodesRef nodesIma dofsRef dofsIma refDof imaDof newNum = .ok T)
    {v : Fin neq → ℂ} (hv : ∀ x ∈ links nodesIma nodesRef refDof imaDof, ∀ i r : Fin neq, ∀ φ, x.ima = ((i : ℕ) : ℤ) → x.ref = ((r : ℕ) : ℤ) →
      Shift (List.ofFn κ) coords x.nodeIma x.nodeRef φ → v i = Complex.exp (Complex.I * (φ : ℂ)) * v r) :
    ∃ q, T.mulVec q = v := by
  choose e he hk hn using ht.onto
  obtain ⟨r1, r2⟩ := bloch_rows hT ht.pairing
  have kept : ∀ (i : Fin neq) (c : Fin (neq - dofsRef.length)), ((i : ℕ) : ℤ) ∉ dofsIma → newNum[(i : ℕ)]? = some ((c : ℕ) : ℤ) →
      v ⟨e c, he c⟩ = v i := fun i c hi hc => by
    have : e c = i := ht.once _ _ (he c) i.2 (hk c) hi (by rw [hn, hc])
    congr 1
    exact Fin.ext this
  refine ⟨fun c => v ⟨e c, he c⟩, funext fun i => ?_⟩
  by_cases hi : ((i : ℕ) : ℤ) ∈ dofsIma
  · obtain ⟨x, hx, hxi⟩ := ht.pairing.all i i.2 hi
    obtain ⟨d, r, φ, f1, f2, f3, c, f4, f5⟩ := r2 x hx
    obtain rfl : d = i := Fin.ext (by exact_mod_cast f1.symm.trans hxi)
    rw [hv x hx _ _ φ f1 f2 f3, ← kept r c (by rw [← f2]; exact (ht.pairing.source x hx).1) f4, Matrix.mulVec, dotProduct]
    simp [f5]
  · obtain ⟨c, f1, f2⟩ := r1 i hi
    rw [← kept i c hi f1, Matrix.mulVec, dotProduct]
    simp [f2]

/-- A Bloch vector near a motion without forces bounds the first branch. -/
theorem branch_trial (hK : Kg.IsSymm) (hM : Mg.IsSymm ∧ ∀ v, v ≠ 0 → 0 < v ⬝ᵥ Mg.mulVec v)
    (hb : Branches D Kg Mg coords nodesRef nodesIma dofsRef dofsIma refDof imaDof newNum l) {c : ℝ} (hc : 0 < c) :
    ∃ C : ℝ, 0 ≤ C ∧ ∀ (κ : Fin D → ℝ) (T : Matrix (Fin neq) (Fin (neq - dofsRef.length)) ℂ) (q : Fin (neq - dofsRef.length) → ℂ) (z : Fin neq → ℂ),
      blochTransformMat (List.ofFn κ) coords neq nodesRef nodesIma dofsRef dofsIma refDof imaDof newNum = .ok T →
      (Kg.map Complex.ofReal).mulVec z = 0 → c ≤ ∑ i, ‖T.mulVec q i‖ ^ 2 →
      ∀ k : Fin (neq - dofsRef.length), (k : ℕ) = 0 → l κ k ≤ C * ∑ i, ‖(T.mulVec q - z) i‖ ^ 2 := by
  obtain ⟨m, hm, hmass⟩ := norm_le_form (map_posDef hM.1 hM.2)
  set A := Kg.map Complex.ofReal with hA
  have herm : A.IsHermitian := map_hermitian hK
  have s0 : 0 ≤ ∑ i, ∑ j, ‖A i j‖ := Finset.sum_nonneg fun i _ => Finset.sum_nonneg fun j _ => norm_nonneg _
  refine ⟨(∑ i, ∑ j, ‖A i j‖) / (m * c), by positivity, fun κ T q z hT hz hn k hk => ?_⟩
  obtain ⟨T', φ, h1, h2⟩ := hb κ
  obtain rfl := Except.ok.inj (hT.symm.trans h1)
  have hQ : (T.conjTranspose * Mg.map Complex.ofReal * T).IsHermitian := Matrix.isHermitian_conjTranspose_mul_mul _ (map_hermitian hM.1)
  have hq : q ≠ 0 := by
    rintro rfl
    simp at hn
    linarith
  rw [h2.minmax hQ]
  have hs : Subsingleton (Fin (k + 1)) := ⟨fun a b => Fin.ext (by omega)⟩
  refine ⟨fun _ => q, ?_, fun a => ?_⟩
  · rw [Fintype.linearIndependent_iff]
    intro g hg i
    rw [Fintype.sum_subsingleton _ i] at hg
    exact (smul_eq_zero.1 hg).resolve_right hq
  · rw [Fintype.sum_subsingleton _ (0 : Fin (k + 1)), form_product, form_product, Matrix.mulVec_smul]
    generalize T.mulVec q = x at *
    generalize a 0 = b
    have e0 : ∀ B : Matrix (Fin neq) (Fin neq) ℂ, (star (b • x) ⬝ᵥ B.mulVec (b • x)).re = ‖b‖ ^ 2 * (star x ⬝ᵥ B.mulVec x).re := fun B => by
      rw [Matrix.mulVec_smul, star_smul, smul_dotProduct, dotProduct_smul, smul_eq_mul, smul_eq_mul, ← mul_assoc, Complex.star_def,
        ← Complex.normSq_eq_conj_mul_self, Complex.re_ofReal_mul, Complex.normSq_eq_norm_sq]
    have e1 : star x ⬝ᵥ A.mulVec x = star (x - z) ⬝ᵥ A.mulVec (x - z) := by
      rw [Matrix.mulVec_sub, hz, sub_zero, star_sub, sub_dotProduct, Spec.Waves.swap herm z x, hz]
      simp
    rw [e0, e0, ← mul_assoc, mul_comm _ (‖b‖ ^ 2), mul_assoc]
    refine mul_le_mul_of_nonneg_left ?_ (sq_nonneg _)
    have E0 : 0 ≤ ∑ i, ‖(x - z) i‖ ^ 2 := Finset.sum_nonneg fun _ _ => sq_nonneg _
    rw [e1]
    calc _ ≤ _ := form_le_norm A (x - z)
      _ = (∑ i, ∑ j, ‖A i j‖) / (m * c) * (∑ i, ‖(x - z) i‖ ^ 2) * (m * c) := by field_simp
      _ ≤ (∑ i, ∑ j, ‖A i j‖) / (m * c) * (∑ i, ‖(x - z) i‖ ^ 2) * (m * ∑ i, ‖x i‖ ^ 2) :=
        mul_le_mul_of_nonneg_left (mul_le_mul_of_nonneg_left hn hm.le) (by positivity)
      _ ≤ _ := mul_le_mul_of_nonneg_left (hmass x) (by positivity)

theorem exp_second (t : ℝ) : ‖Complex.exp (Complex.I * (t : ℂ)) - 1 - Complex.I * (t : ℂ)‖ ≤ 2 * t ^ 2 := by
  have n1 : ‖Complex.I * (t : ℂ)‖ = |t| := by simp
  by_cases h : |t| ≤ 1
  · have := Complex.norm_exp_sub_one_sub_id_le (x := Complex.I * (t : ℂ)) (by rw [n1]; exact h)
    rw [n1, sq_abs] at this
    nlinarith [sq_nonneg t]
  · push Not at h
    have h1 := Real.norm_exp_I_mul_ofReal_sub_one_le (x := t)
    have h2 := norm_sub_le (Complex.exp (Complex.I * (t : ℂ)) - 1) (Complex.I * (t : ℂ))
    rw [n1] at h2
    rw [Real.norm_eq_abs] at h1
    nlinarith [sq_abs t]

end

/-- All ties join nodes that differ by one vector, other than zero: the cell repeats along a line. -/
def Spec.Strip (nodes : List (List ℝ)) (pairs : List (ℤ × ℤ)) (a : Fin 2 → ℝ) : Prop :=
  a ≠ 0 ∧ ∀ p ∈ pairs, ∀ i r, Resolves nodes.length p.1 i → Resolves nodes.length p.2 r → ∀ j : Fin 2, coordOf nodes i j - coordOf nodes r j = a j

section
variable {sq : ℝ → ℝ} {d : Gui.Data ℝ} {ms : List (Member ℝ)} {op bc : List (List ℤ)} {neq : ℕ}
  {Kg Mg : Matrix (Fin neq) (Fin neq) ℝ} {nodesRef nodesIma dofsRef dofsIma : List ℤ}
  {refDof imaDof : ℤ → Option (List ℤ)} {newNum : List ℤ} {l : (Fin 2 → ℝ) → Fin (neq - dofsRef.length) → ℝ}

/-- The nodes and the direction of a tie. -/
theorem cell_links (hwf : WellFormed d) (h1 : dme d.cons d.elements = .ok (op, bc, neq))
    (hc : Cell d bc neq nodesRef nodesIma dofsRef dofsIma refDof imaDof newNum) {x : Link} (hx : x ∈ links nodesIma nodesRef refDof imaDof)
    {i r : Fin neq} (hi : x.ima = ((i : ℕ) : ℤ)) (hr : x.ref = ((r : ℕ) : ℤ)) :
    ∃ pr ∈ nodesIma.zip nodesRef, x.nodeIma = pr.1 ∧ x.nodeRef = pr.2 ∧ ∃ ki kr j, Resolves d.nodes.length pr.1 ki ∧
      Resolves d.nodes.length pr.2 kr ∧ j < 2 ∧ DofEq bc neq ki j i ∧ DofEq bc neq kr j r := by
  have heq := (dme_ok.1 h1).1
  unfold links at hx
  rw [List.mem_flatMap] at hx
  obtain ⟨pr, hpr, hx⟩ := hx
  rw [List.mem_map] at hx
  obtain ⟨w, hw, rfl⟩ := hx
  obtain ⟨s, hs⟩ := List.mem_iff_getElem?.1 hw
  rw [List.getElem?_zip_eq_some] at hs
  obtain ⟨ki, kr, t1, t2, t3, t4⟩ := hc.tied pr hpr
  rw [t3, t4] at hs
  have hb : ∀ (k : ℕ) (z : ℤ), (bc[k]?.getD [])[s]? = some z → entry bc k s = some z := by
    intro k z hz
    cases hb : bc[k]? with
    | none => rw [hb] at hz; simp at hz
    | some row =>
      rw [hb] at hz
      exact entry_some.2 ⟨row, hb, hz⟩
  have ei := hb _ _ hs.2
  have er := hb _ _ hs.1
  have hs2 : s < 2 := by
    obtain ⟨row, r1, r2⟩ := entry_some.1 ei
    have h3 := (eqcounter_shape heq).1
    have h4 : (bc.map List.length)[ki]? = some row.length := by rw [List.getElem?_map, r1]; rfl
    rw [h3, List.getElem?_map] at h4
    obtain ⟨row', r3, r4⟩ := Option.map_eq_some_iff.1 h4
    rw [hwf.width row' (List.mem_of_getElem? r3)] at r4
    have := (List.getElem?_eq_some_iff.1 r2).1
    omega
  dsimp only at hi hr
  exact ⟨pr, hpr, rfl, rfl, ki, kr, s, t1, t2, hs2, dofEq_of_entry (by rw [ei, hi]), dofEq_of_entry (by rw [er, hr])⟩

/-- The phase between the ends of a tie of a strip. -/
theorem strip_shift {nodes : List (List ℝ)} {pairs : List (ℤ × ℤ)} {a κ : Fin 2 → ℝ} (h : Strip nodes pairs a) {p : ℤ × ℤ} (hp : p ∈ pairs) {φ : ℝ}
    (hφ : Shift (List.ofFn κ) (nodes.map (List.drop 1)) p.1 p.2 φ) : φ = ∑ j, κ j * a j := by
  obtain ⟨ki, kr, xi, xr, g1, g2, g3, g4, rfl⟩ := shift_ofFn hφ
  rw [List.length_map] at g1 g2
  have c : ∀ (k : ℕ) (x : List ℝ) (j : Fin 2), (nodes.map (List.drop 1))[k]? = some x → x.getD j 0 = coordOf nodes k j := by
    intro k x j hx
    rw [List.getElem?_map] at hx
    obtain ⟨row, e1, rfl⟩ := Option.map_eq_some_iff.1 hx
    simp [coordOf, fieldOf, entry, e1]
  refine Finset.sum_congr rfl fun j _ => ?_
  rw [c ki xi j g3, c kr xr j g4, h.2 p hp ki kr g1 g2 j]

/-- C186.  The first branch of a strip is a bending branch: it stays below a multiple of the fourth power of the phase from cell to cell. -/
theorem C186_bending (hs : SqrtFn sq) (h : SolidMesh sq d ms) (hwf : WellFormed d) (hh : Heavy d) (h1 : dme d.cons d.elements = .ok (op, bc, neq))
    (h2 : assembler (Uel.eleFun sq) d.elements d.mats d.nodes neq op = .ok (Kg, Mg))
    (hc : Cell d bc neq nodesRef nodesIma dofsRef dofsIma refDof imaDof newNum) {a : Fin 2 → ℝ} (ha : Strip d.nodes (nodesIma.zip nodesRef) a)
    (hb : Branches 2 Kg Mg (d.nodes.map (List.drop 1)) nodesRef nodesIma dofsRef dofsIma refDof imaDof newNum l) :
    ∃ C : ℝ, 0 ≤ C ∧ ∀ (κ : Fin 2 → ℝ) (k : Fin (neq - dofsRef.length)), (k : ℕ) = 0 → l κ k ≤ C * (∑ j, κ j * a j) ^ 4 := by
  have heq := (dme_ok.1 h1).1
  obtain ⟨hsym, hpsd⟩ := stiffness_psd hs h hwf h1 h2
  have hpos : ∀ i : Fin neq, ∃ p j, (p < d.nodes.length ∧ j < 2) ∧ ∀ p' j', j' < 2 → DofEq bc neq p' j' i → p' = p ∧ j' = j := by
    intro i
    obtain ⟨p, j, hf, he, -⟩ := (C01_numbering_bijective heq).2 i i.2
    exact ⟨p, j, ⟨by rw [← hwf.size]; exact free_lt hf, hf.1⟩, fun p' j' hj' hd => (owns_of_eqcounter heq hwf.codes hf he i.2).2.2 p' j' hj' hd⟩
  choose P J hPJ own using hpos
  by_cases hne : d.nodes.length = 0
  · refine ⟨0, le_rfl, fun κ k _ => ?_⟩
    have := (hPJ ⟨k, by omega⟩).1
    omega
  have still : ∀ g : Motion ℝ, (Kg.map Complex.ofReal).mulVec (fun i => (g.move d.nodes (P i) (J i) : ℂ)) = 0 := by
    intro g
    rw [← (map_posSemidef hsym hpsd).dotProduct_mulVec_zero_iff, complex_form hsym]
    have z : (fun i => g.move d.nodes (P i) (J i)) ⬝ᵥ Kg.mulVec (fun i => g.move d.nodes (P i) (J i)) = 0 := by
      obtain ⟨ms', s⟩ := auto_setup h1 h2 hwf.codes hwf.width hwf.size
      obtain rfl := members_unique h.members s.mem
      obtain ⟨V, hV⟩ := exists_completes (cons := d.cons) bc 2 (fun i => g.move d.nodes (P i) (J i))
      unfold dotProduct
      rw [reduced_form s hV hV]
      refine List.sum_eq_zero fun y hy => ?_
      obtain ⟨m, hm, rfl⟩ := List.mem_map.1 hy
      refine (C95_zero_energy hs h (List.ne_nil_of_mem hm) V).2 ⟨g, fun p hp j hj => ?_⟩ m hm
      obtain ⟨b, hb⟩ := dofEq_exists hc h1 hp hj
      obtain ⟨e1, e2⟩ := own b p j hj hb
      rw [(hV p (by rw [hwf.size]; exact hp) j hj).1 b hb, e1, e2]
    simp only [Complex.ofReal_re, Complex.ofReal_im, z]
    have : (fun _ : Fin neq => (0 : ℝ)) = 0 := rfl
    simp [this]
  obtain ⟨a0, hL⟩ : a ≠ 0 ∧ 0 < a 0 ^ 2 + a 1 ^ 2 := by
    refine ⟨ha.1, lt_of_le_of_ne (by positivity) fun e => ha.1 (funext fun j => ?_)⟩
    fin_cases j
    · exact pow_eq_zero_iff two_ne_zero |>.1 (show a 0 ^ 2 = 0 by linarith [sq_nonneg (a 0), sq_nonneg (a 1)])
    · exact pow_eq_zero_iff two_ne_zero |>.1 (show a 1 ^ 2 = 0 by linarith [sq_nonneg (a 0), sq_nonneg (a 1)])
  let L := a 0 ^ 2 + a 1 ^ 2
  let S : ℕ → ℝ := fun p => (coordOf d.nodes p 0 * a 0 + coordOf d.nodes p 1 * a 1) / L
  let Y : ℕ → ℝ := fun p => (coordOf d.nodes p 1 * a 0 - coordOf d.nodes p 0 * a 1) / L
  let n : ℕ → ℝ := fun j => if j = 0 then -a 1 else a 0
  let t : ℕ → ℝ := fun j => if j = 0 then a 0 else a 1
  let v : ℝ → Fin neq → ℂ := fun φ i => Complex.exp (Complex.I * ((φ * S (P i) : ℝ) : ℂ)) * ((n (J i) : ℂ) - Complex.I * ((φ * Y (P i) * t (J i) : ℝ) : ℂ))
  let z : ℝ → Fin neq → ℂ := fun φ i => ((Motion.move ⟨-a 1, a 0, 0⟩ d.nodes (P i) (J i) : ℝ) : ℂ) +
    (Complex.I * (φ : ℂ)) * ((Motion.move ⟨0, 0, 1⟩ d.nodes (P i) (J i) : ℝ) : ℂ)
  have hz : ∀ φ, (Kg.map Complex.ofReal).mulVec (z φ) = 0 := fun φ => by
    have e : z φ = (fun i => ((Motion.move ⟨-a 1, a 0, 0⟩ d.nodes (P i) (J i) : ℝ) : ℂ)) +
      (Complex.I * (φ : ℂ)) • fun i => ((Motion.move ⟨0, 0, 1⟩ d.nodes (P i) (J i) : ℝ) : ℂ) := rfl
    rw [e, Matrix.mulVec_add, Matrix.mulVec_smul, still, still]
    simp
  let B : Fin neq → ℝ := fun i => 2 * S (P i) ^ 2 * |n (J i)| + |S (P i)| * |Y (P i)| * |t (J i)|
  have near : ∀ φ i, ‖(v φ - z φ) i‖ ≤ B i * φ ^ 2 := by
    intro φ i
    have turn : Motion.move ⟨0, 0, 1⟩ d.nodes (P i) (J i) = S (P i) * n (J i) - Y (P i) * t (J i) := by
      have hL' : L ≠ 0 := hL.ne'
      rcases (by have := (hPJ i).2; omega : J i = 0 ∨ J i = 1) with e | e <;> rw [e] <;> simp only [Motion.move, S, Y, n, t, if_true, one_ne_zero, if_false] <;>
        field_simp <;> simp only [L] <;> ring
    have shift : Motion.move ⟨-a 1, a 0, 0⟩ d.nodes (P i) (J i) = n (J i) := by
      rcases (by have := (hPJ i).2; omega : J i = 0 ∨ J i = 1) with e | e <;> rw [e] <;> simp [Motion.move, n]
    have e : (v φ - z φ) i = (Complex.exp (Complex.I * ((φ * S (P i) : ℝ) : ℂ)) - 1 - Complex.I * ((φ * S (P i) : ℝ) : ℂ)) * (n (J i) : ℂ) -
        Complex.I * ((φ * Y (P i) * t (J i) : ℝ) : ℂ) * (Complex.exp (Complex.I * ((φ * S (P i) : ℝ) : ℂ)) - 1) := by
      simp only [Pi.sub_apply, v, z, turn, shift]
      push_cast
      ring
    rw [e]
    have f1 := exp_second (φ * S (P i))
    have f2 := Real.norm_exp_I_mul_ofReal_sub_one_le (x := φ * S (P i))
    refine (norm_sub_le _ _).trans ?_
    rw [norm_mul, norm_mul, norm_mul, Complex.norm_I, Complex.norm_real, Complex.norm_real, Real.norm_eq_abs, Real.norm_eq_abs, one_mul]
    rw [Real.norm_eq_abs] at f2
    have g1 := mul_le_mul_of_nonneg_right f1 (abs_nonneg (n (J i)))
    have g2 := mul_le_mul_of_nonneg_left f2 (abs_nonneg (φ * Y (P i) * t (J i)))
    refine (add_le_add g1 g2).trans (le_of_eq ?_)
    simp only [B, abs_mul, mul_pow]
    rw [← sq_abs φ]
    ring
  obtain ⟨j, hj, hn⟩ : ∃ j < 2, n j ≠ 0 := by
    by_contra hno
    push Not at hno
    have e0 := hno 0 (by omega)
    have e1 := hno 1 (by omega)
    simp only [n, if_true, one_ne_zero, if_false, neg_eq_zero] at e0 e1
    rw [e0, e1] at hL
    simp at hL
  obtain ⟨i0, hi0⟩ := dofEq_exists hc h1 (Nat.pos_of_ne_zero hne) hj
  have large : ∀ φ, n j ^ 2 ≤ ∑ i, ‖v φ i‖ ^ 2 := fun φ => by
    refine le_trans ?_ (Finset.single_le_sum (f := fun i => ‖v φ i‖ ^ 2) (fun _ _ => sq_nonneg _) (Finset.mem_univ i0))
    simp only [v]
    rw [norm_mul, phase_norm, one_mul, ← (own i0 0 j hj hi0).2, ← Complex.normSq_eq_norm_sq, Complex.normSq_apply]
    simp
    nlinarith [mul_self_nonneg (φ * Y (P i0) * t j)]
  obtain ⟨C, hC, hle⟩ := branch_trial hsym (solid_mass h hwf hh h1 h2) hb (c := n j ^ 2) (by positivity)
  refine ⟨C * ∑ i, B i ^ 2, mul_nonneg hC (Finset.sum_nonneg fun _ _ => sq_nonneg _), fun κ k hk => ?_⟩
  obtain ⟨T, -, hT, -⟩ := hb κ
  obtain ⟨q, hq⟩ := bloch_reached (cell_tied hc) hT (v := v (∑ j, κ j * a j)) fun x hx i r φ hi hr hφ => by
    obtain ⟨pr, hpr, e1, e2, ki, kr, j, t1, t2, hj, d1, d2⟩ := cell_links hwf h1 hc hx hi hr
    rw [e1, e2] at hφ
    rw [strip_shift ha hpr hφ]
    obtain ⟨p1, p2⟩ := own i ki j hj d1
    obtain ⟨p3, p4⟩ := own r kr j hj d2
    have c0 := ha.2 pr hpr ki kr t1 t2 0
    have c1 := ha.2 pr hpr ki kr t1 t2 1
    simp only [Fin.val_zero, Fin.val_one] at c0 c1
    have hL' : L ≠ 0 := hL.ne'
    have eS : S ki = 1 + S kr := by
      simp only [S]
      field_simp
      simp only [L]
      linear_combination a 0 * c0 + a 1 * c1
    have eY : Y ki = Y kr := by
      simp only [Y]
      congr 1
      linear_combination a 0 * c1 - a 1 * c0
    simp only [v]
    rw [← p1, ← p2, ← p3, ← p4, eS, eY, mul_add, mul_one, Complex.ofReal_add, mul_add, Complex.exp_add, mul_assoc]
  have := hle κ T q (z (∑ j, κ j * a j)) hT (hz _) (by rw [hq]; exact large _) k hk
  rw [hq] at this
  refine this.trans ?_
  rw [mul_assoc]
  refine mul_le_mul_of_nonneg_left ?_ hC
  rw [Finset.sum_mul]
  refine Finset.sum_le_sum fun i _ => ?_
  refine (pow_le_pow_left₀ (norm_nonneg _) (near _ i) 2).trans (le_of_eq ?_)
  ring

/-- A square root below the square of a phase has the slope zero where the phase is zero. -/
theorem flat_start {f : (Fin 2 → ℝ) → ℝ} {a : Fin 2 → ℝ} {C : ℝ} (hC : 0 ≤ C) (hle : ∀ κ, f κ ≤ C * (∑ j, κ j * a j) ^ 4) (e : Fin 2 → ℝ) :
    HasDerivAt (fun t : ℝ => √(f fun i => t * e i)) 0 0 := by
  have bound : ∀ t : ℝ, √(f fun i => t * e i) ≤ √C * (∑ j, e j * a j) ^ 2 * t ^ 2 := fun t => by
    refine (Real.sqrt_le_sqrt (hle _)).trans (le_of_eq ?_)
    rw [Finset.sum_congr rfl fun j _ => mul_assoc t (e j) (a j), ← Finset.mul_sum,
      show (t * ∑ j, e j * a j) ^ 4 = ((t * ∑ j, e j * a j) ^ 2) ^ 2 by ring, Real.sqrt_mul hC, Real.sqrt_sq (sq_nonneg _)]
    ring
  have zero : √(f fun i => 0 * e i) = 0 := le_antisymm (by simpa using bound 0) (Real.sqrt_nonneg _)
  rw [hasDerivAt_iff_isLittleO_nhds_zero]
  refine Asymptotics.IsBigO.trans_isLittleO (g := fun t : ℝ => t ^ 2) ?_ (Asymptotics.isLittleO_pow_id (by norm_num))
  refine Asymptotics.IsBigO.of_bound (√C * (∑ j, e j * a j) ^ 2) (.of_forall fun t => ?_)
  simp only [zero_add, zero, sub_zero, smul_zero]
  rw [Real.norm_of_nonneg (Real.sqrt_nonneg _), Real.norm_of_nonneg (sq_nonneg _)]
  exact bound t

/-- C186.  The bending branch starts from the wave vector zero with the group velocity zero, in all directions. -/
theorem C186_velocity (hs : SqrtFn sq) (h : SolidMesh sq d ms) (hwf : WellFormed d) (hh : Heavy d) (h1 : dme d.cons d.elements = .ok (op, bc, neq))
    (h2 : assembler (Uel.eleFun sq) d.elements d.mats d.nodes neq op = .ok (Kg, Mg))
    (hc : Cell d bc neq nodesRef nodesIma dofsRef dofsIma refDof imaDof newNum) {a : Fin 2 → ℝ} (ha : Strip d.nodes (nodesIma.zip nodesRef) a)
    (hb : Branches 2 Kg Mg (d.nodes.map (List.drop 1)) nodesRef nodesIma dofsRef dofsIma refDof imaDof newNum l)
    {k : Fin (neq - dofsRef.length)} (hk : (k : ℕ) = 0) (e : Fin 2 → ℝ) : HasDerivAt (fun t : ℝ => √(l (fun i => t * e i) k)) 0 0 := by
  obtain ⟨C, hC, hle⟩ := C186_bending hs h hwf hh h1 h2 hc ha hb
  exact flat_start hC (fun κ => hle κ k hk) e

end

/-- Case for C186: the strip of squares of side 2. -/
example : ∃ op bc, ∃ Kg Mg : Matrix (Fin 8) (Fin 8) ℝ, ∃ l : (Fin 2 → ℝ) → Fin (8 - [(0 : ℤ), 1, 4, 5].length) → ℝ,
    dme (freeSquare []).cons (freeSquare []).elements = .ok (op, bc, 8) ∧
    assembler (Uel.eleFun Real.sqrt) (freeSquare []).elements (freeSquare []).mats (freeSquare []).nodes 8 op = .ok (Kg, Mg) ∧
    Branches 2 Kg Mg ((freeSquare []).nodes.map (List.drop 1)) [0, 2] [1, 3] [0, 1, 4, 5]
      [2, 3, 6, 7] (fun z => if z = 0 then some [0, 1] else if z = 2 then some [4, 5] else none)
      (fun z => if z = 1 then some [2, 3] else if z = 3 then some [6, 7] else none)
      [0, 1, 0, 1, 2, 3, 2, 3] l ∧
    (∃ C : ℝ, 0 ≤ C ∧ ∀ κ : Fin 2 → ℝ, l κ ⟨0, by decide⟩ ≤ C * (2 * κ 0) ^ 4) ∧ HasDerivAt (fun t : ℝ => √(l (fun i => t * ![1, 1] i) ⟨0, by decide⟩)) 0 0 := by
  obtain ⟨ms, op, Kg, Mg, l, i0, i1, i2, i3, hn, hm, hwf, hh, h1, h2, hc, -, hl⟩ := freeStrip
  have ha : Strip (freeSquare []).nodes ([(1 : ℤ), 3].zip [0, 2]) ![2, 0] := by
    refine ⟨fun e => by simpa using congrFun e 0, ?_⟩
    rw [hn]
    intro p hp i r hi hr j
    have : p = (1, 0) ∨ p = (3, 2) := by simpa using hp
    rcases this with rfl | rfl
    · obtain rfl : i = 1 := resolves_unique hi (by simp [Resolves])
      obtain rfl : r = 0 := resolves_unique hr (by simp [Resolves])
      fin_cases j <;> simp [coordOf, fieldOf, entry]
      norm_num
    · obtain rfl : i = 3 := resolves_unique hi (by simp [Resolves])
      obtain rfl : r = 2 := resolves_unique hr (by simp [Resolves])
      fin_cases j <;> simp [coordOf, fieldOf, entry]
      norm_num
  obtain ⟨C, hC, hle⟩ := C186_bending sqrtFn_real hm hwf hh h1 h2 hc ha hl
  refine ⟨op, _, Kg, Mg, l, h1, h2, hl, ⟨C, hC, fun κ => ?_⟩, C186_velocity sqrtFn_real hm hwf hh h1 h2 hc ha hl rfl _⟩
  have := hle κ ⟨0, by decide⟩ rfl
  simpa [Fin.sum_univ_two, mul_comm] using this

section
variable {sq : ℝ → ℝ} {cons mats nodes : Table ℝ} {elements : List (List ℤ)} {neq : ℕ} {ks ms : List (Member ℝ)}
  {Kg Mg : Matrix (Fin neq) (Fin neq) ℝ} {w : Fin neq → ℝ} {φ : Fin neq → Fin neq → ℝ} {bc : List (List ℤ)}
  {nodesRef nodesIma dofsRef dofsIma : List ℤ} {refDof imaDof : ℤ → Option (List ℤ)} {newNum : List ℤ}
  {l : (Fin 2 → ℝ) → Fin (neq - dofsRef.length) → ℝ}

/-- C186.  Frames that repeat along a line have a bending branch too. -/
theorem C186_frame_bending (hs : SqrtFn sq) (h : BeamModel sq cons mats nodes elements ks ms Kg Mg) (hm : Modes Kg Mg w φ)
    (hr : RigidFrame mats nodes elements) (hne : 0 < nodes.length) (hfree : ∀ p < nodes.length, ∀ j < 3, Free cons 3 p j)
    (heq : eqcounter cons 3 = .ok (neq, bc)) (ht : Tied neq nodesRef nodesIma dofsRef dofsIma refDof imaDof newNum)
    (hdir : ∀ x ∈ links nodesIma nodesRef refDof imaDof, ∀ i s : Fin neq, x.ima = ((i : ℕ) : ℤ) → x.ref = ((s : ℕ) : ℤ) →
      ∃ p q j, Resolves nodes.length x.nodeIma p ∧ Resolves nodes.length x.nodeRef q ∧ j < 3 ∧ DofEq bc neq p j i ∧ DofEq bc neq q j s)
    {a : Fin 2 → ℝ} (ha : Strip nodes (nodesIma.zip nodesRef) a)
    (hb : Branches 2 Kg Mg (nodes.map (List.drop 1)) nodesRef nodesIma dofsRef dofsIma refDof imaDof newNum l) :
    ∃ C : ℝ, 0 ≤ C ∧ ∀ (κ : Fin 2 → ℝ) (k : Fin (neq - dofsRef.length)), (k : ℕ) = 0 → l κ k ≤ C * (∑ j, κ j * a j) ^ 4 := by
  have hpos : ∀ i : Fin neq, ∃ p j, (p < nodes.length ∧ j < 3) ∧ ∀ p' j', j' < 3 → DofEq bc neq p' j' i → p' = p ∧ j' = j := by
    intro i
    obtain ⟨p, j, hf, he, -⟩ := (C01_numbering_bijective heq).2 i i.2
    exact ⟨p, j, ⟨by rw [← h.frame.size]; exact free_lt hf, hf.1⟩,
      fun p' j' hj' hd => (owns_of_eqcounter heq h.frame.codes hf he i.2).2.2 p' j' hj' hd⟩
  choose P J hPJ own using hpos
  have still : ∀ g : Motion ℝ, (Kg.map Complex.ofReal).mulVec (fun i => (g.mirrored nodes (P i) (J i) : ℂ)) = 0 := by
    intro g
    have := frame_still hs h hr hfree heq g (v := fun i => g.mirrored nodes (P i) (J i)) fun p hp j hj i hi => by
      obtain ⟨e1, e2⟩ := own i p j hj hi
      rw [e1, e2]
    funext i
    have := congrFun this i
    simp only [Matrix.mulVec, dotProduct, Matrix.map_apply, Pi.zero_apply] at this ⊢
    exact_mod_cast this
  have hL : 0 < a 0 ^ 2 + a 1 ^ 2 := by
    refine lt_of_le_of_ne (by positivity) fun e => ha.1 (funext fun j => ?_)
    fin_cases j
    · exact pow_eq_zero_iff two_ne_zero |>.1 (show a 0 ^ 2 = 0 by linarith [sq_nonneg (a 0), sq_nonneg (a 1)])
    · exact pow_eq_zero_iff two_ne_zero |>.1 (show a 1 ^ 2 = 0 by linarith [sq_nonneg (a 0), sq_nonneg (a 1)])
  let L := a 0 ^ 2 + a 1 ^ 2
  let S : ℕ → ℝ := fun p => (coordOf nodes p 0 * a 0 + coordOf nodes p 1 * a 1) / L
  let n : ℕ → ℕ → ℝ := Motion.mirrored ⟨a 1, a 0, 0⟩ nodes
  let G : ℕ → ℕ → ℝ := Motion.mirrored ⟨0, 0, 1⟩ nodes
  let W : ℕ → ℕ → ℝ := fun p j => G p j - S p * n p j
  let v : ℝ → Fin neq → ℂ := fun φ i => Complex.exp (Complex.I * ((φ * S (P i) : ℝ) : ℂ)) * ((n (P i) (J i) : ℂ) + Complex.I * ((φ * W (P i) (J i) : ℝ) : ℂ))
  let z : ℝ → Fin neq → ℂ := fun φ i => (n (P i) (J i) : ℂ) + (Complex.I * (φ : ℂ)) * (G (P i) (J i) : ℂ)
  have hz : ∀ φ, (Kg.map Complex.ofReal).mulVec (z φ) = 0 := fun φ => by
    have e : z φ = (fun i => (n (P i) (J i) : ℂ)) + (Complex.I * (φ : ℂ)) • fun i => (G (P i) (J i) : ℂ) := rfl
    rw [e, Matrix.mulVec_add, Matrix.mulVec_smul, still, still]
    simp
  let B : Fin neq → ℝ := fun i => 2 * S (P i) ^ 2 * |n (P i) (J i)| + |S (P i)| * |W (P i) (J i)|
  have near : ∀ φ i, ‖(v φ - z φ) i‖ ≤ B i * φ ^ 2 := by
    intro φ i
    have e : (v φ - z φ) i = (Complex.exp (Complex.I * ((φ * S (P i) : ℝ) : ℂ)) - 1 - Complex.I * ((φ * S (P i) : ℝ) : ℂ)) * (n (P i) (J i) : ℂ) +
        Complex.I * ((φ * W (P i) (J i) : ℝ) : ℂ) * (Complex.exp (Complex.I * ((φ * S (P i) : ℝ) : ℂ)) - 1) := by
      simp only [Pi.sub_apply, v, z, W]
      push_cast
      ring
    rw [e]
    have f1 := exp_second (φ * S (P i))
    have f2 := Real.norm_exp_I_mul_ofReal_sub_one_le (x := φ * S (P i))
    refine (norm_add_le _ _).trans ?_
    rw [norm_mul, norm_mul, norm_mul, Complex.norm_I, Complex.norm_real, Complex.norm_real, Real.norm_eq_abs, Real.norm_eq_abs, one_mul]
    rw [Real.norm_eq_abs] at f2
    have g1 := mul_le_mul_of_nonneg_right f1 (abs_nonneg (n (P i) (J i)))
    have g2 := mul_le_mul_of_nonneg_left f2 (abs_nonneg (φ * W (P i) (J i)))
    refine (add_le_add g1 g2).trans (le_of_eq ?_)
    simp only [B, abs_mul, mul_pow]
    rw [← sq_abs φ]
    ring
  obtain ⟨j, hj, hn⟩ : ∃ j < 3, n 0 j ≠ 0 := by
    by_contra hno
    push Not at hno
    have e0 := hno 0 (by omega)
    have e1 := hno 1 (by omega)
    simp only [n] at e0 e1
    rw [(mirrored_fields _ 0).1] at e0
    rw [(mirrored_fields _ 0).2.1] at e1
    simp only [zero_mul, add_zero] at e0 e1
    rw [e0, e1] at hL
    simp at hL
  obtain ⟨c1, c2⟩ := free_entry heq (hfree 0 hne j hj)
  have hi0 : DofEq bc neq 0 j (⟨_, c2⟩ : Fin neq) := dofEq_of_entry (a := ⟨_, c2⟩) c1
  generalize (⟨_, c2⟩ : Fin neq) = i0 at hi0
  have large : ∀ φ, n 0 j ^ 2 ≤ ∑ i, ‖v φ i‖ ^ 2 := fun φ => by
    refine le_trans ?_ (Finset.single_le_sum (f := fun i => ‖v φ i‖ ^ 2) (fun _ _ => sq_nonneg _) (Finset.mem_univ i0))
    simp only [v]
    rw [norm_mul, phase_norm, one_mul, ← (own i0 0 j hj hi0).2, ← (own i0 0 j hj hi0).1, ← Complex.normSq_eq_norm_sq, Complex.normSq_apply]
    simp
    nlinarith [mul_self_nonneg (φ * W 0 j)]
  obtain ⟨C, hC, hle⟩ := branch_trial (h.symm hs).1 ⟨(h.symm hs).2, modes_mass hm⟩ hb (c := n 0 j ^ 2) (by positivity)
  refine ⟨C * ∑ i, B i ^ 2, mul_nonneg hC (Finset.sum_nonneg fun _ _ => sq_nonneg _), fun κ k hk => ?_⟩
  obtain ⟨T, -, hT, -⟩ := hb κ
  obtain ⟨q, hq⟩ := bloch_reached ht hT (v := v (∑ j, κ j * a j)) fun x hx i r φ hi hr hφ => by
    have hpr : (x.nodeIma, x.nodeRef) ∈ nodesIma.zip nodesRef := by
      unfold links at hx
      rw [List.mem_flatMap] at hx
      obtain ⟨pr, hpr, hx⟩ := hx
      obtain ⟨y, -, rfl⟩ := List.mem_map.1 hx
      exact hpr
    obtain ⟨ki, kr, j, t1, t2, hj, d1, d2⟩ := hdir x hx i r hi hr
    rw [strip_shift ha hpr hφ]
    obtain ⟨p1, p2⟩ := own i ki j hj d1
    obtain ⟨p3, p4⟩ := own r kr j hj d2
    have c0 := ha.2 _ hpr ki kr t1 t2 0
    have c1 := ha.2 _ hpr ki kr t1 t2 1
    simp only [Fin.val_zero, Fin.val_one] at c0 c1
    have hL' : L ≠ 0 := hL.ne'
    have eS : S ki = 1 + S kr := by
      simp only [S]
      field_simp
      simp only [L]
      linear_combination a 0 * c0 + a 1 * c1
    have eN : n ki j = n kr j := by
      rcases (by omega : j = 0 ∨ j = 1 ∨ j = 2) with rfl | rfl | rfl <;>
        simp [n, (mirrored_fields _ ki).1, (mirrored_fields _ ki).2.1, (mirrored_fields _ ki).2.2, (mirrored_fields _ kr).1,
          (mirrored_fields _ kr).2.1, (mirrored_fields _ kr).2.2]
    have eW : W ki j = W kr j := by
      have : G ki j - G kr j = n kr j := by
        rcases (by omega : j = 0 ∨ j = 1 ∨ j = 2) with rfl | rfl | rfl <;>
          simp only [n, G, (mirrored_fields _ ki).1, (mirrored_fields _ ki).2.1, (mirrored_fields _ ki).2.2, (mirrored_fields _ kr).1,
            (mirrored_fields _ kr).2.1, (mirrored_fields _ kr).2.2] <;> linarith
      simp only [W]
      rw [eN, eS]
      linarith
    simp only [v]
    rw [← p1, ← p2, ← p3, ← p4, eS, eN, eW, ← mul_assoc, ← Complex.exp_add]
    congr 2
    push_cast
    ring
  have := hle κ T q (z (∑ j, κ j * a j)) hT (hz _) (by rw [hq]; exact large _) k hk
  rw [hq] at this
  refine this.trans ?_
  rw [mul_assoc]
  refine mul_le_mul_of_nonneg_left ?_ hC
  rw [Finset.sum_mul]
  refine Finset.sum_le_sum fun i _ => ?_
  refine (pow_le_pow_left₀ (norm_nonneg _) (near _ i) 2).trans (le_of_eq ?_)
  ring

/-- C186.  The bending branch of a frame starts with the group velocity zero. -/
theorem C186_frame_velocity (hs : SqrtFn sq) (h : BeamModel sq cons mats nodes elements ks ms Kg Mg) (hm : Modes Kg Mg w φ)
    (hr : RigidFrame mats nodes elements) (hne : 0 < nodes.length) (hfree : ∀ p < nodes.length, ∀ j < 3, Free cons 3 p j)
    (heq : eqcounter cons 3 = .ok (neq, bc)) (ht : Tied neq nodesRef nodesIma dofsRef dofsIma refDof imaDof newNum)
    (hdir : ∀ x ∈ links nodesIma nodesRef refDof imaDof, ∀ i s : Fin neq, x.ima = ((i : ℕ) : ℤ) → x.ref = ((s : ℕ) : ℤ) →
      ∃ p q j, Resolves nodes.length x.nodeIma p ∧ Resolves nodes.length x.nodeRef q ∧ j < 3 ∧ DofEq bc neq p j i ∧ DofEq bc neq q j s)
    {a : Fin 2 → ℝ} (ha : Strip nodes (nodesIma.zip nodesRef) a)
    (hb : Branches 2 Kg Mg (nodes.map (List.drop 1)) nodesRef nodesIma dofsRef dofsIma refDof imaDof newNum l)
    {k : Fin (neq - dofsRef.length)} (hk : (k : ℕ) = 0) (e : Fin 2 → ℝ) : HasDerivAt (fun t : ℝ => √(l (fun i => t * e i) k)) 0 0 := by
  obtain ⟨C, hC, hle⟩ := C186_frame_bending hs h hm hr hne hfree heq ht hdir ha hb
  exact flat_start hC (fun κ => hle κ k hk) e

end

/-- Case for C186: the frame of the tests without supports, repeated with its last node on its first. -/
example : ∃ (Kg Mg : Matrix (Fin 9) (Fin 9) ℝ) (ks ms : List (Member ℝ)) (l : (Fin 2 → ℝ) → Fin (9 - [(0 : ℤ), 1, 2].length) → ℝ),
    BeamModel Real.sqrt [[0, 0, 0], [0, 0, 0], [0, 0, 0]] testFrame.2.2.1 testFrame.2.2.2.1 testFrame.2.1 ks ms Kg Mg ∧
    Branches 2 Kg Mg (testFrame.2.2.2.1.map (List.drop 1)) [0] [2] [0, 1, 2] [6, 7, 8] (fun z => if z = 0 then some [0, 1, 2] else none)
      (fun z => if z = 2 then some [6, 7, 8] else none) [0, 1, 2, 3, 4, 5, 0, 1, 2] l ∧
    ∃ C : ℝ, 0 ≤ C ∧ ∀ κ, l κ ⟨0, by simp⟩ ≤ C * (4 * κ 0 + 6 * κ 1) ^ 4 := by
  obtain ⟨Kg, Mg, ks, ms, w, φ, hB, hm, heq⟩ := freeFrame_vibrates
  obtain ⟨T, hT⟩ : ∃ T, blochTransformMat [(0 : ℝ), 0] (testFrame.2.2.2.1.map (List.drop 1)) 9 [0] [2] [0, 1, 2] [6, 7, 8]
      (fun z => if z = 0 then some [0, 1, 2] else none) (fun z => if z = 2 then some [6, 7, 8] else none) [0, 1, 2, 3, 4, 5, 0, 1, 2] = .ok T :=
    ⟨_, rfl⟩
  obtain ⟨l, hl, -⟩ := C180_frame_exists (D := 2) sqrtFn_real hB hm freeFrame_tied hT rfl
  have ha : Strip testFrame.2.2.2.1 ([(2 : ℤ)].zip [0]) ![4, 6] := by
    refine ⟨fun e => by simpa using congrFun e 0, fun p hp i r hi hr j => ?_⟩
    obtain rfl : p = (2, 0) := by simpa using hp
    obtain rfl : i = 2 := resolves_unique hi (by simp [Resolves, testFrame])
    obtain rfl : r = 0 := resolves_unique hr (by simp [Resolves, testFrame])
    fin_cases j <;> simp [testFrame, coordOf, fieldOf, entry]
  obtain ⟨C, hC, hle⟩ := C186_frame_bending sqrtFn_real hB hm testFrame_rigid (by simp [testFrame]) (fun p hp j hj => by
    have hp : p < 3 := hp
    refine ⟨hj, 0, ?_, by norm_num, by norm_num⟩
    rcases (by omega : p = 0 ∨ p = 1 ∨ p = 2) with rfl | rfl | rfl <;> rcases (by omega : j = 0 ∨ j = 1 ∨ j = 2) with rfl | rfl | rfl <;> simp [entry])
    heq freeFrame_tied (fun x hx i s h1 h2 => by
      have hlk : links [2] [0] (fun z => if z = 0 then some [0, 1, 2] else none) (fun z => if z = 2 then some [6, 7, 8] else none) =
        [⟨6, 0, 2, 0⟩, ⟨7, 1, 2, 0⟩, ⟨8, 2, 2, 0⟩] := rfl
      rw [hlk] at hx
      simp only [List.mem_cons, List.not_mem_nil, or_false] at hx
      have r2 : Resolves testFrame.2.2.2.1.length 2 2 := by simp [Resolves, testFrame]
      have r0 : Resolves testFrame.2.2.2.1.length 0 0 := by simp [Resolves, testFrame]
      rcases hx with rfl | rfl | rfl
      · exact ⟨2, 0, 0, r2, r0, by omega, dofEq_of_entry (by rw [← h1]; rfl), dofEq_of_entry (by rw [← h2]; rfl)⟩
      · exact ⟨2, 0, 1, r2, r0, by omega, dofEq_of_entry (by rw [← h1]; rfl), dofEq_of_entry (by rw [← h2]; rfl)⟩
      · exact ⟨2, 0, 2, r2, r0, by omega, dofEq_of_entry (by rw [← h1]; rfl), dofEq_of_entry (by rw [← h2]; rfl)⟩) ha hl
  refine ⟨Kg, Mg, ks, ms, l, hB, hl, C, hC, fun κ => ?_⟩
  have := hle κ ⟨0, by simp⟩ rfl
  simpa [Fin.sum_univ_two, mul_comm] using this

end SolidsPy
