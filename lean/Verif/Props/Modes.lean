import Verif.Proofs.NullSpace

/-! # C94: zero energy modes of the elements

Besides `Skew` (C40), `sample` and `affine` (Spec/Element), the statements use the affine elements of
Spec/Modes. -/

set_option linter.unusedSectionVars false

namespace SolidsPy
open Spec Fem Uel Gauss Matrix

section
variable {K : Type} [Field K] [LinearOrder K] [IsStrictOrderedRing K] {n : ℕ}

theorem zip_left {α β : Type} {a : List α} {b : List β} (h : a.length ≤ b.length) {x : α} (hx : x ∈ a) :
    ∃ y, (x, y) ∈ a.zip b := by
  induction a generalizing b with
  | nil => simp at hx
  | cons z t ih =>
    match b, h with
    | w :: b, h =>
      rcases List.mem_cons.1 hx with rfl | hx
      · exact ⟨w, by simp⟩
      · obtain ⟨y, hy⟩ := ih (by simpa using h) hx
        exact ⟨y, by simp [hy]⟩

theorem mem_prodRepeat_two {l : List ℚ} {x y : ℚ} (hx : x ∈ l) (hy : y ∈ l) : [x, y] ∈ prodRepeat l 2 := by
  simp [prodRepeat, hx, hy]

theorem mem_prodRepeat_three {l : List ℚ} {x y z : ℚ} (hx : x ∈ l) (hy : y ∈ l) (hz : z ∈ l) :
    [x, y, z] ∈ prodRepeat l 3 := by
  simp [prodRepeat, hx, hy, hz]

theorem rule_at {f : K → K → Shape K 2 n} {pts wts : List ℚ}
    (h : (prodRepeat pts 2).length ≤ (prodRepeat wts 2).length) {x y : ℚ} (hx : x ∈ pts) (hy : y ∈ pts) :
    ∃ w, (f x y, w) ∈ ruleQuad f pts wts := by
  obtain ⟨w, hw⟩ := zip_left (b := (prodRepeat wts 2).map List.prod) (by simpa using h)
    (mem_prodRepeat_two hx hy)
  exact ⟨_, List.mem_map.2 ⟨_, hw, rfl⟩⟩

theorem hex8_at {x y z : ℚ} (hx : x ∈ pts1d2) (hy : y ∈ pts1d2) (hz : z ∈ pts1d2) :
    ∃ w, (shapeHex8 (K := K) x y z, w) ∈ ruleHex8 := by
  obtain ⟨w, hw⟩ := zip_left (b := (prodRepeat wts1d2 3).map List.prod) (by decide +kernel)
    (mem_prodRepeat_three hx hy hz)
  exact ⟨_, List.mem_map.2 ⟨_, hw, rfl⟩⟩

/-- Zero force means zero strain at every point of the rule. -/
theorem plane_strain_zero {f : Uel K} {R : QRule K 2 n} (hf : PlaneRule n f R)
    {X : Matrix (Fin n) (Fin 2) K} {E nu : K} {rest : List K} {k m}
    (h : Returns f X (E :: nu :: rest) k m) (hE : 0 < E) (h1 : -1 < nu) (h2 : nu < 1)
    {u} (h0 : k.mulVec u = 0) :
    ∀ x ∈ R, (x.1.2 * X).det ≠ 0 ∧ (bMat2 (grad x.1.2 X)).mulVec u = 0 := by
  obtain ⟨hg, st, hr⟩ := returns_plane hf
  obtain ⟨C, ρ, hm, ha, hk, _⟩ := (hr _ _ _ _).1 h
  have hz := ((C41_plane_zero_energy hf h hE h1 h2 u).2.1 (by rw [h0, dotProduct_zero]))
  exact fun x hx => ⟨(tol_pos.trans (ha x hx)).ne', hz x hx _ _ _ (diff2d_ok.2 ⟨ha x hx, rfl⟩)⟩

/-- C94. A bilinear quadrilateral of any accepted shape has no hourglass modes: the fields without nodal
forces are the rigid motions. -/
theorem C94_quad4_null_space {X : Matrix (Fin 4) (Fin 2) K} {E nu : K} {rest : List K} {k m}
    (h : Returns elastQuad4 X (E :: nu :: rest) k m) (hE : 0 < E) (h1 : -1 < nu) (h2 : nu < 1) (u) :
    k.mulVec u = 0 ↔ ∃ c G, Skew G ∧ u = sample X (affine c G) := by
  constructor
  · intro h0
    have hz := plane_strain_zero .quad4 h hE h1 h2 h0
    obtain ⟨g, hp, hg⟩ : ∃ g : ℚ, pts1d2 = [-g, g] ∧ g ≠ 0 := ⟨_, rfl, by decide +kernel⟩
    have at' : ∀ r s : K, (r = (g : K) ∨ r = -(g : K)) → (s = (g : K) ∨ s = -(g : K)) →
        ∃ w, (shapeQuad4 r s, w) ∈ ruleQuad shapeQuad4 pts1d2 wts1d2 := by
      have mem : ∀ r : K, (r = (g : K) ∨ r = -(g : K)) → ∃ x : ℚ, x ∈ pts1d2 ∧ r = x := by
        rintro r (rfl | rfl)
        · exact ⟨g, by rw [hp]; simp, rfl⟩
        · exact ⟨-g, by rw [hp]; simp, by push_cast; rfl⟩
      intro r s hr hs
      obtain ⟨x, hx, rfl⟩ := mem r hr
      obtain ⟨y, hy, rfl⟩ := mem s hs
      exact rule_at (by decide +kernel) hx hy
    refine quad4_flat (g := (g : K)) (by exact_mod_cast hg) (fun r s hr hs => ?_) fun r s hr hs => ?_
    · obtain ⟨w, hw⟩ := at' r s hr hs
      exact (hz _ hw).1
    · obtain ⟨w, hw⟩ := at' r s hr hs
      exact (hz _ hw).2
  · rintro ⟨c, G, hG, rfl⟩
    exact C40_plane_rigid .quad4 h c hG

/-- C94. The quadratic elements with affine shape (straight sides, midside nodes in the middle; parallelograms)
have no zero energy modes but the rigid motions. -/
theorem C94_quadratic_null_space {f : Uel K} {ref : Fin n → K × K} (hf : Quadratic n f ref)
    {X : Matrix (Fin n) (Fin 2) K} {E nu : K} {rest : List K} {k m}
    (h : Returns f X (E :: nu :: rest) k m) (hE : 0 < E) (h1 : -1 < nu) (h2 : nu < 1)
    {c : Fin 2 → K} {A : Matrix (Fin 2) (Fin 2) K} (hX : AffineShape ref c A X) (u) :
    k.mulVec u = 0 ↔ ∃ c G, Skew G ∧ u = sample X (affine c G) := by
  have det : ∀ {D : Matrix (Fin 2) (Fin n) K}, LinExact ref D → (D * X).det ≠ 0 → A.det ≠ 0 := by
    intro D hD hd h0
    apply hd
    have hj := affine_jac hX hD
    rw [Matrix.det_fin_two] at h0 ⊢
    rw [hj, hj, hj, hj, ← h0]
    ring
  have tensor : ∀ {sh : K → K → Shape K 2 n} {m : Fin 9 → K} (hf : PlaneRule n f (ruleQuad sh pts1d3 wts1d3))
      (hD : ∀ r s, Differentiates ref (sh r s).2 r s m) (hm : m 0 ≠ 0 ∧ m 1 ≠ 0 ∧ m 2 ≠ 0)
      (hI : ∀ f : Fin n → K, ∃ k : Fin 9 → K, (∀ i, m i = 0 → k i = 0) ∧ ∀ a, f a = biquad k (ref a)),
      k.mulVec u = 0 → ∃ c G, Skew G ∧ u = sample X (affine c G) := by
    intro sh m' hf hD hm hI h0
    have hz := plane_strain_zero hf h hE h1 h2 h0
    obtain ⟨g, hp, hg⟩ : ∃ g : ℚ, pts1d3 = [-g, 0, g] ∧ g ≠ 0 := ⟨_, rfl, by decide +kernel⟩
    have at' : ∀ r s : K, (r = 0 ∨ r = (g : K) ∨ r = -(g : K)) → (s = 0 ∨ s = (g : K) ∨ s = -(g : K)) →
        ∃ w, (sh r s, w) ∈ ruleQuad sh pts1d3 wts1d3 := by
      have mem : ∀ r : K, (r = 0 ∨ r = (g : K) ∨ r = -(g : K)) → ∃ x : ℚ, x ∈ pts1d3 ∧ r = x := by
        rintro r (rfl | rfl | rfl)
        · exact ⟨0, by rw [hp]; simp, by push_cast; rfl⟩
        · exact ⟨g, by rw [hp]; simp, rfl⟩
        · exact ⟨-g, by rw [hp]; simp, by push_cast; rfl⟩
      intro r s hr hs
      obtain ⟨x, hx, rfl⟩ := mem r hr
      obtain ⟨y, hy, rfl⟩ := mem s hs
      exact rule_at (by decide +kernel) hx hy
    have S := flat_tensor (D := fun r s => (sh r s).2) (g := (g : K)) (by exact_mod_cast hg) hD hI
    obtain ⟨w, hw⟩ := at' 0 0 (.inl rfl) (.inl rfl)
    refine affine_flat hX ?_ S (det (linExact_of (hD 0 0) hm) (hz _ hw).1) ?_
    · intro D hDm
      simp only [List.mem_cons, List.not_mem_nil, or_false] at hDm
      rcases hDm with rfl | rfl | rfl | rfl | rfl | rfl | rfl | rfl | rfl <;> exact linExact_of (hD _ _) hm
    · intro D hDm
      have : ∃ r s : K, (r = 0 ∨ r = (g : K) ∨ r = -(g : K)) ∧ (s = 0 ∨ s = (g : K) ∨ s = -(g : K)) ∧
          D = (sh r s).2 := by
        simp only [List.mem_cons, List.not_mem_nil, or_false] at hDm
        rcases hDm with rfl | rfl | rfl | rfl | rfl | rfl | rfl | rfl | rfl <;> exact ⟨_, _, by simp, by simp, rfl⟩
      obtain ⟨r, s, hr, hs, rfl⟩ := this
      obtain ⟨w, hw⟩ := at' r s hr hs
      exact (hz _ hw).2
  constructor
  · cases hf with
    | quad9 => exact tensor .quad9 diff_quad9 ⟨one_ne_zero, one_ne_zero, one_ne_zero⟩ interp_quad9
    | quad8 => exact tensor .quad8 diff_quad8 ⟨one_ne_zero, one_ne_zero, one_ne_zero⟩ interp_quad8
    | tri6 =>
      intro h0
      have hz := plane_strain_zero .tri6 h hE h1 h2 h0
      obtain ⟨a, b, rest', w1, w2, w3, wr, hp, hw, hab⟩ : ∃ (a b : ℚ) (rest' : List (ℚ × ℚ)) (w1 w2 w3 : ℚ)
          (wr : List ℚ), ptsTri3 = (a, a) :: (b, a) :: (a, b) :: rest' ∧ wtsTri3 = w1 :: w2 :: w3 :: wr ∧
          b - a ≠ 0 := ⟨_, _, _, _, _, _, _, rfl, rfl, by decide +kernel⟩
      have at' : ∀ D ∈ [(shapeTri6 (a : K) a).2, (shapeTri6 (b : K) a).2, (shapeTri6 (a : K) b).2],
          (D * X).det ≠ 0 ∧ (bMat2 (grad D X)).mulVec u = 0 := by
        unfold ruleTri6 at hz
        rw [hp, hw] at hz
        simp only [List.zip_cons_cons, List.map_cons, List.forall_mem_cons] at hz
        simp only [List.forall_mem_cons, List.not_mem_nil, false_imp_iff, implies_true, and_true]
        exact ⟨hz.1, hz.2.1, hz.2.2.1⟩
      have hl : ∀ r s : K, LinExact triNode (shapeTri6 r s).2 := fun r s =>
        linExact_of (diff_tri6 r s) ⟨one_ne_zero, one_ne_zero, one_ne_zero⟩
      have S := flat_tri (D := fun r s => (shapeTri6 r s).2) (a := (a : K)) (b := (b : K))
        (by exact_mod_cast hab) diff_tri6 interp_tri6
      refine affine_flat hX ?_ S (det (hl _ _) (at' _ List.mem_cons_self).1) fun D hD => (at' D hD).2
      intro D hD
      simp only [List.mem_cons, List.not_mem_nil, or_false] at hD
      rcases hD with rfl | rfl | rfl <;> exact hl _ _
  · rintro ⟨c, G, hG, rfl⟩
    refine C40_plane_rigid ?_ h c hG
    cases hf
    · exact .tri6
    · exact .quad9
    · exact .quad8

/-- Zero force means zero strain at every point of the rule. -/
theorem solid_strain_zero {f : Uel K} {R : QRule K 3 n} (hf : SolidRule n f R)
    {X : Matrix (Fin n) (Fin 3) K} {E nu ρ : K} {k m}
    (h : Returns f X [E, nu, ρ] k m) (hE : 0 < E) (h1 : -1 < nu) (h2 : nu < 1 / 2)
    {u} (h0 : k.mulVec u = 0) :
    ∀ x ∈ R, (x.1.2 * X).det ≠ 0 ∧ (bMat3 (grad x.1.2 X)).mulVec u = 0 := by
  obtain ⟨hg, hr⟩ := returns_solid hf
  obtain ⟨C, ρ, hm, ha, hk, _⟩ := (hr _ _ _ _).1 h
  have hz := ((C41_solid_zero_energy hf h hE h1 h2 u).2.1 (by rw [h0, dotProduct_zero]))
  exact fun x hx => ⟨(tol_pos.trans (ha x hx)).ne', hz x hx _ _ _ (diff3d_ok.2 ⟨ha x hx, rfl⟩)⟩

/-- C94. The linear tetrahedron. -/
theorem C94_tet4_null_space {X : Matrix (Fin 4) (Fin 3) K} {E nu ρ : K} {k m}
    (h : Returns elastTet4 X [E, nu, ρ] k m) (hE : 0 < E) (h1 : -1 < nu) (h2 : nu < 1 / 2) (u) :
    k.mulVec u = 0 ↔ ∃ c G, Skew G ∧ u = sample X (affine c G) := by
  constructor
  · intro h0
    have hz := solid_strain_zero .tet4 h hE h1 h2 h0
    obtain ⟨x, hx⟩ := List.exists_mem_of_ne_nil _ (returns_solid (K := K) .tet4).1.ne
    obtain ⟨hd, hu⟩ := hz x hx
    obtain ⟨y, _, rfl⟩ := List.mem_map.1 hx
    have hsk := skew_of_strain hu
    dsimp only at hd hsk
    generalize hD : (shapeTet4 (y.1.1 : K) (y.1.2.1 : K) (y.1.2.2 : K)).2 = D at hd hsk
    have hJ : (D * X) * ((D * X).det⁻¹ • (D * X).adjugate) = 1 := by
      rw [Matrix.mul_smul, Matrix.mul_adjugate, smul_smul, inv_mul_cancel₀ hd, one_smul]
    have hJg : (D * X) * grad D X = D := by
      unfold grad
      rw [← Matrix.mul_assoc, hJ, Matrix.one_mul]
    let G : Matrix (Fin 3) (Fin 3) K := Matrix.of fun k i => ∑ a, grad D X i a * u (a, k)
    have hdiff : ∀ (p k : Fin 3), ∑ a, D p a * u (a, k) = ∑ i, (D * X) p i * G k i := by
      intro p k
      conv_lhs => rw [← hJg]
      simp only [Matrix.mul_apply (M := D * X), Finset.sum_mul, G, Matrix.of_apply, Finset.mul_sum]
      rw [Finset.sum_comm]
      exact Finset.sum_congr rfl fun i _ => Finset.sum_congr rfl fun a _ => by ring
    refine ⟨fun k => u (0, k) - ∑ i, G k i * X 0 i, G, fun i j => hsk j i, ?_⟩
    funext ⟨a, k⟩
    have h1 := hdiff 0 k
    have h2 := hdiff 1 k
    have h3 := hdiff 2 k
    simp [← hD, shapeTet4, Fin.sum_univ_three, Fin.sum_univ_four, Matrix.mul_apply] at h1 h2 h3
    unfold sample affine
    simp only [Fin.sum_univ_three]
    fin_cases a
    · simp
    · simp
      linear_combination h1
    · simp
      linear_combination h2
    · simp
      linear_combination h3
  · rintro ⟨c, G, hG, rfl⟩
    exact C40_solid_rigid .tet4 h c hG

/-- C94. The hexahedron in the shape of a parallelepiped. -/
theorem C94_hex8_null_space {X : Matrix (Fin 8) (Fin 3) K} {E nu ρ : K} {k m}
    (h : Returns elastHex8 X [E, nu, ρ] k m) (hE : 0 < E) (h1 : -1 < nu) (h2 : nu < 1 / 2)
    {c : Fin 3 → K} {A : Matrix (Fin 3) (Fin 3) K} (hX : AffineSolid hexNode c A X) (u) :
    k.mulVec u = 0 ↔ ∃ c G, Skew G ∧ u = sample X (affine c G) := by
  constructor
  · intro h0
    have hz := solid_strain_zero .hex8 h hE h1 h2 h0
    obtain ⟨g, hp, hg⟩ : ∃ g : ℚ, pts1d2 = [-g, g] ∧ g ≠ 0 := ⟨_, rfl, by decide +kernel⟩
    have mem : ∀ r : K, (r = (g : K) ∨ r = -(g : K)) → ∃ x : ℚ, x ∈ pts1d2 ∧ r = x := by
      rintro r (rfl | rfl)
      · exact ⟨g, by rw [hp]; simp, rfl⟩
      · exact ⟨-g, by rw [hp]; simp, by push_cast; rfl⟩
    have at' : ∀ r s t : K, (r = (g : K) ∨ r = -(g : K)) → (s = (g : K) ∨ s = -(g : K)) →
        (t = (g : K) ∨ t = -(g : K)) → ∃ w, (shapeHex8 r s t, w) ∈ ruleHex8 := by
      intro r s t hr hs ht
      obtain ⟨x, hx, rfl⟩ := mem r hr
      obtain ⟨y, hy, rfl⟩ := mem s hs
      obtain ⟨z, hz, rfl⟩ := mem t ht
      exact hex8_at hx hy hz
    have hA : A.det ≠ 0 := by
      obtain ⟨w, hw⟩ := at' g g g (.inl rfl) (.inl rfl) (.inl rfl)
      have := (hz _ hw).1
      intro hA
      apply this
      have hJ : (shapeHex8 (g : K) g g).2 * X = A.transpose := by
        ext p i
        rw [hex8_jac hX, Matrix.transpose_apply]
      dsimp only
      rw [hJ, Matrix.det_transpose, hA]
    refine hex8_flat (g := (g : K)) hX hA (by exact_mod_cast hg) fun r s t hr hs ht => ?_
    obtain ⟨w, hw⟩ := at' r s t hr hs ht
    exact (hz _ hw).2
  · rintro ⟨c, G, hG, rfl⟩
    exact C40_solid_rigid .hex8 h c hG

end

/-! ## Cases -/

theorem plane_returns {n : ℕ} {f : Uel ℚ} (hf : PlaneElement n f) {Y : Matrix (Fin n) (Fin 2) ℚ} {params : List ℚ}
    (h : (f (matRows Y) params).isOk = true) : ∃ k m, Returns f Y params k m := by
  obtain ⟨⟨A, B⟩, h⟩ := isOk_exists h
  obtain ⟨X, k, m, h1, h2, h3, _⟩ := C38_plane_shape hf h
  have hX : X = Y := by
    have := toMat_matRows X
    rw [← h1, toMat_matRows, Except.ok.injEq] at this
    exact this.symm
  subst hX
  exact ⟨k, m, _, _, h, h2, h3⟩

theorem solid_returns {n : ℕ} {f : Uel ℚ} (hf : SolidElement n f) {Y : Matrix (Fin n) (Fin 3) ℚ} {params : List ℚ}
    (h : (f (matRows Y) params).isOk = true) : ∃ k m, Returns f Y params k m := by
  obtain ⟨⟨A, B⟩, h⟩ := isOk_exists h
  obtain ⟨X, k, m, h1, h2, h3, _⟩ := C38_solid_shape hf h
  have hX : X = Y := by
    have := toMat_matRows X
    rw [← h1, toMat_matRows, Except.ok.injEq] at this
    exact this.symm
  subst hX
  exact ⟨k, m, _, _, h, h2, h3⟩

/-- The hourglass field of a trapezium is resisted. -/
example : ∃ k m, Returns elastQuad4 (!![0, 0; 3, 0; 2, 1; 0, 1] : Matrix (Fin 4) (Fin 2) ℚ) [1, 1/4] k m ∧
    k.mulVec (fun p => ![![1, 0], ![-1, 0], ![1, 0], ![-1, 0]] p.1 p.2) ≠ 0 := by
  obtain ⟨k, m, h⟩ := plane_returns (Y := !![0, 0; 3, 0; 2, 1; 0, 1]) .quad4 (params := [1, 1/4]) (by decide +kernel)
  refine ⟨k, m, h, fun h0 => ?_⟩
  obtain ⟨c, G, hG, hu⟩ := (C94_quad4_null_space h (by norm_num) (by norm_num) (by norm_num) _).1 h0
  have a := congrFun hu (0, 0)
  have b := congrFun hu (1, 0)
  have d : G 0 0 = 0 := skew_diag hG 0
  simp [sample, affine, Fin.sum_univ_two, d] at a b
  linarith

/-- A straight sided quadratic triangle. -/
example : ∃ k m, Returns elastTri6 (!![0, 0; 2, 0; 1, 2; 1, 0; 3/2, 1; 1/2, 1] : Matrix (Fin 6) (Fin 2) ℚ) [1, 1/4] k m ∧
    AffineShape triNode 0 !![2, 1; 0, 2] (!![0, 0; 2, 0; 1, 2; 1, 0; 3/2, 1; 1/2, 1] : Matrix (Fin 6) (Fin 2) ℚ) ∧
    k.mulVec (fun p => ![![0, 0], ![0, 0], ![0, 0], ![1, 0], ![0, 0], ![0, 0]] p.1 p.2) ≠ 0 := by
  obtain ⟨k, m, h⟩ := plane_returns (Y := !![0, 0; 2, 0; 1, 2; 1, 0; 3/2, 1; 1/2, 1]) .tri6 (params := [1, 1/4])
    (by decide +kernel)
  have hX : AffineShape triNode 0 !![2, 1; 0, 2]
      (!![0, 0; 2, 0; 1, 2; 1, 0; 3/2, 1; 1/2, 1] : Matrix (Fin 6) (Fin 2) ℚ) := by
    intro a i
    fin_cases a <;> fin_cases i <;> norm_num [triNode]
  refine ⟨k, m, h, hX, fun h0 => ?_⟩
  obtain ⟨c, G, hG, hu⟩ :=
    (C94_quadratic_null_space .tri6 h (by norm_num) (by norm_num) (by norm_num) hX _).1 h0
  have a := congrFun hu (0, 0)
  have b := congrFun hu (3, 0)
  have d : G 0 0 = 0 := skew_diag hG 0
  simp [sample, affine, Fin.sum_univ_two, d] at a b
  linarith

/-- A cube, and one of its hourglass fields. -/
example : ∃ (X : Matrix (Fin 8) (Fin 3) ℚ) (k m : _), AffineSolid hexNode 0 1 X ∧
    Returns elastHex8 X [1, 1/4, 1] k m ∧
    k.mulVec (fun p => ![![1, 0, 0], ![-1, 0, 0], ![1, 0, 0], ![-1, 0, 0], ![-1, 0, 0], ![1, 0, 0], ![-1, 0, 0],
      ![1, 0, 0]] p.1 p.2) ≠ 0 := by
  obtain ⟨k, m, h⟩ := solid_returns (Y := fun a => ![(hexNode a).1, (hexNode a).2.1, (hexNode a).2.2]) .hex8
    (params := [1, 1/4, 1]) (by decide +kernel)
  have hX : AffineSolid hexNode 0 1
      (fun a => ![(hexNode a).1, (hexNode a).2.1, (hexNode a).2.2] : Matrix (Fin 8) (Fin 3) ℚ) := by
    intro a i
    fin_cases i <;> simp [Matrix.one_apply]
  refine ⟨_, k, m, hX, h, fun h0 => ?_⟩
  obtain ⟨c, G, hG, hu⟩ := (C94_hex8_null_space h (by norm_num) (by norm_num) (by norm_num) hX _).1 h0
  have a := congrFun hu (0, 0)
  have b := congrFun hu (1, 0)
  have d : G 0 0 = 0 := skew_diag hG 0
  simp [sample, affine, Fin.sum_univ_three, d, hexNode] at a b
  linarith

end SolidsPy
