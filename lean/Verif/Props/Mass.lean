import Verif.Props.Modes

/-! # C113: the mass matrices of the elements are positive definite -/

set_option linter.unusedSectionVars false

namespace SolidsPy
open Spec Fem Uel Gauss Matrix

section
variable {K : Type} [Field K] [LinearOrder K] [IsStrictOrderedRing K] {d n : ℕ}

/-- Nodal values are determined by the values of the interpolated function at the points of the rule. -/
def Separates (R : QRule K d n) : Prop := ∀ v : Fin n → K, (∀ x ∈ R, ∑ a, x.1.1 a * v a = 0) → v = 0

theorem sep_tri3 : Separates (ruleTri3 (K := K)) := by
  intro v h
  simp only [ruleTri3, ptsTri2, wtsTri2, List.zip_cons_cons, List.zip_nil_right, List.map_cons, List.map_nil, List.forall_mem_cons,
    List.not_mem_nil, false_imp_iff, implies_true, and_true, shapeTri3, Fin.sum_univ_three, Matrix.cons_val] at h
  obtain ⟨h0, h1, h2⟩ := h
  norm_num at h0 h1 h2
  funext a
  fin_cases a <;> simp <;> linarith

theorem sep_tri6 : Separates (ruleTri6 (K := K)) := by
  intro v h
  simp only [ruleTri6, ptsTri3, wtsTri3, List.zip_cons_cons, List.zip_nil_right, List.map_cons, List.map_nil, List.forall_mem_cons,
    List.not_mem_nil, false_imp_iff, implies_true, and_true, shapeTri6, Fin.sum_univ_six, Matrix.cons_val] at h
  obtain ⟨h0, h1, h2, h3, h4, h5, -⟩ := h
  norm_num at h0 h1 h2 h3 h4 h5
  funext a
  fin_cases a <;> simp only [Fin.zero_eta, Fin.mk_one, Fin.reduceFinMk, Pi.zero_apply]
  · linear_combination (70944943965245365985029812832790893554710992614991 / 33826067931458359854727225226754208452619666332096) * h0 + (2792014913710637739986703274746251815 / 10480623821299188932641487790387929664) * h1 + (2792014913710637739986703274746251815 / 10480623821299188932641487790387929664) * h2 + (-4143693321606415114491251198648726945 / 5406713631579271075697238950037000783) * h3 + (-316955658914580946522430099389352350025374199585 / 3255994068465042555336132952401169155485420669376) * h4 + (-4143693321606415114491251198648726945 / 5406713631579271075697238950037000783) * h5
  · linear_combination (3003729795319899898731799479454665114903664204997 / 11275355977152786618242408408918069484206555444032) * h0 + (27026645320089534825238201815535690883356597279285 / 12886121116749535390693661720788674192166192674496) * h1 + (3432834051797560544178711085329975603356597279285 / 12886121116749535390693661720788674192166192674496) * h2 + (-5094747690906075832056278967491213759912887576355 / 6647654556451264121688464534844286105432746200237) * h3 + (-831795541373241774361930977216305306675124733195 / 1085331356155014185112044317467056385161806889792) * h4 + (-647117803615816196470314465628509179912887576355 / 6647654556451264121688464534844286105432746200237) * h5
  · linear_combination (3003729795319899898731799479454665114903664204997 / 11275355977152786618242408408918069484206555444032) * h0 + (3432834051797560544178711085329975603356597279285 / 12886121116749535390693661720788674192166192674496) * h1 + (27026645320089534825238201815535690883356597279285 / 12886121116749535390693661720788674192166192674496) * h2 + (-647117803615816196470314465628509179912887576355 / 6647654556451264121688464534844286105432746200237) * h3 + (-831795541373241774361930977216305306675124733195 / 1085331356155014185112044317467056385161806889792) * h4 + (-5094747690906075832056278967491213759912887576355 / 6647654556451264121688464534844286105432746200237) * h5
  · linear_combination (750932448830724661929535211859148149903664204997 / 11275355977152786618242408408918069484206555444032) * h0 + (858208512949590599642074891703104478356597279285 / 12886121116749535390693661720788674192166192674496) * h1 + (1607410252328040288290529526600246838356597279285 / 12886121116749535390693661720788674192166192674496) * h2 + (7480342085460838152709512494569303640087112423645 / 6647654556451264121688464534844286105432746200237) * h3 + (-207948885343338817547970505173044711675124733195 / 1085331356155014185112044317467056385161806889792) * h4 + (-1273686922727914255028430254499344069912887576355 / 6647654556451264121688464534844286105432746200237) * h5
  · linear_combination (1406483970787071723917724479454665114903664204997 / 11275355977152786618242408408918069484206555444032) * h0 + (232667909475885759456577758248750605 / 3493541273766396310880495930129309888) * h1 + (232667909475885759456577758248750605 / 3493541273766396310880495930129309888) * h2 + (-345307776800533525974447066216242315 / 1802237877193090358565746316679000261) * h3 + (1221280340483033587404794022783694693324875266805 / 1085331356155014185112044317467056385161806889792) * h4 + (-345307776800533525974447066216242315 / 1802237877193090358565746316679000261) * h5
  · linear_combination (750932448830724661929535211859148149903664204997 / 11275355977152786618242408408918069484206555444032) * h0 + (1607410252328040288290529526600246838356597279285 / 12886121116749535390693661720788674192166192674496) * h1 + (858208512949590599642074891703104478356597279285 / 12886121116749535390693661720788674192166192674496) * h2 + (-1273686922727914255028430254499344069912887576355 / 6647654556451264121688464534844286105432746200237) * h3 + (-207948885343338817547970505173044711675124733195 / 1085331356155014185112044317467056385161806889792) * h4 + (7480342085460838152709512494569303640087112423645 / 6647654556451264121688464534844286105432746200237) * h5

theorem sep_tet4 : Separates (ruleTet4 (K := K)) := by
  intro v h
  simp only [ruleTet4, ptsTet3, wtsTet3, List.zip_cons_cons, List.zip_nil_right, List.map_cons, List.map_nil, List.forall_mem_cons,
    List.not_mem_nil, false_imp_iff, implies_true, and_true, shapeTet4, Fin.sum_univ_four, Matrix.cons_val] at h
  obtain ⟨h0, -, h1, -, h2, -, h3, -⟩ := h
  norm_num at h0 h1 h2 h3
  funext a
  fin_cases a <;> simp <;> linarith

/-- Values at all points of a tensor rule. -/
theorem at_points {f : K → K → Shape K 2 n} {pts wts : List ℚ} (hl : (prodRepeat pts 2).length ≤ (prodRepeat wts 2).length)
    {v : Fin n → K} (h : ∀ x ∈ ruleQuad f pts wts, ∑ a, x.1.1 a * v a = 0) {x y : ℚ} (hx : x ∈ pts) (hy : y ∈ pts) :
    ∑ a, (f (x : K) (y : K)).1 a * v a = 0 := by
  obtain ⟨w, hw⟩ := rule_at (f := f) hl hx hy
  exact h _ hw

theorem sep_quad4 : Separates (ruleQuad (K := K) shapeQuad4 pts1d2 wts1d2) := by
  intro v h
  obtain ⟨g, hp, hg⟩ : ∃ g : ℚ, pts1d2 = [-g, g] ∧ g ≠ 0 := ⟨_, rfl, by decide +kernel⟩
  have hgK : (g : K) ≠ 0 := by exact_mod_cast hg
  have m : -g ∈ pts1d2 ∧ g ∈ pts1d2 := by rw [hp]; simp
  have hl : (prodRepeat pts1d2 2).length ≤ (prodRepeat wts1d2 2).length := by decide +kernel
  have h1 := at_points hl h m.1 m.1
  have h2 := at_points hl h m.1 m.2
  have h3 := at_points hl h m.2 m.1
  have h4 := at_points hl h m.2 m.2
  push_cast at h1 h2 h3 h4
  generalize (g : K) = g at *
  simp only [shapeQuad4, lit_quarter, Fin.sum_univ_four, Pi.smul_apply, smul_eq_mul, Matrix.cons_val] at h1 h2 h3 h4
  have c0 : v 0 + v 1 + v 2 + v 3 = 0 := by linear_combination h1 + h2 + h3 + h4
  have c1 : -v 0 + v 1 + v 2 - v 3 = 0 := (mul_eq_zero.1 (by linear_combination -h1 - h2 + h3 + h4 : g * _ = 0)).resolve_left hgK
  have c2 : -v 0 - v 1 + v 2 + v 3 = 0 := (mul_eq_zero.1 (by linear_combination -h1 + h2 - h3 + h4 : g * _ = 0)).resolve_left hgK
  have c3 : v 0 - v 1 + v 2 - v 3 = 0 :=
    (mul_eq_zero.1 (by linear_combination h1 - h2 - h3 + h4 : g ^ 2 * _ = 0)).resolve_left (pow_ne_zero 2 hgK)
  funext a
  fin_cases a <;> simp <;> linarith

/-- The biquadratic polynomials that vanish at nine points of a grid are zero. -/
theorem biquad_zero {k : Fin 9 → K} {g : K} (hg : g ≠ 0)
    (h : ∀ r s, (r = 0 ∨ r = g ∨ r = -g) → (s = 0 ∨ s = g ∨ s = -g) → biquad k (r, s) = 0) : k = 0 := by
  have a := h 0 0 (by simp) (by simp)
  have b := h 0 g (by simp) (by simp)
  have c := h 0 (-g) (by simp) (by simp)
  have d := h g 0 (by simp) (by simp)
  have e := h (-g) 0 (by simp) (by simp)
  have f1 := h g g (by simp) (by simp)
  have f2 := h g (-g) (by simp) (by simp)
  have f3 := h (-g) g (by simp) (by simp)
  have f4 := h (-g) (-g) (by simp) (by simp)
  unfold biquad at *
  dsimp only at *
  have hg2 := pow_ne_zero 2 hg
  have hg3 := pow_ne_zero 3 hg
  have hg4 := pow_ne_zero 4 hg
  have k0 : k 0 = 0 := by linear_combination a
  have k1 : k 1 = 0 := (mul_eq_zero.1 (by linear_combination (d - e) / 2 : g * _ = 0)).resolve_left hg
  have k2 : k 2 = 0 := (mul_eq_zero.1 (by linear_combination (b - c) / 2 : g * _ = 0)).resolve_left hg
  have k3 : k 3 = 0 := (mul_eq_zero.1 (by linear_combination (d + e) / 2 - a : g ^ 2 * _ = 0)).resolve_left hg2
  have k5 : k 5 = 0 := (mul_eq_zero.1 (by linear_combination (b + c) / 2 - a : g ^ 2 * _ = 0)).resolve_left hg2
  have k4 : k 4 = 0 := (mul_eq_zero.1 (by linear_combination (f1 - f2 - f3 + f4) / 4 : g ^ 2 * _ = 0)).resolve_left hg2
  have k6 : k 6 = 0 := (mul_eq_zero.1 (by linear_combination (f1 - f2 + f3 - f4) / 4 - (b - c) / 2 : g ^ 3 * _ = 0)).resolve_left hg3
  have k7 : k 7 = 0 := (mul_eq_zero.1 (by linear_combination (f1 + f2 - f3 - f4) / 4 - (d - e) / 2 : g ^ 3 * _ = 0)).resolve_left hg3
  have k8 : k 8 = 0 := (mul_eq_zero.1 (by
    linear_combination (f1 + f2 + f3 + f4) / 4 - (b + c) / 2 - (d + e) / 2 + a : g ^ 4 * _ = 0)).resolve_left hg4
  funext i
  fin_cases i <;> assumption

theorem sep_tensor {ref : Fin n → K × K} {sh : K → K → Shape K 2 n} {m : Fin 9 → K}
    (hN : ∀ (k : Fin 9 → K), (∀ i, m i = 0 → k i = 0) → ∀ r s, ∑ a, (sh r s).1 a * biquad k (ref a) = biquad k (r, s))
    (hI : ∀ f : Fin n → K, ∃ k : Fin 9 → K, (∀ i, m i = 0 → k i = 0) ∧ ∀ a, f a = biquad k (ref a)) :
    Separates (ruleQuad (K := K) sh pts1d3 wts1d3) := by
  intro v h
  obtain ⟨g, hp, hg⟩ : ∃ g : ℚ, pts1d3 = [-g, 0, g] ∧ g ≠ 0 := ⟨_, rfl, by decide +kernel⟩
  have hl : (prodRepeat pts1d3 2).length ≤ (prodRepeat wts1d3 2).length := by decide +kernel
  have mem : ∀ r : K, (r = 0 ∨ r = (g : K) ∨ r = -(g : K)) → ∃ x : ℚ, x ∈ pts1d3 ∧ r = x := by
    rintro r (rfl | rfl | rfl)
    · exact ⟨0, by rw [hp]; simp, by push_cast; rfl⟩
    · exact ⟨g, by rw [hp]; simp, rfl⟩
    · exact ⟨-g, by rw [hp]; simp, by push_cast; rfl⟩
  obtain ⟨k, hk0, hk⟩ := hI v
  have hz : k = 0 := biquad_zero (g := (g : K)) (by exact_mod_cast hg) (by
    intro r s hr hs
    obtain ⟨x, hx, rfl⟩ := mem r hr
    obtain ⟨y, hy, rfl⟩ := mem s hs
    rw [← hN k hk0, ← at_points hl h hx hy]
    exact Finset.sum_congr rfl fun a _ => by rw [hk a])
  funext a
  rw [hk a, hz]
  simp [biquad]

theorem sep_quad9 : Separates (ruleQuad (K := K) shapeQuad9 pts1d3 wts1d3) := by
  refine sep_tensor (fun k _ r s => ?_) interp_quad9
  simp [shapeQuad9, lit_quarter, lit_half, lit_one, lit_two, biquad, quadNode, Fin.sum_univ_succ]
  ring

theorem sep_quad8 : Separates (ruleQuad (K := K) shapeQuad8 pts1d3 wts1d3) := by
  refine sep_tensor (fun k hk r s => ?_) interp_quad8
  have h8 : k 8 = 0 := hk 8 (by simp)
  simp [shapeQuad8, lit_quarter, lit_one, lit_two, biquad, quadNode8, quadNode, Fin.sum_univ_succ, h8]
  ring

set_option maxHeartbeats 1000000 in
theorem sep_hex8 : Separates (ruleHex8 (K := K)) := by
  intro v h
  obtain ⟨g, hp, hg⟩ : ∃ g : ℚ, pts1d2 = [-g, g] ∧ g ≠ 0 := ⟨_, rfl, by decide +kernel⟩
  have hgK : (g : K) ≠ 0 := by exact_mod_cast hg
  have m : -g ∈ pts1d2 ∧ g ∈ pts1d2 := by rw [hp]; simp
  have at' : ∀ {x y z : ℚ}, x ∈ pts1d2 → y ∈ pts1d2 → z ∈ pts1d2 → ∑ a, (shapeHex8 (x : K) (y : K) (z : K)).1 a * v a = 0 := by
    intro x y z hx hy hz
    obtain ⟨w, hw⟩ := hex8_at (K := K) hx hy hz
    exact h _ hw
  have h1 := at' m.1 m.1 m.1
  have h2 := at' m.1 m.1 m.2
  have h3 := at' m.1 m.2 m.1
  have h4 := at' m.1 m.2 m.2
  have h5 := at' m.2 m.1 m.1
  have h6 := at' m.2 m.1 m.2
  have h7 := at' m.2 m.2 m.1
  have h8 := at' m.2 m.2 m.2
  push_cast at h1 h2 h3 h4 h5 h6 h7 h8
  generalize (g : K) = g at *
  simp only [shapeHex8, lit_eighth, Fin.sum_univ_eight, Pi.smul_apply, smul_eq_mul, Matrix.cons_val]
    at h1 h2 h3 h4 h5 h6 h7 h8
  have hg2 := pow_ne_zero 2 hgK
  have hg3 := pow_ne_zero 3 hgK
  have c0 : v 0 + v 1 + v 2 + v 3 + v 4 + v 5 + v 6 + v 7 = 0 := by linear_combination h1 + h2 + h3 + h4 + h5 + h6 + h7 + h8
  have cr : -v 0 + v 1 + v 2 - v 3 - v 4 + v 5 + v 6 - v 7 = 0 :=
    (mul_eq_zero.1 (by linear_combination -h1 - h2 - h3 - h4 + h5 + h6 + h7 + h8 : g * _ = 0)).resolve_left hgK
  have cs : -v 0 - v 1 + v 2 + v 3 - v 4 - v 5 + v 6 + v 7 = 0 :=
    (mul_eq_zero.1 (by linear_combination -h1 - h2 + h3 + h4 - h5 - h6 + h7 + h8 : g * _ = 0)).resolve_left hgK
  have ct : -v 0 - v 1 - v 2 - v 3 + v 4 + v 5 + v 6 + v 7 = 0 :=
    (mul_eq_zero.1 (by linear_combination -h1 + h2 - h3 + h4 - h5 + h6 - h7 + h8 : g * _ = 0)).resolve_left hgK
  have crs : v 0 - v 1 + v 2 - v 3 + v 4 - v 5 + v 6 - v 7 = 0 :=
    (mul_eq_zero.1 (by linear_combination h1 + h2 - h3 - h4 - h5 - h6 + h7 + h8 : g ^ 2 * _ = 0)).resolve_left hg2
  have crt : v 0 - v 1 - v 2 + v 3 - v 4 + v 5 + v 6 - v 7 = 0 :=
    (mul_eq_zero.1 (by linear_combination h1 - h2 + h3 - h4 - h5 + h6 - h7 + h8 : g ^ 2 * _ = 0)).resolve_left hg2
  have cst : v 0 + v 1 - v 2 - v 3 - v 4 - v 5 + v 6 + v 7 = 0 :=
    (mul_eq_zero.1 (by linear_combination h1 - h2 - h3 + h4 + h5 - h6 - h7 + h8 : g ^ 2 * _ = 0)).resolve_left hg2
  have crst : -v 0 + v 1 - v 2 + v 3 + v 4 - v 5 + v 6 - v 7 = 0 :=
    (mul_eq_zero.1 (by linear_combination -h1 + h2 + h3 - h4 + h5 - h6 - h7 + h8 : g ^ 3 * _ = 0)).resolve_left hg3
  funext a
  fin_cases a <;> simp only [Fin.zero_eta, Fin.mk_one, Fin.reduceFinMk, Pi.zero_apply]
  · linear_combination (c0 - cr - cs - ct + crs + crt + cst - crst) / 8
  · linear_combination (c0 + cr - cs - ct - crs - crt + cst + crst) / 8
  · linear_combination (c0 + cr + cs - ct + crs - crt - cst - crst) / 8
  · linear_combination (c0 - cr + cs - ct - crs + crt - cst + crst) / 8
  · linear_combination (c0 - cr - cs + ct + crs - crt - cst + crst) / 8
  · linear_combination (c0 + cr - cs + ct - crs + crt - cst - crst) / 8
  · linear_combination (c0 + cr + cs + ct + crs + crt + cst + crst) / 8
  · linear_combination (c0 - cr + cs + ct - crs - crt + cst - crst) / 8

theorem sep_plane {f : Uel K} {R : QRule K 2 n} (hf : PlaneRule n f R) : Separates R := by
  cases hf
  · exact sep_tri3
  · exact sep_tri6
  · exact sep_quad4
  · exact sep_quad9
  · exact sep_quad8

theorem sep_solid {f : Uel K} {R : QRule K 3 n} (hf : SolidRule n f R) : Separates R := by
  cases hf
  · exact sep_tet4
  · exact sep_hex8

theorem dot_self_zero {ι : Type} [Fintype ι] {v : ι → K} (h : v ⬝ᵥ v = 0) : v = 0 := by
  funext i
  have := (Finset.sum_eq_zero_iff_of_nonneg fun i _ => mul_self_nonneg (v i)).1 h i (Finset.mem_univ i)
  exact mul_self_eq_zero.1 this

theorem hMat2_apply (N : Fin n → K) (u : Fin n × Fin 2 → K) (i : Fin 2) : (hMat2 N).mulVec u i = ∑ a, N a * u (a, i) := by
  unfold Matrix.mulVec dotProduct
  rw [Fintype.sum_prod_type]
  refine Finset.sum_congr rfl fun a _ => ?_
  fin_cases i <;> simp [hMat2, Fin.sum_univ_two]

theorem hMat3_apply (N : Fin n → K) (u : Fin n × Fin 3 → K) (i : Fin 3) : (hMat3 N).mulVec u i = ∑ a, N a * u (a, i) := by
  unfold Matrix.mulVec dotProduct
  rw [Fintype.sum_prod_type]
  refine Finset.sum_congr rfl fun a _ => ?_
  fin_cases i <;> simp [hMat3, Fin.sum_univ_three]

theorem mass_definite {H : Shape K d n → Matrix (Fin d) (Fin n × Fin d) K} {R : QRule K d n} (hH : ∀ sh u i,
    (H sh).mulVec u i = ∑ a, sh.1 a * u (a, i)) (hs : Separates R) {X : Matrix (Fin n) (Fin d) K} (hc : ∀ x ∈ R, 0 < x.2 * jdet x.1 X)
    {ρ : K} (hρ : 0 < ρ) {u} (h0 : u ≠ 0) : 0 < u ⬝ᵥ (qMass H R X ρ).mulVec u := by
  rw [mass_form]
  have hn : ∀ x ∈ R, 0 ≤ (ρ * (x.2 * jdet x.1 X)) * ((H x.1).mulVec u ⬝ᵥ (H x.1).mulVec u) :=
    fun x hx => mul_nonneg (mul_pos hρ (hc x hx)).le (dot_self_nonneg _)
  refine lt_of_le_of_ne (List.sum_nonneg fun y hy => ?_) fun h => h0 ?_
  · obtain ⟨x, hx, rfl⟩ := List.mem_map.1 hy
    exact hn x hx
  · have hz := (sum_pos_zero hn).1 h.symm
    have : ∀ i, (fun a => u (a, i)) = 0 := fun i => hs _ fun x hx => by
      have := dot_self_zero ((mul_eq_zero.1 (hz x hx)).resolve_left (mul_pos hρ (hc x hx)).ne')
      rw [← hH x.1 u i, this]
      rfl
    funext ⟨a, i⟩
    exact congrFun (this i) a

/-- C113.  Every plane element of positive density has a positive definite mass matrix. -/
theorem C113_plane {f : Uel K} (hf : PlaneElement n f) {X : Matrix (Fin n) (Fin 2) K} {E nu : K} {rest : List K} {k m}
    (h : Returns f X (E :: nu :: rest) k m) (hρ : ∀ ρ ∈ rest.getLast?, 0 < ρ) {u : Fin n × Fin 2 → K} (hu : u ≠ 0) :
    0 < u ⬝ᵥ m.mulVec u := by
  obtain ⟨R, hR⟩ := plane_rule hf
  obtain ⟨hg, st, hr⟩ := returns_plane hR
  obtain ⟨C, ρ, hm, ha, -, rfl⟩ := (hr _ _ _ _).1 h
  obtain ⟨-, -, rfl⟩ := mat2_cons.1 hm
  refine mass_definite (fun sh u i => hMat2_apply _ u i) (sep_plane hR) (fun x hx => coef_pos hg ha hx) ?_ hu
  unfold density
  cases h6 : rest.getLast? with
  | none => exact zero_lt_one
  | some ρ => exact hρ ρ h6

/-- C113.  Solid elements. -/
theorem C113_solid {f : Uel K} (hf : SolidElement n f) {X : Matrix (Fin n) (Fin 3) K} {E nu ρ : K} {k m}
    (h : Returns f X [E, nu, ρ] k m) (hρ : 0 < ρ) {u : Fin n × Fin 3 → K} (hu : u ≠ 0) : 0 < u ⬝ᵥ m.mulVec u := by
  obtain ⟨R, hR⟩ := solid_rule hf
  obtain ⟨hg, hr⟩ := returns_solid hR
  obtain ⟨C, ρ', hm, ha, -, rfl⟩ := (hr _ _ _ _).1 h
  have : densOf [E, nu, ρ] = .ok ρ := rfl
  have h3 := hm.2.2
  rw [this, Except.ok.injEq] at h3
  subst h3
  exact mass_definite (fun sh u i => hMat3_apply _ u i) (sep_solid hR) (fun x hx => coef_pos hg ha hx) hρ hu

/-- C113.  Axisymmetric element. -/
theorem C113_axi {X : Matrix (Fin 9) (Fin 2) K} {E nu ρ : K} {k m} (h : Returns elastAxiQuad9 X [E, nu, ρ] k m) (hρ : 0 < ρ)
    {u : Fin 9 × Fin 2 → K} (hu : u ≠ 0) : 0 < u ⬝ᵥ m.mulVec u := by
  obtain ⟨C, ρ', ⟨-, -, hd⟩, ha, -, rfl⟩ := returns_axi.1 h
  have : densOf [E, nu, ρ] = .ok ρ := rfl
  rw [this, Except.ok.injEq] at hd
  subst hd
  refine mass_definite (fun sh u i => hMat2_apply _ u i) sep_quad9 (fun x hx => ?_) hρ hu
  exact coef_pos good_axi (fun x hx => (ha x hx).2) hx

end

/-- The unit square, whose material has no density entry (so density 1). -/
example : ∃ k m, Returns elastQuad4 unitSquare [1, 1/4] k m ∧ ∀ u, u ≠ 0 → 0 < u ⬝ᵥ m.mulVec u := by
  obtain ⟨k, m, h⟩ := unitSquare_returns
  exact ⟨k, m, h, fun u hu => C113_plane .quad4 h (by simp) hu⟩

end SolidsPy
