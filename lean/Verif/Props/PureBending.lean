import Verif.Props.GridRefine

/-! # C148: pure bending of a strip -/

set_option linter.unusedSectionVars false

namespace SolidsPy
open Spec Fem Uel Gauss Pre Assem Matrix

section
variable {K : Type} [Field K] [LinearOrder K] [IsStrictOrderedRing K] [FloorRing K]
variable {sq : K → K} {sp de : Sol.Solver K} {d : Gui.Data K} {ms : List (Member K)}
variable {L H E nu : K} {rest : List K} {nx ny : ℕ}

/-- The stiffness of a rectangle as a bilinear form. -/
theorem rect_form {a b : K} (ha : a ≠ 0) (hb : b ≠ 0) (x y : K) (C : Matrix (Fin 3) (Fin 3) K) (v u : Fin 4 × Fin 2 → K) :
    v ⬝ᵥ (stiff2 (ruleQuad shapeQuad4 pts1d2 wts1d2) (rectAt x y a b) C).mulVec u =
      a * b * (centreStrain a b (fun i j => v (i, j)) ⬝ᵥ C.mulVec (centreStrain a b fun i j => u (i, j)) + (gaussPt : K) ^ 2 *
        (upStrain a (fun i j => v (i, j)) ⬝ᵥ C.mulVec (upStrain a fun i j => u (i, j)) +
          rightStrain b (fun i j => v (i, j)) ⬝ᵥ C.mulVec (rightStrain b fun i j => u (i, j)))) := by
  unfold stiff2
  rw [stiff_form]
  have h1 : pts1d2 = [-gaussPt, gaussPt] := by decide +kernel
  have h2 : wts1d2 = [1, 1] := by decide +kernel
  have hj : ∀ r s : K, jdet (shapeQuad4 r s) (rectAt x y a b) = a * b / 4 := by
    intro r s
    unfold jdet
    rw [rect_jac, Matrix.det_fin_two]
    simp
    ring
  simp only [ruleQuad, at2, List.map_map, Function.comp_def, hj, rect_strain ha hb]
  rw [h1, h2]
  generalize centreStrain a b (fun i j => u (i, j)) = e0
  generalize upStrain a (fun i j => u (i, j)) = e1
  generalize rightStrain b (fun i j => u (i, j)) = e2
  generalize centreStrain a b (fun i j => v (i, j)) = f0
  generalize upStrain a (fun i j => v (i, j)) = f1
  generalize rightStrain b (fun i j => v (i, j)) = f2
  simp [prodRepeat, dotProduct, Matrix.mulVec, Fin.sum_univ_three]
  ring

/-- The field that is 1 in component `j` of node `p` and 0 elsewhere. -/
def Spec.unitField (p j : ℕ) : ℕ → ℕ → K := fun v i => if v = p ∧ i = j then 1 else 0

/-- Internal forces as the work on unit fields. -/
theorem internal_form {nd : ℕ} {p j : ℕ} (hj : j < nd) (u : ℕ → ℕ → K) :
    internal nd ms u p j = (ms.map fun m => m.form nd (unitField p j) u).sum := by
  unfold internal
  congr 1
  refine List.map_congr_left fun m _ => ?_
  unfold Member.form unitField
  refine Finset.sum_congr rfl fun a ha => ?_
  rw [Finset.mem_range] at ha
  have e : m.nodes[a]? = some p ↔ m.nodes.getD a 0 = p := by
    rw [List.getD_eq_getElem?_getD, List.getElem?_eq_getElem ha]
    simp
  by_cases h : m.nodes.getD a 0 = p
  · rw [if_pos (e.2 h)]
    simp only [h, true_and, ite_mul, one_mul, zero_mul]
    rw [Finset.sum_ite_eq', if_pos (Finset.mem_range.2 hj)]
  · rw [if_neg (fun h' => h (e.1 h'))]
    simp only [h, false_and, if_false, zero_mul, Finset.sum_const_zero]

/-- Work of the element of a cell. -/
theorem grid_cell_form (h : GridModel d L H nx ny E nu rest) (hms : Members sq d ms) {C : Matrix (Fin 3) (Fin 3) K}
    (hC : umat [E, nu] = .ok C) (hpos : L / nx * (H / ny) ≠ 0) {r c : ℕ} (hr : r < ny) (hc : c < nx) {m : Member K} (hm : m ∈ ms)
    (hn : m.nodes = cellNodes nx r c) (v u : ℕ → ℕ → K) :
    m.form 2 v u = L / nx * (H / ny) *
      (centreStrain (L / nx) (H / ny) (cornersOf nx v r c) ⬝ᵥ C.mulVec (centreStrain (L / nx) (H / ny) (cornersOf nx u r c)) +
        (gaussPt : K) ^ 2 * (upStrain (L / nx) (cornersOf nx v r c) ⬝ᵥ C.mulVec (upStrain (L / nx) (cornersOf nx u r c)) +
          rightStrain (H / ny) (cornersOf nx v r c) ⬝ᵥ C.mulVec (rightStrain (H / ny) (cornersOf nx u r c)))) := by
  rw [(grid_cell_placed h hms hC hr hc hm hn).form, rect_form (left_ne_zero_of_mul hpos) (right_ne_zero_of_mul hpos)]
  have hp : ∀ w : ℕ → ℕ → K, (fun (i : Fin 4) (j : Fin 2) => m.pick 4 w (i, j)) = cornersOf nx w r c := by
    intro w
    funext i j
    unfold Member.pick cornersOf
    rw [hn]
  rw [hp, hp]

/-! ## The strip -/

/-- A strip of one row of `n` cells, held along its left end against sliding in `x` and at its lower left corner, with the forces
`-F` and `F` along `x` at the lower and upper node of its right end: the couple `F H`. -/
def bendStrip (L H E nu F : K) (n : ℕ) : Gui.Data K :=
  { tensionPlate L H E nu 0 n 1 with loads := [[(n : K), -F, 0], [((n + 1 + n : ℕ) : K), F, 0]] }

theorem strip_grid (L H E nu F : K) (n : ℕ) : GridModel (bendStrip L H E nu F n) L H n 1 E nu [] :=
  let h := plate_grid L H E nu 0 n 1
  ⟨h.elements, h.material, h.count, h.place⟩

theorem strip_wf (L H E nu F : K) (n : ℕ) : WellFormed (bendStrip L H E nu F n) :=
  let h := plate_wf L H E nu 0 n 1
  ⟨h.codes, h.width, h.size⟩

theorem strip_load (L H E nu F : K) {n r c : ℕ} (hr : r ≤ 1) (hc : c ≤ n) (j : Fin 2) :
    IsLoad (bendStrip L H E nu F n).nodes.length (bendStrip L H E nu F n).loads (nodeNo n r c) j
      (if c = n ∧ j = 0 then (if r = 0 then -F else F) else 0) := by
  rw [(strip_grid L H E nu F n).size]
  have n0 : ∀ v, Names ((n + 1) * (1 + 1)) [(n : K), -F, 0] v ↔ v = n := fun v => names_nat (by omega) rfl
  have n1 : ∀ v, Names ((n + 1) * (1 + 1)) [((n + 1 + n : ℕ) : K), F, 0] v ↔ v = n + 1 + n := fun v => names_nat (by omega) rfl
  have hr' : r = 0 ∨ r = 1 := by omega
  by_cases hcn : c = n
  · right
    subst hcn
    rcases hr' with rfl | rfl
    · refine ⟨[], _, [[((c + 1 + c : ℕ) : K), F, 0]], rfl, (n0 _).2 (by simp [nodeNo]), ?_, ?_⟩
      · intro l hl
        rw [List.mem_singleton] at hl
        subst hl
        rw [n1]
        simp [nodeNo]
      · fin_cases j <;> simp
    · refine ⟨[[(c : K), -F, 0]], _, [], rfl, (n1 _).2 (by simp [nodeNo]), by simp, ?_⟩
      fin_cases j <;> simp
  · left
    refine ⟨?_, by simp [hcn]⟩
    intro l hl
    simp only [bendStrip, List.mem_cons, List.not_mem_nil, or_false] at hl
    rcases hl with rfl | rfl
    · rw [n0]
      unfold nodeNo
      rcases hr' with rfl | rfl <;> omega
    · rw [n1]
      unfold nodeNo
      rcases hr' with rfl | rfl <;> omega

/-- The curve of bending: curvature `κ`, sections `c` at `c h`, faces at `± H / 2`. -/
def Spec.bentBy (κ h H : K) (n : ℕ) : ℕ → ℕ → K := fun v j =>
  if j = 0 then (if v / (n + 1) = 0 then -1 else 1) * (κ * ((v % (n + 1) : ℕ) * h) * (H / 2))
  else if j = 1 then -(κ * (((v % (n + 1) : ℕ) : K) * h) ^ 2 / 2) else 0

theorem nodeNo_div {nx r c : ℕ} (hc : c ≤ nx) : nodeNo nx r c / (nx + 1) = r := by
  unfold nodeNo
  rw [Nat.mul_comm, Nat.mul_add_div (by omega), Nat.div_eq_of_lt (by omega), Nat.add_zero]

theorem bent_at (κ h H : K) {n r c : ℕ} (hc : c ≤ n) : bentBy κ h H n (nodeNo n r c) 0 =
    (if r = 0 then -1 else 1) * (κ * (c * h) * (H / 2)) ∧ bentBy κ h H n (nodeNo n r c) 1 = -(κ * ((c : K) * h) ^ 2 / 2) := by
  unfold bentBy
  rw [nodeNo_div hc, nodeNo_mod hc]
  simp

/-- Internal forces of the bent strip. -/
theorem strip_internal (h : GridModel d L H nx 1 E nu rest) (hms : Members sq d ms) {C : Matrix (Fin 3) (Fin 3) K}
    (hC : umat [E, nu] = .ok C) (hpos : L / nx * H ≠ 0) (κ : K) {r q : ℕ} (hr : r ≤ 1) (hq : q ≤ nx) (j : Fin 2) :
    internal 2 ms (bentBy κ (L / nx) H nx) (nodeNo nx r q) j = if j = 0 then (if r = 0 then -1 else 1) *
      (κ * (gaussPt : K) ^ 2 / 4 * (C 0 0 * H ^ 2 + C 2 2 * (L / nx) ^ 2)) * edgeSign nx q else 0 := by
  have h1 : H / ((1 : ℕ) : K) = H := by simp
  have ha := left_ne_zero_of_mul hpos
  have hb := right_ne_zero_of_mul hpos
  obtain ⟨E', nu', e1, e2, rfl⟩ := umat_ok.1 hC
  rw [internal_form j.2, h.sum hms _ (fun r' c => if j = 0 then (if r = 0 then -1 else 1) *
      (κ * (gaussPt : K) ^ 2 / 4 * (E' / (1 - nu' ^ 2) * H ^ 2 + E' / (1 - nu' ^ 2) * ((1 - nu') / 2) * (L / nx) ^ 2)) *
      ((if c + 1 = q then 1 else 0) - (if c = q then 1 else 0)) else 0)]
  · rw [Finset.sum_range_one]
    fin_cases j
    · simp only [Fin.zero_eta, if_true, ← Finset.mul_sum, Finset.sum_sub_distrib, sum_pick, sum_pick_succ hq]
      simp [edgeSign]
    · simp
  · intro r' c hr' hc m hm hn
    obtain rfl : r' = 0 := by omega
    rw [grid_cell_form h hms hC (by rw [h1]; exact hpos) hr' hc hm hn, h1]
    have inj : ∀ {x y : ℕ}, y ≤ nx → (nodeNo nx x y = nodeNo nx r q ↔ x = r ∧ y = q) := by
      intro x y hy
      exact ⟨fun e => nodeNo_inj hy hq e, by rintro ⟨rfl, rfl⟩; rfl⟩
    have i0 := inj (x := 0) (by omega : c ≤ nx)
    have i1 := inj (x := 0) (by omega : c + 1 ≤ nx)
    have i2 := inj (x := 0 + 1) (by omega : c + 1 ≤ nx)
    have i3 := inj (x := 0 + 1) (by omega : c ≤ nx)
    have b0 := bent_at κ (L / nx) H (r := 0) (by omega : c ≤ nx)
    have b1 := bent_at κ (L / nx) H (r := 0) (by omega : c + 1 ≤ nx)
    have b2 := bent_at κ (L / nx) H (r := 0 + 1) (by omega : c + 1 ≤ nx)
    have b3 := bent_at κ (L / nx) H (r := 0 + 1) (by omega : c ≤ nx)
    generalize L / nx = a at *
    have c0 : centreStrain a H (cornersOf nx (bentBy κ a H nx) 0 c) = 0 := by
      funext i
      fin_cases i <;> simp [centreStrain, cornersOf, cellNodes, b0, b1, b2, b3]
      field_simp
      ring
    have c1 : upStrain a (cornersOf nx (bentBy κ a H nx) 0 c) = ![κ * H / 2, 0, 0] := by
      funext i
      fin_cases i <;> simp [upStrain, cornersOf, cellNodes, b0, b1, b2, b3]
      field_simp
      ring
    have c2 : rightStrain H (cornersOf nx (bentBy κ a H nx) 0 c) = ![0, 0, κ * a / 2] := by
      funext i
      fin_cases i <;> simp [rightStrain, cornersOf, cellNodes, b0, b1, b2, b3]
      field_simp
      ring
    rw [c0, c1, c2]
    have hr2 : r = 0 ∨ r = 1 := by omega
    fin_cases j
    · simp [upStrain, rightStrain, cornersOf, cellNodes, unitField, i0, i1, i2, i3, Matrix.mulVec, dotProduct, Fin.sum_univ_three]
      rcases hr2 with rfl | rfl <;> simp <;> split_ifs <;> first | omega | (field_simp; ring)
    · simp [upStrain, rightStrain, cornersOf, cellNodes, unitField, i0, i1, i2, i3, Matrix.mulVec, dotProduct, Fin.sum_univ_three]

/-- Curvature computed for the strip of cells of length `h` under the end forces `F`. -/
def Spec.cellCurvature (h H E nu F g : K) : K := 4 * F / (g ^ 2 * (E / (1 - nu ^ 2) * H ^ 2 + E / (2 * (1 + nu)) * h ^ 2))

/-- C148.  The bent strip.  For every length, height, number of cells, load and material `solids_auto` returns the displacements of
a uniform curvature at the nodes, without the equilibrium warning: the curvature `4 F / (g² (E H² / (1 - ν²) + G h²))` with the
Gauss point `g` and the length `h` of the cells. -/
theorem C148_bending (hs : SqrtFn sq) (hsp : SolverOk sp) {F : K} {n : ℕ} (htol : 1e-8 < L / n * H / 4) (hE : 0 < E)
    (h1 : -1 < nu) (h2 : nu < 1) : ∃ res, Gui.solidsAuto sq sp de (bendStrip L H E nu F n) false = .ok res ∧ res.warned = false ∧
      ∀ r q, r ≤ 1 → q ≤ n →
        entry res.disp (nodeNo n r q) 0 = some ((if r = 0 then -1 else 1) *
          (cellCurvature (L / n) H E nu F (gaussPt : K) * (q * (L / n)) * (H / 2))) ∧
        entry res.disp (nodeNo n r q) 1 = some (-(cellCurvature (L / n) H E nu F (gaussPt : K) * ((q : K) * (L / n)) ^ 2 / 2)) := by
  have hg := strip_grid L H E nu F n
  have hwf := strip_wf L H E nu F n
  have hone : H / ((1 : ℕ) : K) = H := by simp
  have hpos : 0 < L / n * H := by
    have := tol_pos.trans htol
    linarith
  have hn : 0 < n := by
    rcases Nat.eq_zero_or_pos n with rfl | h
    · simp at hpos
    · exact h
  have hsup : Supported (bendStrip L H E nu F n).cons (bendStrip L H E nu F n).nodes :=
    plate_supported (E := E) (nu := nu) (σ := 0) (nx := n) (ny := 1) (by omega) (by rw [hone]; exact hpos.ne')
  have hfree : ∀ {r c : ℕ}, r ≤ 1 → c ≤ n → ∀ j : Fin 2, Free (bendStrip L H E nu F n).cons 2 (nodeNo n r c) j ↔
      ¬ (if j = 0 then c = 0 else r = 0 ∧ c = 0) := fun hr hc j => plate_free L H E nu 0 hr hc j
  obtain ⟨ms, hm⟩ := C97_mesh (sq := sq) hg (by rw [hone]; exact htol) hE h1 h2 (by simp)
  have hst := (C95_stable_iff hs hm hwf).2 hsup
  obtain ⟨res, hres, hw⟩ := C95_solids_auto (de := de) hs hm hwf hsp hsup
    ⟨nodeNo n 0 n, 0, by
      have := hfree (r := 0) (c := n) (by omega) (le_refl _) 0
      simp only [Fin.val_zero] at this
      rw [this]
      simp
      omega⟩ (by
      intro l hl
      rw [hg.size]
      simp only [bendStrip, List.mem_cons, List.not_mem_nil, or_false] at hl
      rcases hl with rfl | rfl
      · exact ⟨by simp, _, (names_nat (by omega) rfl).2 rfl⟩
      · exact ⟨by simp, _, (names_nat (by omega) rfl).2 rfl⟩)
  refine ⟨res, hres, hw, ?_⟩
  have hnu : 0 < 1 - nu ^ 2 := by nlinarith
  obtain ⟨C, hC⟩ := (C35_returns_iff [E, nu]).2 ⟨E, nu, rfl, fun h => hnu.ne' (by rw [h, sub_self])⟩
  have hgp : (0 : K) < (gaussPt : K) := by
    have : (0 : ℚ) < gaussPt := by norm_num [gaussPt]
    exact_mod_cast this
  have hCC : C 0 0 = E / (1 - nu ^ 2) ∧ C 2 2 = E / (2 * (1 + nu)) := by
    obtain ⟨E', nu', e1, e2, rfl⟩ := umat_ok.1 hC
    simp only [List.cons.injEq, and_true] at e1
    obtain ⟨rfl, rfl⟩ := e1
    have h3 : (1 + nu) ≠ 0 := by linarith
    refine ⟨rfl, ?_⟩
    change E / (1 - nu ^ 2) * ((1 - nu) / 2) = _
    rw [show 1 - nu ^ 2 = (1 - nu) * (1 + nu) by ring]
    have h4 : (1 - nu) ≠ 0 := by linarith
    field_simp
  have hH : H ≠ 0 := right_ne_zero_of_mul hpos.ne'
  have hden : 0 < E / (1 - nu ^ 2) * H ^ 2 + E / (2 * (1 + nu)) * (L / n) ^ 2 := by
    have a1 : 0 < E / (1 - nu ^ 2) * H ^ 2 := mul_pos (div_pos hE hnu) (by positivity)
    have a2 : 0 ≤ E / (2 * (1 + nu)) * (L / n) ^ 2 := mul_nonneg (div_nonneg hE.le (by linarith)) (sq_nonneg _)
    linarith
  have heq : Equilibrium (bendStrip L H E nu F n).cons 2 (bendStrip L H E nu F n).loads ms
      (bentBy (cellCurvature (L / n) H E nu F (gaussPt : K)) (L / n) H n) := by
    constructor
    · intro p j hp hj hf
      rw [hwf.size, hg.size] at hp
      obtain ⟨r, c, hr, hc, rfl⟩ := node_split hp
      have hf' := hfree hr hc ⟨j, hj⟩
      rw [hf', not_not] at hf
      obtain ⟨b0, b1⟩ := bent_at (cellCurvature (L / n) H E nu F (gaussPt : K)) (L / n) H (r := r) hc
      have hj' : j = 0 ∨ j = 1 := by omega
      rcases hj' with rfl | rfl
      · have : c = 0 := by simpa using hf
        rw [b0, this]
        simp
      · have : r = 0 ∧ c = 0 := by simpa using hf
        rw [b1, this.2]
        simp
    · intro p j hf
      have hp : p < (n + 1) * (1 + 1) := by
        rw [← hg.size, ← hwf.size]
        exact free_lt hf
      obtain ⟨r, q, hr, hq, rfl⟩ := node_split hp
      have hj := hf.1
      have hf' := (hfree hr hq ⟨j, hj⟩).1 hf
      rw [strip_internal hg hm.members hC hpos.ne' _ hr hq ⟨j, hj⟩, hwf.size]
      have hl := strip_load L H E nu F hr hq ⟨j, hj⟩
      convert hl using 1
      have hj' : j = 0 ∨ j = 1 := by omega
      rcases hj' with rfl | rfl
      · have hq0 : q ≠ 0 := by simpa using hf'
        simp only [Fin.zero_eta, if_true, and_true]
        rw [hCC.1, hCC.2]
        unfold cellCurvature
        generalize E / (1 - nu ^ 2) * H ^ 2 + E / (2 * (1 + nu)) * (L / n) ^ 2 = D at hden ⊢
        by_cases hqn : q = n
        · subst hqn
          have : edgeSign q q = (1 : K) := by simp [edgeSign, hn]
          rw [if_pos rfl, this]
          split_ifs <;> field_simp
        · have : edgeSign n q = (0 : K) := by simp [edgeSign, (by omega : 0 < q), (by omega : q < n)]
          rw [this, if_neg hqn, mul_zero]
      · simp
  intro r q hr hq
  have hp : nodeNo n r q < (bendStrip L H E nu F n).nodes.length := by
    rw [hg.size]
    exact nodeNo_lt hr hq
  obtain ⟨b0, b1⟩ := bent_at (cellCurvature (L / n) H E nu F (gaussPt : K)) (L / n) H (r := r) hq
  rw [C19_only_equilibrium hwf hsp hm.members hst hres heq _ 0 hp (by omega),
    C19_only_equilibrium hwf hsp hm.members hst hres heq _ 1 hp (by omega), b0, b1]
  exact ⟨rfl, rfl⟩

/-- Curvature of the beam of height `H` and unit width under the couple `F H`. -/
def Spec.beamCurvature (H E F : K) : K := F * H / (E * (H ^ 3 / 12))

/-- C148.  Against the theory of beams: the curvature computed is the right one divided by
`3 g² (1 / (1 - ν²) + (h / H)² / (2 (1 + ν)))`. -/
theorem C148_ratio {h F g : K} (hH : H ≠ 0) (hE : 0 < E) (h1 : -1 < nu) (h2 : nu < 1) (hg : 0 < g) :
    cellCurvature h H E nu F g * (3 * g ^ 2 * (1 / (1 - nu ^ 2) + (h / H) ^ 2 / (2 * (1 + nu)))) = beamCurvature H E F := by
  have hnu : 0 < 1 - nu ^ 2 := by nlinarith
  have a1 : 0 < E / (1 - nu ^ 2) * H ^ 2 := mul_pos (div_pos hE hnu) (by positivity)
  have a2 : 0 ≤ E / (2 * (1 + nu)) * h ^ 2 := mul_nonneg (div_nonneg hE.le (by linarith)) (sq_nonneg _)
  have e : E / (1 - nu ^ 2) * H ^ 2 + E / (2 * (1 + nu)) * h ^ 2 =
      E * H ^ 2 * (1 / (1 - nu ^ 2) + (h / H) ^ 2 / (2 * (1 + nu))) := by
    have h3 : (1 + nu) ≠ 0 := by linarith
    field_simp
  have hp : E / (1 - nu ^ 2) * H ^ 2 + E / (2 * (1 + nu)) * h ^ 2 ≠ 0 := by linarith
  unfold cellCurvature beamCurvature
  rw [e] at hp ⊢
  generalize 1 / (1 - nu ^ 2) + (h / H) ^ 2 / (2 * (1 + nu)) = R at hp ⊢
  have hR : R ≠ 0 := right_ne_zero_of_mul hp
  field_simp
  ring

/-- C148.  Locking: the deflection computed is at most the fraction `2.0000000000000001 (1 + ν) / (h / H)²` of the right one, and (for
Poisson ratios other than 0, or cells not much shorter than high) less than the right one; however many cells in one row, it is at most
`1 - ν²` of the right one (but for the rounding of the Gauss points). -/
theorem C148_locking {h F : K} (hH : 0 < H) (hh : 0 < h) (hE : 0 < E) (h1 : -1 < nu) (h2 : nu < 1) (hF : 0 < F) :
    cellCurvature h H E nu F (gaussPt : K) ≤ (2 + 1e-16) * (1 + nu) / (h / H) ^ 2 * beamCurvature H E F ∧
    (1e-8 < h / H ∨ 1e-16 < nu ^ 2 → cellCurvature h H E nu F (gaussPt : K) < beamCurvature H E F) ∧
    cellCurvature h H E nu F (gaussPt : K) ≤ (1 + 1e-17) * (1 - nu ^ 2) * beamCurvature H E F := by
  have hgp : (0 : K) < (gaussPt : K) := by
    have : (0 : ℚ) < gaussPt := by norm_num [gaussPt]
    exact_mod_cast this
  have key := C148_ratio (h := h) (F := F) hH.ne' hE h1 h2 hgp
  have hnu : 0 < 1 - nu ^ 2 := by nlinarith
  have hκ : 0 < cellCurvature h H E nu F (gaussPt : K) := by
    unfold cellCurvature
    have a1 : 0 < E / (1 - nu ^ 2) * H ^ 2 := mul_pos (div_pos hE hnu) (by positivity)
    have a2 : 0 ≤ E / (2 * (1 + nu)) * h ^ 2 := mul_nonneg (div_nonneg hE.le (by linarith)) (sq_nonneg _)
    exact div_pos (by linarith) (mul_pos (by positivity) (by linarith))
  obtain ⟨g1, g2⟩ := gauss_bounds (K := K)
  generalize cellCurvature h H E nu F (gaussPt : K) = κ at key hκ ⊢
  rw [← key]
  have ht : 0 < h / H := div_pos hh hH
  generalize h / H = t at ht ⊢
  have g3 : (1 - 5e-18 : K) ≤ 3 * (gaussPt : K) ^ 2 := by
    norm_num at g2 ⊢
    linarith
  generalize 3 * (gaussPt : K) ^ 2 = G at g3 ⊢
  have q1 : 1 + nu ^ 2 ≤ 1 / (1 - nu ^ 2) := by
    rw [le_div_iff₀ hnu]
    nlinarith [sq_nonneg (nu ^ 2)]
  have q2 : 0 < t ^ 2 / (2 * (1 + nu)) := div_pos (by positivity) (by linarith)
  have q3 : t ^ 2 / 4 ≤ t ^ 2 / (2 * (1 + nu)) := div_le_div_of_nonneg_left (by positivity) (by linarith) (by linarith)
  have q6 : (1 - nu ^ 2) * (1 / (1 - nu ^ 2)) = 1 := mul_one_div_cancel hnu.ne'
  have q4 : 2 * (1 + nu) / t ^ 2 * (t ^ 2 / (2 * (1 + nu))) = 1 := by
    have : (1 + nu) ≠ 0 := by linarith
    field_simp
  have q5 : 0 < 2 * (1 + nu) / t ^ 2 := div_pos (by linarith) (by positivity)
  rw [show (2 + 1e-16) * (1 + nu) / t ^ 2 = (1 + 5e-17) * (2 * (1 + nu) / t ^ 2) by ring]
  generalize t ^ 2 / (2 * (1 + nu)) = R2 at *
  generalize 1 / (1 - nu ^ 2) = R1 at *
  generalize 2 * (1 + nu) / t ^ 2 = S at *
  have hR1 : 1 ≤ R1 := by nlinarith [sq_nonneg nu]
  have hG0 : 0 < G := by
    norm_num at g3
    linarith
  refine ⟨?_, ?_, ?_⟩
  · have : 1 ≤ (1 + 5e-17) * S * (G * (R1 + R2)) := by
      have e1 : (1 + 5e-17) * S * (G * (R1 + R2)) = (1 + 5e-17) * (G * (S * R1)) + (1 + 5e-17) * G := by
        linear_combination (1 + 5e-17) * G * q4
      have e2 : 0 < (1 + 5e-17) * (G * (S * R1)) := by positivity
      norm_num at e1 e2 g3 ⊢
      linarith
    calc κ = κ * 1 := (mul_one _).symm
      _ ≤ κ * ((1 + 5e-17) * S * (G * (R1 + R2))) := mul_le_mul_of_nonneg_left this hκ.le
      _ = _ := by ring
  · intro ho
    refine lt_mul_of_one_lt_right hκ ?_
    have hR : 1 + 2e-17 < R1 + R2 := by
      rcases ho with ho | ho
      · have : (1e-8 : K) ^ 2 < t ^ 2 := pow_lt_pow_left₀ ho (by norm_num) (by norm_num)
        norm_num at this ⊢
        linarith
      · norm_num at ho ⊢
        linarith
    have := mul_lt_mul_of_pos_left hR hG0
    norm_num at this g3 ⊢
    linarith
  · have : 1 ≤ (1 + 1e-17) * (1 - nu ^ 2) * (G * (R1 + R2)) := by
      have e1 : (1 + 1e-17) * (1 - nu ^ 2) * (G * (R1 + R2)) = (1 + 1e-17) * G + (1 + 1e-17) * ((1 - nu ^ 2) * (G * R2)) := by
        linear_combination (1 + 1e-17) * G * q6
      have e2 : 0 < (1 - nu ^ 2) * (G * R2) := by positivity
      rw [e1]
      generalize (1 - nu ^ 2) * (G * R2) = e at e2
      norm_num at g3 ⊢
      linarith
    calc κ = κ * 1 := (mul_one _).symm
      _ ≤ κ * ((1 + 1e-17) * (1 - nu ^ 2) * (G * (R1 + R2))) := mul_le_mul_of_nonneg_left this hκ.le
      _ = _ := by ring

/-! ## Nine nodes -/

/-- The nine nodes of a rectangle with centre `(x, y)` and half sides `a`, `b`. -/
def rect9 (x y a b : K) : Matrix (Fin 9) (Fin 2) K := fun i => ![x + a * (quadNode i).1, y + b * (quadNode i).2]

theorem rect9_jac (x y a b r s : K) : (shapeQuad9 r s).2 * rect9 x y a b = !![a, 0; 0, b] := by
  ext i j
  rw [Matrix.mul_apply]
  fin_cases i <;> fin_cases j <;> simp [Fin.sum_univ_succ, shapeQuad9, rect9, quadNode] <;> norm_num <;> ring

theorem rect9_grad {a b : K} (ha : a ≠ 0) (hb : b ≠ 0) (x y r s : K) :
    grad (shapeQuad9 r s).2 (rect9 x y a b) = !![1 / a, 0; 0, 1 / b] * (shapeQuad9 r s).2 := by
  unfold grad
  rw [rect9_jac]
  congr 1
  rw [Matrix.det_fin_two, Matrix.adjugate_fin_two]
  ext i j
  fin_cases i <;> fin_cases j <;> simp <;> field_simp

/-- The bending field. -/
def Spec.bendField (κ nu x y : K) : Fin 2 → K := ![κ * x * y, -(κ * (x ^ 2 + nu * y ^ 2) / 2)]

theorem rect9_strain {a b : K} (ha : a ≠ 0) (hb : b ≠ 0) (κ nu x r s : K) (u : Fin 9 × Fin 2 → K)
    (hu : ∀ i j, u (i, j) = bendField κ nu (rect9 x 0 a b i 0) (rect9 x 0 a b i 1) j) :
    (bMat2 (grad (shapeQuad9 r s).2 (rect9 x 0 a b))).mulVec u = ![κ * (b * s), -(nu * κ * (b * s)), 0] := by
  rw [rect9_grad ha hb, bMat2_mulVec]
  funext i
  simp only [Matrix.mul_apply, Fin.sum_univ_two]
  fin_cases i <;>
  · simp [Fin.sum_univ_succ, shapeQuad9, hu, bendField, rect9, quadNode]
    norm_num
    field_simp
    ring

/-- Sums of the rule: of the weights, and of the weights times the squares of the points. -/
def Spec.rule0 : ℚ := 2 * 0.555555555555555556 + 0.888888888888888889

def Spec.rule2 : ℚ := 2 * 0.555555555555555556 * 0.774596669241483377 ^ 2

theorem rect9_form {a b : K} (ha : a ≠ 0) (hb : b ≠ 0) (κ x : K) {C : Matrix (Fin 3) (Fin 3) K} (hC : umat [E, nu] = .ok C)
    (v u : Fin 9 × Fin 2 → K) (hu : ∀ i j, u (i, j) = bendField κ nu (rect9 x 0 a b i 0) (rect9 x 0 a b i 1) j) :
    v ⬝ᵥ (stiff2 (ruleQuad shapeQuad9 pts1d3 wts1d3) (rect9 x 0 a b) C).mulVec u =
      E * κ * b ^ 2 * ((rule0 : K) * (rule2 : K) / 4) * (v (0, 0) - v (1, 0) + v (2, 0) - v (3, 0)) := by
  unfold stiff2
  rw [stiff_form]
  obtain ⟨p, w, z, h1, h2, h3, h4⟩ : ∃ p w z : ℚ, pts1d3 = [-p, 0, p] ∧ wts1d3 = [w, z, w] ∧ rule0 = 2 * w + z ∧ rule2 = 2 * w * p ^ 2 :=
    ⟨_, _, _, rfl, rfl, rfl, rfl⟩
  have hj : ∀ r s : K, jdet (shapeQuad9 r s) (rect9 x 0 a b) = a * b := by
    intro r s
    unfold jdet
    rw [rect9_jac, Matrix.det_fin_two]
    simp
  have hσ : ∀ s : K, C.mulVec ![κ * (b * s), -(nu * κ * (b * s)), 0] = ![E * κ * (b * s), 0, 0] := by
    intro s
    obtain ⟨E', nu', e1, e2, rfl⟩ := umat_ok.1 hC
    simp only [List.cons.injEq, and_true] at e1
    obtain ⟨rfl, rfl⟩ := e1
    funext i
    fin_cases i <;> simp [Matrix.mulVec, dotProduct, Fin.sum_univ_three] <;> field_simp <;> ring
  simp only [ruleQuad, at2, List.map_map, Function.comp_def, hj, rect9_strain ha hb κ nu x _ _ u hu, hσ]
  rw [h1, h2, h3, h4]
  have hv : ∀ r s t : K, (bMat2 (grad (shapeQuad9 r s).2 (rect9 x 0 a b))).mulVec v ⬝ᵥ ![t, 0, 0] =
      1 / a * (∑ i, (shapeQuad9 r s).2 0 i * v (i, 0)) * t := by
    intro r s t
    rw [rect9_grad ha hb, bMat2_mulVec]
    simp [dotProduct, Fin.sum_univ_succ, Matrix.mul_apply]
    left
    ring
  simp only [hv]
  simp [prodRepeat, Fin.sum_univ_succ, shapeQuad9]
  norm_num
  field_simp
  ring

/-- The nodes of element `e` of a strip of `n` nine-node elements with three rows of `2 n + 1` nodes. -/
def stripNodes (n e : ℕ) : List ℕ :=
  [nodeNo (2 * n) 0 (2 * e), nodeNo (2 * n) 0 (2 * e + 2), nodeNo (2 * n) 2 (2 * e + 2), nodeNo (2 * n) 2 (2 * e),
   nodeNo (2 * n) 0 (2 * e + 1), nodeNo (2 * n) 1 (2 * e + 2), nodeNo (2 * n) 2 (2 * e + 1), nodeNo (2 * n) 1 (2 * e),
   nodeNo (2 * n) 1 (2 * e + 1)]

/-- A strip of one row of `n` nine-node elements, its left end held against sliding in `x` and in the middle also in `y`, with the
forces `-F` and `F` along `x` at the lower and upper corner of its right end. -/
def bendStrip9 (L H E nu F : K) (n : ℕ) : Gui.Data K where
  nodes := (List.range ((2 * n + 1) * 3)).map fun v : ℕ =>
    [(v : K), ((v % (2 * n + 1) : ℕ) : K) * (L / n / 2), ((v / (2 * n + 1) : ℕ) - 1) * (H / 2)]
  cons := (List.range ((2 * n + 1) * 3)).map fun v : ℕ => [if v % (2 * n + 1) = 0 then -1 else 0, if v = 2 * n + 1 then -1 else 0]
  elements := (List.range n).map fun e : ℕ => (e : ℤ) :: 4 :: 0 :: (stripNodes n e).map fun v : ℕ => (v : ℤ)
  mats := [[E, nu]]
  loads := [[(nodeNo (2 * n) 0 (2 * n) : K), -F, 0], [(nodeNo (2 * n) 2 (2 * n) : K), F, 0]]

section
variable {F : K} {n : ℕ}

theorem strip9_size : (bendStrip9 L H E nu F n).nodes.length = (2 * n + 1) * (2 + 1) := by simp [bendStrip9]

theorem strip9_row {r c : ℕ} (hr : r ≤ 2) (hc : c ≤ 2 * n) : (bendStrip9 L H E nu F n).nodes[nodeNo (2 * n) r c]? =
    some [((nodeNo (2 * n) r c : ℕ) : K), c * (L / n / 2), ((r : K) - 1) * (H / 2)] := by
  have hlt : nodeNo (2 * n) r c < (2 * n + 1) * 3 := nodeNo_lt (ny := 2) hr hc
  simp only [bendStrip9, List.getElem?_map, List.getElem?_range hlt, Option.map_some]
  rw [nodeNo_div hc, nodeNo_mod hc]

theorem strip9_pos {r c : ℕ} (hr : r ≤ 2) (hc : c ≤ 2 * n) : posOf (bendStrip9 L H E nu F n).nodes (nodeNo (2 * n) r c) =
    ![c * (L / n / 2), ((r : K) - 1) * (H / 2)] := by
  funext i
  unfold posOf coordOf fieldOf entry
  rw [strip9_row hr hc]
  fin_cases i <;> rfl

theorem strip9_widths : ∀ r ∈ (bendStrip9 L H E nu F n).nodes, r.length = 3 := by
  intro r hr
  simp only [bendStrip9, List.mem_map] at hr
  obtain ⟨v, -, rfl⟩ := hr
  rfl

theorem strip9_cons {v j : ℕ} {x : K} : entry (bendStrip9 L H E nu F n).cons v j = some x ↔ v < (2 * n + 1) * 3 ∧
    ((j = 0 ∧ x = if v % (2 * n + 1) = 0 then -1 else 0) ∨ (j = 1 ∧ x = if v = 2 * n + 1 then -1 else 0)) := by
  rw [entry_some]
  simp only [bendStrip9, List.getElem?_map, Option.map_eq_some_iff]
  constructor
  · rintro ⟨row, ⟨a, ha, rfl⟩, hx⟩
    rw [List.getElem?_eq_some_iff] at ha
    obtain ⟨hv, ha⟩ := ha
    rw [List.getElem_range] at ha
    subst ha
    refine ⟨by simpa using hv, ?_⟩
    match j, hx with
    | 0, hx => simp at hx; exact .inl ⟨rfl, hx.symm⟩
    | 1, hx => simp at hx; exact .inr ⟨rfl, hx.symm⟩
    | j + 2, hx => simp at hx
  · rintro ⟨hv, ⟨rfl, rfl⟩ | ⟨rfl, rfl⟩⟩ <;> exact ⟨_, ⟨v, by simp [hv], rfl⟩, rfl⟩

theorem strip9_wf : WellFormed (bendStrip9 L H E nu F n) where
  codes := by
    intro v j x hj hx
    rcases (strip9_cons.1 hx).2 with ⟨_, rfl⟩ | ⟨_, rfl⟩ <;> split_ifs <;> simp
  width := by simp [bendStrip9]
  size := by simp [bendStrip9]

theorem strip9_free {r c : ℕ} (hr : r ≤ 2) (hc : c ≤ 2 * n) (j : Fin 2) :
    Free (bendStrip9 L H E nu F n).cons 2 (nodeNo (2 * n) r c) j ↔ ¬ (if j = 0 then c = 0 else r = 1 ∧ c = 0) := by
  have hlt : nodeNo (2 * n) r c < (2 * n + 1) * 3 := nodeNo_lt (ny := 2) hr hc
  have h1 : nodeNo (2 * n) r c = 2 * n + 1 ↔ r = 1 ∧ c = 0 := by
    rw [show 2 * n + 1 = nodeNo (2 * n) 1 0 by simp [nodeNo]]
    exact ⟨fun h => nodeNo_inj hc (by omega) h, by rintro ⟨rfl, rfl⟩; rfl⟩
  unfold Free
  simp only [strip9_cons, nodeNo_mod hc, h1, hlt, true_and]
  fin_cases j
  · by_cases h : c = 0 <;> simp [h]
  · by_cases h : r = 1 ∧ c = 0 <;> simp [h]

theorem strip9_load {r c : ℕ} (hr : r ≤ 2) (hc : c ≤ 2 * n) (j : Fin 2) :
    IsLoad (bendStrip9 L H E nu F n).nodes.length (bendStrip9 L H E nu F n).loads (nodeNo (2 * n) r c) j
      (if c = 2 * n ∧ j = 0 then ((r : K) - 1) * F else 0) := by
  rw [strip9_size]
  have n0 : ∀ v, Names ((2 * n + 1) * (2 + 1)) [(nodeNo (2 * n) 0 (2 * n) : K), -F, 0] v ↔ v = nodeNo (2 * n) 0 (2 * n) :=
    fun v => names_nat (nodeNo_lt (by omega) (le_refl _)) rfl
  have n1 : ∀ v, Names ((2 * n + 1) * (2 + 1)) [(nodeNo (2 * n) 2 (2 * n) : K), F, 0] v ↔ v = nodeNo (2 * n) 2 (2 * n) :=
    fun v => names_nat (nodeNo_lt (by omega) (le_refl _)) rfl
  have hne : ∀ r', (c ≠ 2 * n ∨ r ≠ r') → nodeNo (2 * n) r c ≠ nodeNo (2 * n) r' (2 * n) := by
    intro r' h1 h2
    have := nodeNo_inj hc (le_refl _) h2
    omega
  have hr' : r = 0 ∨ r = 1 ∨ r = 2 := by omega
  by_cases hcn : c = 2 * n
  · subst hcn
    rcases hr' with rfl | rfl | rfl
    · right
      refine ⟨[], _, [[(nodeNo (2 * n) 2 (2 * n) : K), F, 0]], rfl, (n0 _).2 rfl, ?_, ?_⟩
      · intro l hl
        rw [List.mem_singleton] at hl
        subst hl
        rw [n1]
        exact hne 2 (by omega)
      · fin_cases j <;> simp
    · left
      refine ⟨?_, by simp⟩
      intro l hl
      simp only [bendStrip9, List.mem_cons, List.not_mem_nil, or_false] at hl
      rcases hl with rfl | rfl
      · rw [n0]
        exact hne 0 (by omega)
      · rw [n1]
        exact hne 2 (by omega)
    · right
      refine ⟨[[(nodeNo (2 * n) 0 (2 * n) : K), -F, 0]], _, [], rfl, (n1 _).2 rfl, by simp, ?_⟩
      fin_cases j <;> simp
      norm_num
  · left
    refine ⟨?_, by simp [hcn]⟩
    intro l hl
    simp only [bendStrip9, List.mem_cons, List.not_mem_nil, or_false] at hl
    rcases hl with rfl | rfl
    · rw [n0]
      exact hne 0 (.inl hcn)
    · rw [n1]
      exact hne 2 (.inl hcn)

theorem strip9_node {e : ℕ} (he : e < n) (i : Fin 9) : ∃ r c, r ≤ 2 ∧ c ≤ 2 * n ∧ (stripNodes n e).getD i 0 = nodeNo (2 * n) r c ∧
    (c : K) = 2 * e + 1 + (quadNode i).1 ∧ (r : K) = 1 + (quadNode i).2 := by
  fin_cases i
  · exact ⟨0, 2 * e, by omega, by omega, rfl, by simp [quadNode], by simp [quadNode]⟩
  · exact ⟨0, 2 * e + 2, by omega, by omega, rfl, by simp [quadNode]; ring, by simp [quadNode]⟩
  · exact ⟨2, 2 * e + 2, by omega, by omega, rfl, by simp [quadNode]; ring, by simp [quadNode]; norm_num⟩
  · exact ⟨2, 2 * e, by omega, by omega, rfl, by simp [quadNode], by simp [quadNode]; norm_num⟩
  · exact ⟨0, 2 * e + 1, by omega, by omega, rfl, by simp [quadNode], by simp [quadNode]⟩
  · exact ⟨1, 2 * e + 2, by omega, by omega, rfl, by simp [quadNode]; ring, by simp [quadNode]⟩
  · exact ⟨2, 2 * e + 1, by omega, by omega, rfl, by simp [quadNode], by simp [quadNode]; norm_num⟩
  · exact ⟨1, 2 * e, by omega, by omega, rfl, by simp [quadNode], by simp [quadNode]⟩
  · exact ⟨1, 2 * e + 1, by omega, by omega, rfl, by simp [quadNode], by simp [quadNode]⟩

/-- Element `e` is a rectangle. -/
theorem strip9_place {e : ℕ} (he : e < n) (i : Fin 9) (j : Fin 2) :
    coordOf (bendStrip9 L H E nu F n).nodes ((stripNodes n e).getD i 0) j =
      rect9 ((2 * e + 1) * (L / n / 2)) 0 (L / n / 2) (H / 2) i j := by
  obtain ⟨r, c, hr, hc, e1, e2, e3⟩ := strip9_node (K := K) he i
  have := congrFun (strip9_pos (n := n) (L := L) (H := H) (E := E) (nu := nu) (F := F) hr hc) j
  rw [e1]
  refine this.trans ?_
  rw [e2, e3]
  fin_cases j <;> simp [rect9] <;> ring

theorem strip9_lt {e : ℕ} (he : e < n) {v : ℕ} (hv : v ∈ stripNodes n e) : v < (bendStrip9 L H E nu F n).nodes.length := by
  rw [strip9_size]
  simp only [stripNodes, List.mem_cons, List.not_mem_nil, or_false] at hv
  rcases hv with rfl | rfl | rfl | rfl | rfl | rfl | rfl | rfl | rfl <;> exact nodeNo_lt (by omega) (by omega)

theorem strip9_el {e : ℕ} (he : e < n) : (bendStrip9 L H E nu F n).elements[e]? =
    some ((e : ℤ) :: 4 :: 0 :: (stripNodes n e).map fun v : ℕ => (v : ℤ)) := by
  simp [bendStrip9, List.getElem?_range he]

theorem strip9_mem {el : List ℤ} (hel : el ∈ (bendStrip9 L H E nu F n).elements) :
    ∃ e < n, el = (e : ℤ) :: 4 :: 0 :: (stripNodes n e).map fun v : ℕ => (v : ℤ) := by
  simp only [bendStrip9, List.mem_map, List.mem_range] at hel
  obtain ⟨e, he, rfl⟩ := hel
  exact ⟨e, he, rfl⟩

theorem strip9_member (hnu : nu ^ 2 ≠ 1) (htol : 1e-8 < L / n / 2 * (H / 2)) {el : List ℤ}
    (hel : el ∈ (bendStrip9 L H E nu F n).elements) :
    ∃ m, IsMember (Routine sq) (bendStrip9 L H E nu F n).mats (bendStrip9 L H E nu F n).nodes el m := by
  obtain ⟨e, he, rfl⟩ := strip9_mem hel
  set X := rect9 ((2 * e + 1) * (L / n / 2)) 0 (L / n / 2) (H / 2) with hX
  obtain ⟨C, hC⟩ := (C35_returns_iff [E, nu]).2 ⟨E, nu, rfl, hnu⟩
  have hret : ∃ k m, Returns elastQuad9 X [E, nu] k m := by
    refine ⟨_, _, (returns_plane_lax .quad9 (by decide) _ _ _ _).2
      ⟨C, _, mat2_cons.2 ⟨by simp, hC, rfl⟩, fun x hx => ?_, rfl, rfl⟩⟩
    obtain ⟨p, -, rfl⟩ := List.mem_map.1 hx
    unfold at2 jdet
    rw [hX, rect9_jac, Matrix.det_fin_two]
    simpa using htol
  obtain ⟨k, m, A, B, hAB, -, -⟩ := hret
  refine ⟨⟨stripNodes n e, cell A⟩, 4, 0, [E, nu], (stripNodes n e).map fun v => (bendStrip9 L H E nu F n).nodes.getD v [], elastQuad9, A, B,
    rfl, rfl, ⟨0, ⟨by simp [bendStrip9], .inl rfl⟩, rfl⟩, ?_, ?_, rfl, ?_, rfl⟩
  · rw [List.drop_succ_cons, List.drop_succ_cons, List.drop_succ_cons, List.drop_zero, List.forall₂_map_left_iff, List.forall₂_same]
    exact fun v hv => ⟨strip9_lt he hv, .inl rfl⟩
  · rw [List.forall₂_map_right_iff, List.forall₂_same]
    intro v hv
    rw [List.getD_eq_getElem?_getD, List.getElem?_eq_getElem (strip9_lt he hv)]
    rfl
  · have : matRows X = ((stripNodes n e).map fun v => (bendStrip9 L H E nu F n).nodes.getD v []).map (List.drop 1) := by
      apply List.ext_getElem
      · simp [matRows, stripNodes]
      · intro i h1 h2
        have hi : i < 9 := by simpa [matRows] using h1
        obtain ⟨r, c, hr, hc, e1, e2, e3⟩ := strip9_node (K := K) he ⟨i, hi⟩
        have e4 : (stripNodes n e)[i]'(by simpa [stripNodes] using hi) = nodeNo (2 * n) r c := by
          rw [← e1, List.getD_eq_getElem?_getD, List.getElem?_eq_getElem (by simpa [stripNodes] using hi)]
          rfl
        have e5 := strip9_row (L := L) (H := H) (E := E) (nu := nu) (F := F) hr hc
        simp only [List.getElem_map, e4, List.getD_eq_getElem?_getD, e5, Option.getD_some, List.drop_succ_cons, List.drop_zero]
        rw [e2, e3]
        simp only [matRows, List.getElem_ofFn]
        rw [hX]
        unfold rect9
        simp [List.ofFn_succ]
        constructor <;> ring
    rw [← this]
    exact hAB

theorem strip9_nodes (hms : Members sq (bendStrip9 L H E nu F n) ms) {e : ℕ} (he : e < n) :
    ∃ m, ms[e]? = some m ∧ m.nodes = stripNodes n e := by
  have hi : e < (bendStrip9 L H E nu F n).elements.length := by simpa [bendStrip9] using he
  have hi' : e < ms.length := by rw [← hms.length_eq]; exact hi
  refine ⟨ms[e], List.getElem?_eq_getElem hi', ?_⟩
  have hmem := hms.get (i := e) hi hi'
  simp only [List.get_eq_getElem] at hmem
  have h2 := strip9_el (L := L) (H := H) (E := E) (nu := nu) (F := F) he
  rw [List.getElem?_eq_getElem hi, Option.some.injEq] at h2
  rw [h2] at hmem
  obtain ⟨_, _, _, _, _, _, _, _, _, _, a5, _⟩ := hmem
  exact resolves_nat (fun v hv => strip9_lt he hv) a5

theorem strip9_index (hms : Members sq (bendStrip9 L H E nu F n) ms) {m : Member K} (hm : m ∈ ms) : ∃ e < n, ms[e]? = some m := by
  obtain ⟨e, he, rfl⟩ := List.mem_iff_getElem.1 hm
  have : ms.length = n := by rw [← hms.length_eq]; simp [bendStrip9]
  exact ⟨e, by omega, List.getElem?_eq_getElem he⟩

theorem strip9_connected (hms : Members sq (bendStrip9 L H E nu F n) ms) (hH : H ≠ 0) :
    Connected (bendStrip9 L H E nu F n).nodes ms := by
  set d := bendStrip9 L H E nu F n with hd
  let R : Member K → Member K → Prop := fun a b => (a ∈ ms ∧ b ∈ ms) ∧ Shares d.nodes a b
  have hsym : Std.Symm R := ⟨fun a b hab => by
    obtain ⟨⟨h1, h2⟩, p, q, pa, qa, pb, qb, hap⟩ := hab
    exact ⟨⟨h2, h1⟩, p, q, pb, qb, pa, qa, hap⟩⟩
  have next : ∀ {e : ℕ} {a b : Member K}, e + 1 < n → ms[e]? = some a → ms[e + 1]? = some b → R a b := by
    intro e a b he ha hb
    obtain ⟨a', ha', na⟩ := strip9_nodes hms (by omega : e < n)
    obtain ⟨b', hb', nb⟩ := strip9_nodes hms he
    rw [ha, Option.some.injEq] at ha'
    rw [hb, Option.some.injEq] at hb'
    subst ha' hb'
    refine ⟨⟨List.mem_of_getElem? ha, List.mem_of_getElem? hb⟩, nodeNo (2 * n) 0 (2 * e + 2), nodeNo (2 * n) 2 (2 * e + 2),
      by simp [na, stripNodes], by simp [na, stripNodes], by simp [nb, stripNodes, mul_add], by simp [nb, stripNodes, mul_add], .inr ?_⟩
    have e1 := congrFun (strip9_pos (n := n) (L := L) (H := H) (E := E) (nu := nu) (F := F) (r := 0) (c := 2 * e + 2) (by omega) (by omega)) 1
    have e2 := congrFun (strip9_pos (n := n) (L := L) (H := H) (E := E) (nu := nu) (F := F) (r := 2) (c := 2 * e + 2) (by omega) (by omega)) 1
    simp [posOf] at e1 e2
    rw [hd, e1, e2]
    intro h
    apply hH
    linear_combination -h
  have reach : ∀ {e : ℕ} {o a : Member K}, e < n → ms[0]? = some o → ms[e]? = some a → Relation.ReflTransGen R o a := by
    intro e o a he ho
    induction e generalizing a with
    | zero =>
      intro ha
      rw [ho, Option.some.injEq] at ha
      rw [ha]
    | succ e ih =>
      intro ha
      obtain ⟨b, hb, _⟩ := strip9_nodes hms (by omega : e < n)
      exact (ih (by omega) hb).tail (next he hb ha)
  intro m hm m' hm'
  obtain ⟨e, he, h1⟩ := strip9_index hms hm
  obtain ⟨e', he', h1'⟩ := strip9_index hms hm'
  obtain ⟨o, ho, _⟩ := strip9_nodes hms (by omega : 0 < n)
  have p1 := reach he ho h1
  have p2 := reach he' ho h1'
  have p3 : Relation.ReflTransGen R m m' := ((Relation.ReflTransGen.stdSymm (r := R)).symm _ _ p1).trans p2
  exact Relation.ReflTransGen.mono (fun a b hab => ⟨hab.1.2, hab.2⟩) _ _ p3

theorem strip9_used (hms : Members sq (bendStrip9 L H E nu F n) ms) (hn : 0 < n) {p : ℕ}
    (hp : p < (bendStrip9 L H E nu F n).nodes.length) : ∃ m ∈ ms, p ∈ m.nodes := by
  rw [strip9_size] at hp
  obtain ⟨r, c, hr, hc, rfl⟩ := node_split hp
  obtain ⟨e, δ, he, hδ, e1⟩ : ∃ e δ, e < n ∧ δ < 3 ∧ c = 2 * e + δ := by
    by_cases h : c = 2 * n
    · exact ⟨n - 1, 2, by omega, by omega, by omega⟩
    · exact ⟨c / 2, c % 2, by omega, by omega, by omega⟩
  obtain ⟨m, hm, hmn⟩ := strip9_nodes hms he
  refine ⟨m, List.mem_of_getElem? hm, ?_⟩
  rw [hmn, e1]
  have h1 : r = 0 ∨ r = 1 ∨ r = 2 := by omega
  have h2 : δ = 0 ∨ δ = 1 ∨ δ = 2 := by omega
  rcases h1 with rfl | rfl | rfl <;> rcases h2 with rfl | rfl | rfl <;> simp [stripNodes]

theorem strip9_mesh (htol : 1e-8 < L / n / 2 * (H / 2)) (hE : 0 < E) (h1 : -1 < nu) (h2 : nu < 1) :
    ∃ ms, SolidMesh sq (bendStrip9 L H E nu F n) ms := by
  have hpos : 0 < L / n / 2 * (H / 2) := tol_pos.trans htol
  have hn : 0 < n := by
    rcases Nat.eq_zero_or_pos n with rfl | h
    · simp at hpos
    · exact h
  have hH : H ≠ 0 := by
    rintro rfl
    simp at hpos
  have hnu : nu ^ 2 ≠ 1 := by nlinarith
  obtain ⟨ms, hms⟩ := forall₂_of_forall (l := (bendStrip9 L H E nu F n).elements) fun el hel => strip9_member (sq := sq) hnu htol hel
  refine ⟨ms, strip9_widths, hms, ?_, ?_, fun p hp => strip9_used hms hn hp, strip9_connected hms hH⟩
  · intro el hel ty hty
    obtain ⟨e, he, rfl⟩ := strip9_mem hel
    have : ty = 4 := by simpa using hty.symm
    refine .inr (.inr (.inr ⟨this, stripNodes n e, ![(2 * e + 1) * (L / n / 2), 0], !![L / n / 2, 0; 0, H / 2], ?_, ?_⟩))
    · rw [List.drop_succ_cons, List.drop_succ_cons, List.drop_succ_cons, List.drop_zero, List.forall₂_map_left_iff, List.forall₂_same]
      exact fun v hv => ⟨strip9_lt he hv, .inl rfl⟩
    · intro a i
      rw [strip9_place he]
      fin_cases i <;> simp [rect9]
  · intro el hel mi q params hmi hq hp
    obtain ⟨e, he, rfl⟩ := strip9_mem hel
    have hmi : mi = 0 := by simpa using hmi.symm
    subst hmi
    have : q = 0 := resolves_unique hq ⟨by simp [bendStrip9], .inl rfl⟩
    subst this
    have : params = [E, nu] := by simpa [bendStrip9] using hp.symm
    exact ⟨E, nu, [], this, hE, h1, h2, by simp⟩

theorem strip9_placed (hms : Members sq (bendStrip9 L H E nu F n) ms) {C : Matrix (Fin 3) (Fin 3) K} (hC : umat [E, nu] = .ok C)
    {e : ℕ} (he : e < n) {m : Member K} (hm : ms[e]? = some m) :
    Placed (bendStrip9 L H E nu F n).nodes m (rect9 ((2 * e + 1) * (L / n / 2)) 0 (L / n / 2) (H / 2))
      (stiff2 (ruleQuad shapeQuad9 pts1d3 wts1d3) (rect9 ((2 * e + 1) * (L / n / 2)) 0 (L / n / 2) (H / 2)) C) := by
  obtain ⟨m', hm', hn⟩ := strip9_nodes hms he
  rw [hm, Option.some.injEq] at hm'
  subst hm'
  have hi : e < (bendStrip9 L H E nu F n).elements.length := by simpa [bendStrip9] using he
  obtain ⟨hi', hme⟩ := List.getElem?_eq_some_iff.1 hm
  have hmem := hms.get (i := e) hi hi'
  simp only [List.get_eq_getElem] at hmem
  have h2 := strip9_el (L := L) (H := H) (E := E) (nu := nu) (F := F) he
  rw [List.getElem?_eq_getElem hi, Option.some.injEq] at h2
  rw [h2, hme] at hmem
  obtain ⟨ty, mi, q, params, k9, f, X, k, mm, a1, a2, a3, a4, a5, a6, a7, a8⟩ := member_placed hmem strip9_widths (by
    intro ty h1
    simp at h1
    subst h1
    simp)
  simp only [List.getElem?_cons_succ, List.getElem?_cons_zero, Option.some.injEq] at a1 a3
  subst a1 a3
  have hfe : f = elastQuad9 := by
    simp only [Uel.eleFun, Except.ok.injEq] at a2
    exact a2.symm
  subst hfe
  have hn9 : k9 = 9 := by rw [← a8.size, hn]; rfl
  subst hn9
  have : q = 0 := resolves_unique a4 ⟨by simp [bendStrip9], .inl rfl⟩
  subst this
  have hp : params = [E, nu] := by simpa [bendStrip9] using a5.symm
  subst hp
  obtain ⟨C', ρ, hm', ha, hk, -⟩ := (returns_plane_lax (K := K) .quad9 (by decide) _ _ _ _).1 a7
  have hC' := (mat2_cons.1 hm').2.1
  rw [hC, Except.ok.injEq] at hC'
  subst hC'
  have hX : X = rect9 ((2 * e + 1) * (L / n / 2)) 0 (L / n / 2) (H / 2) := by
    ext i j
    rw [← strip9_place (E := E) (nu := nu) (F := F) he i j]
    have := a8.coord i j
    rw [hn] at this
    unfold coordOf fieldOf
    rw [this]
    rfl
  rw [hk, hX] at a8
  exact a8

/-- The bending field at the nodes of the strip. -/
def Spec.bendNodes (κ nu : K) (nodes : List (List K)) : ℕ → ℕ → K := fun p j =>
  if hj : j < 2 then bendField κ nu (coordOf nodes p 0) (coordOf nodes p 1) ⟨j, hj⟩ else 0

theorem strip9_internal (hms : Members sq (bendStrip9 L H E nu F n) ms) {C : Matrix (Fin 3) (Fin 3) K} (hC : umat [E, nu] = .ok C)
    (hpos : L / n / 2 * (H / 2) ≠ 0) (κ : K) {r q : ℕ} (hr : r ≤ 2) (hq : q ≤ 2 * n) (j : Fin 2) :
    internal 2 ms (bendNodes κ nu (bendStrip9 L H E nu F n).nodes) (nodeNo (2 * n) r q) j = if j = 0 then
      E * κ * (H / 2) ^ 2 * ((rule0 : K) * (rule2 : K) / 4) * (((r : K) - 1) * ((if 2 * n = q then 1 else 0) - (if 0 = q then 1 else 0)))
      else 0 := by
  have ha := left_ne_zero_of_mul hpos
  have hb := right_ne_zero_of_mul hpos
  let f : ℕ → K := fun e => if j = 0 then E * κ * (H / 2) ^ 2 * ((rule0 : K) * (rule2 : K) / 4) *
    (((r : K) - 1) * ((if 2 * (e + 1) = q then 1 else 0) - (if 2 * e = q then 1 else 0))) else 0
  have hf : ms.map (fun m => m.form 2 (unitField (nodeNo (2 * n) r q) j) (bendNodes κ nu (bendStrip9 L H E nu F n).nodes)) =
      (List.range n).map f := by
    have hl : ms.length = n := by rw [← hms.length_eq]; simp [bendStrip9]
    refine List.ext_getElem (by simp [hl]) fun e h1 h2 => ?_
    have he : e < n := by simpa using h2
    obtain ⟨m, hm, hn⟩ := strip9_nodes hms he
    have hme : ms[e]'(by omega) = m := (List.getElem?_eq_some_iff.1 hm).2
    simp only [List.getElem_map, List.getElem_range, hme]
    rw [(strip9_placed hms hC he hm).form, rect9_form ha hb κ _ hC]
    · have inj : ∀ {x y : ℕ}, y ≤ 2 * n → (nodeNo (2 * n) x y = nodeNo (2 * n) r q ↔ x = r ∧ y = q) := by
        intro x y hy
        exact ⟨fun e => nodeNo_inj hy hq e, by rintro ⟨rfl, rfl⟩; rfl⟩
      have i0 := inj (x := 0) (by omega : 2 * e ≤ 2 * n)
      have i1 := inj (x := 0) (by omega : 2 * e + 2 ≤ 2 * n)
      have i2 := inj (x := 2) (by omega : 2 * e + 2 ≤ 2 * n)
      have i3 := inj (x := 2) (by omega : 2 * e ≤ 2 * n)
      have hr' : r = 0 ∨ r = 1 ∨ r = 2 := by omega
      simp only [f, Member.pick, hn, stripNodes, unitField, mul_add, mul_one]
      fin_cases j
      · simp [i0, i1, i2, i3]
        rcases hr' with rfl | rfl | rfl <;> simp
        norm_num
      · simp
    · intro i j
      unfold Member.pick bendNodes
      rw [dif_pos j.2]
      have e0 := strip9_place (L := L) (H := H) (E := E) (nu := nu) (F := F) he i 0
      have e1 := strip9_place (L := L) (H := H) (E := E) (nu := nu) (F := F) he i 1
      simp only [Fin.val_zero, Fin.val_one] at e0 e1
      rw [hn]
      simp only
      rw [e0, e1]
  rw [internal_form j.2, hf]
  have hsum : ∀ (k : ℕ) (g : ℕ → K), ((List.range k).map g).sum = ∑ i ∈ Finset.range k, g i := by
    intro k g
    induction k with
    | zero => simp
    | succ k ih => rw [List.range_succ, List.map_append, List.sum_append, Finset.sum_range_succ, ih]; simp
  rw [hsum]
  simp only [f]
  fin_cases j
  · simp only [Fin.zero_eta, if_true, ← Finset.mul_sum]
    rw [Finset.sum_range_sub (fun e => if 2 * e = q then (1 : K) else 0)]
  · simp

/-- Curvature computed for the strip of nine-node elements. -/
def Spec.curvature9 (H E F : K) : K := 16 * F / (E * H ^ 2 * ((rule0 : K) * (rule2 : K)))

/-- C148.  A strip of one row of nine-node elements returns the displacements of exact bending at all its nodes (the curvature is
that of the beam times `4 / (3 S0 S2)`, where the weights of the rule have the sum `S0` and the second moment `S2`). -/
theorem C148_quad9 (hs : SqrtFn sq) (hsp : SolverOk sp) (htol : 1e-8 < L / n / 2 * (H / 2)) (hE : 0 < E)
    (h1 : -1 < nu) (h2 : nu < 1) : ∃ res, Gui.solidsAuto sq sp de (bendStrip9 L H E nu F n) false = .ok res ∧ res.warned = false ∧
      ∀ r q, r ≤ 2 → q ≤ 2 * n → ∀ j : Fin 2, entry res.disp (nodeNo (2 * n) r q) j =
        some (bendField (curvature9 H E F) nu (q * (L / n / 2)) (((r : K) - 1) * (H / 2)) j) := by
  have hwf := strip9_wf (L := L) (H := H) (E := E) (nu := nu) (F := F) (n := n)
  have hpos : 0 < L / n / 2 * (H / 2) := tol_pos.trans htol
  have hn : 0 < n := by
    rcases Nat.eq_zero_or_pos n with rfl | h
    · simp at hpos
    · exact h
  have hH : H ≠ 0 := by
    rintro rfl
    simp at hpos
  obtain ⟨ms, hm⟩ := strip9_mesh (sq := sq) (F := F) htol hE h1 h2
  have hsup : Supported (bendStrip9 L H E nu F n).cons (bendStrip9 L H E nu F n).nodes := by
    refine C95_pin_roller hwf (p := nodeNo (2 * n) 1 0) (q := nodeNo (2 * n) 2 0) (j := 0) ?_ ?_ (by omega) ?_ ?_ ?_
    · rw [strip9_size]
      exact nodeNo_lt (by omega) (by omega)
    · rw [strip9_size]
      exact nodeNo_lt (by omega) (by omega)
    · have e1 := congrFun (strip9_pos (n := n) (L := L) (H := H) (E := E) (nu := nu) (F := F) (r := 1) (c := 0) (by omega) (by omega)) 1
      have e2 := congrFun (strip9_pos (n := n) (L := L) (H := H) (E := E) (nu := nu) (F := F) (r := 2) (c := 0) (by omega) (by omega)) 1
      simp [posOf] at e1 e2
      simp only [Nat.sub_zero]
      rw [e1, e2]
      intro he
      apply hH
      linear_combination -2 * he
    · intro j hj
      have := strip9_free (L := L) (H := H) (E := E) (nu := nu) (F := F) (n := n) (r := 1) (c := 0) (by omega) (by omega) ⟨j, hj⟩
      simp only [this, not_not]
      split <;> simp
    · have := strip9_free (L := L) (H := H) (E := E) (nu := nu) (F := F) (n := n) (r := 2) (c := 0) (by omega) (by omega) 0
      simp only [Fin.val_zero] at this
      rw [this]
      simp
  have hst := (C95_stable_iff hs hm hwf).2 hsup
  obtain ⟨res, hres, hw⟩ := C95_solids_auto (de := de) hs hm hwf hsp hsup
    ⟨nodeNo (2 * n) 0 (2 * n), 0, by
      have := strip9_free (L := L) (H := H) (E := E) (nu := nu) (F := F) (r := 0) (c := 2 * n) (by omega) (le_refl _) 0
      simp only [Fin.val_zero] at this
      rw [this]
      simp
      omega⟩ (by
      intro l hl
      rw [strip9_size]
      simp only [bendStrip9, List.mem_cons, List.not_mem_nil, or_false] at hl
      rcases hl with rfl | rfl
      · exact ⟨by simp, _, (names_nat (nodeNo_lt (by omega) (le_refl _)) rfl).2 rfl⟩
      · exact ⟨by simp, _, (names_nat (nodeNo_lt (by omega) (le_refl _)) rfl).2 rfl⟩)
  refine ⟨res, hres, hw, ?_⟩
  have hnu : 0 < 1 - nu ^ 2 := by nlinarith
  obtain ⟨C, hC⟩ := (C35_returns_iff [E, nu]).2 ⟨E, nu, rfl, fun h => hnu.ne' (by rw [h, sub_self])⟩
  have hrule : (rule0 : K) * (rule2 : K) ≠ 0 := by
    have a1 : rule0 ≠ 0 := by norm_num [rule0]
    have a2 : rule2 ≠ 0 := by norm_num [rule2]
    exact mul_ne_zero (by exact_mod_cast a1) (by exact_mod_cast a2)
  have heq : Equilibrium (bendStrip9 L H E nu F n).cons 2 (bendStrip9 L H E nu F n).loads ms
      (bendNodes (curvature9 H E F) nu (bendStrip9 L H E nu F n).nodes) := by
    constructor
    · intro p j hp hj hf
      rw [hwf.size, strip9_size] at hp
      obtain ⟨r, c, hr, hc, rfl⟩ := node_split hp
      have hf' := strip9_free (L := L) (H := H) (E := E) (nu := nu) (F := F) hr hc ⟨j, hj⟩
      rw [hf', not_not] at hf
      have e0 := congrFun (strip9_pos (L := L) (H := H) (E := E) (nu := nu) (F := F) hr hc) 0
      have e1 := congrFun (strip9_pos (L := L) (H := H) (E := E) (nu := nu) (F := F) hr hc) 1
      simp only [posOf, Fin.val_zero, Fin.val_one] at e0 e1
      unfold bendNodes
      rw [dif_pos hj, e0, e1]
      have hj' : j = 0 ∨ j = 1 := by omega
      rcases hj' with rfl | rfl
      · have : c = 0 := by simpa using hf
        simp [bendField, this]
      · have : r = 1 ∧ c = 0 := by simpa using hf
        simp [bendField, this.1, this.2]
    · intro p j hf
      have hp : p < (2 * n + 1) * (2 + 1) := by
        rw [← strip9_size (L := L) (H := H) (E := E) (nu := nu) (F := F), ← hwf.size]
        exact free_lt hf
      obtain ⟨r, q, hr, hq, rfl⟩ := node_split hp
      have hj := hf.1
      have hf' := (strip9_free hr hq ⟨j, hj⟩).1 hf
      rw [strip9_internal hm.members hC hpos.ne' _ hr hq ⟨j, hj⟩, hwf.size]
      have hl := strip9_load (L := L) (H := H) (E := E) (nu := nu) (F := F) hr hq ⟨j, hj⟩
      convert hl using 1
      have hj' : j = 0 ∨ j = 1 := by omega
      rcases hj' with rfl | rfl
      · have hq0 : q ≠ 0 := by simpa using hf'
        simp only [Fin.zero_eta, if_true, and_true]
        unfold curvature9
        generalize (rule0 : K) * (rule2 : K) = D at hrule ⊢
        rw [if_neg (Ne.symm hq0), sub_zero]
        by_cases hqn : q = 2 * n
        · rw [if_pos hqn, if_pos hqn.symm]
          field_simp
          ring
        · rw [if_neg hqn, if_neg (Ne.symm hqn), mul_zero, mul_zero]
      · simp
  intro r q hr hq j
  have hp : nodeNo (2 * n) r q < (bendStrip9 L H E nu F n).nodes.length := by
    rw [strip9_size]
    exact nodeNo_lt hr hq
  have e0 := congrFun (strip9_pos (L := L) (H := H) (E := E) (nu := nu) (F := F) hr hq) 0
  have e1 := congrFun (strip9_pos (L := L) (H := H) (E := E) (nu := nu) (F := F) hr hq) 1
  simp only [posOf, Fin.val_zero, Fin.val_one] at e0 e1
  rw [C19_only_equilibrium hwf hsp hm.members hst hres heq _ j hp j.2]
  unfold bendNodes
  rw [dif_pos j.2, e0, e1]
  rfl

/-- C148.  The curvature of the nine-node strip differs from that of the beam by less than 1e-17 of it. -/
theorem C148_quad9_exact (hH : H ≠ 0) (hE : E ≠ 0) : curvature9 H E F * ((3 : K) / 4 * ((rule0 : K) * (rule2 : K))) = beamCurvature H E F ∧
    |(3 : K) / 4 * ((rule0 : K) * (rule2 : K)) - 1| < 1e-17 := by
  have hrule : (rule0 : K) * (rule2 : K) ≠ 0 := by
    have a1 : rule0 ≠ 0 := by norm_num [rule0]
    have a2 : rule2 ≠ 0 := by norm_num [rule2]
    exact mul_ne_zero (by exact_mod_cast a1) (by exact_mod_cast a2)
  constructor
  · unfold curvature9 beamCurvature
    generalize (rule0 : K) * (rule2 : K) = D at hrule ⊢
    field_simp
    ring
  · have h : |(3 : ℚ) / 4 * (rule0 * rule2) - 1| < 1e-17 := by norm_num [rule0, rule2, abs_lt]
    have h' : (((|(3 : ℚ) / 4 * (rule0 * rule2) - 1| : ℚ)) : K) < ((1e-17 : ℚ) : K) := Rat.cast_lt.2 h
    push_cast at h'
    norm_num at h' ⊢
    exact h'

end
end
/-! ## Cases -/

section demo

/-- Case for C148: a strip of length 10 and height 1 in one cell, `E = 1000`, `nu = 0`, forces 1: the end sinks by less than 0.012,
where the beam sinks by 0.6. -/
example : ∃ res, Gui.solidsAuto Real.sqrt cramerR cramerR (bendStrip (10 : ℝ) 1 1000 0 1 1) false = .ok res ∧
    ∃ v, entry res.disp 1 1 = some v ∧ -0.012 < v ∧ beamCurvature (1 : ℝ) 1000 1 * 10 ^ 2 / 2 = 0.6 := by
  obtain ⟨res, h1, -, h3⟩ := C148_bending (K := ℝ) (L := 10) (H := 1) (E := 1000) (nu := 0) (n := 1) (F := 1)
    (de := cramerR) sqrtFn_real cramerR_ok (by norm_num) (by norm_num) (by norm_num) (by norm_num)
  refine ⟨res, h1, _, (h3 0 1 (by omega) (by omega)).2, ?_, by norm_num [beamCurvature]⟩
  norm_num [cellCurvature, gaussPt]

/-- Case for C148: the same strip as one nine-node element. -/
example : ∃ res, Gui.solidsAuto Real.sqrt cramerR cramerR (bendStrip9 (10 : ℝ) 1 1000 0 1 1) false = .ok res ∧
    ∃ v, entry res.disp 5 1 = some v ∧ |v + 0.6| < 1e-15 := by
  obtain ⟨res, h1, -, h3⟩ := C148_quad9 (K := ℝ) (L := 10) (H := 1) (E := 1000) (nu := 0) (n := 1) (F := 1)
    (de := cramerR) sqrtFn_real cramerR_ok (by norm_num) (by norm_num) (by norm_num) (by norm_num)
  refine ⟨res, h1, _, h3 1 2 (by omega) (by omega) 1, ?_⟩
  norm_num [bendField, curvature9, rule0, rule2, abs_lt]

end demo

end SolidsPy
