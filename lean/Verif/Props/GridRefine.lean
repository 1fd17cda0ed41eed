import Verif.Props.GridModel
import Verif.Props.Refinement
import Mathlib.Tactic.LinearCombination

/-! # C133: halving the cells of a rectangular grid -/

set_option linter.unusedSectionVars false

namespace SolidsPy
open Spec Fem Uel Gauss Pre Assem Matrix

section
variable {K : Type} [Field K] [LinearOrder K] [IsStrictOrderedRing K] [FloorRing K]
variable {sq : K → K} {sp de : Sol.Solver K} {d d' : Gui.Data K} {ms ms' : List (Member K)}
variable {L H E nu : K} {rest rest' : List K} {nx ny : ℕ}

/-- The coordinate of the Gauss points of the quadrilateral. -/
def gaussPt : ℚ := 0.577350269189625764

/-- Strain at the centre of a rectangle of sides `a`, `b` with the displacements `u` of its corners. -/
def centreStrain (a b : K) (u : Fin 4 → Fin 2 → K) : Fin 3 → K :=
  ![((u 1 0 - u 0 0) + (u 2 0 - u 3 0)) / (2 * a), ((u 3 1 - u 0 1) + (u 2 1 - u 1 1)) / (2 * b),
    ((u 3 0 - u 0 0) + (u 2 0 - u 1 0)) / (2 * b) + ((u 1 1 - u 0 1) + (u 2 1 - u 3 1)) / (2 * a)]

/-- Change of the strain from the centre to the middle of the upper side. -/
def upStrain (a : K) (u : Fin 4 → Fin 2 → K) : Fin 3 → K :=
  ![(u 0 0 - u 1 0 + u 2 0 - u 3 0) / (2 * a), 0, (u 0 1 - u 1 1 + u 2 1 - u 3 1) / (2 * a)]

/-- Change of the strain from the centre to the middle of the right side. -/
def rightStrain (b : K) (u : Fin 4 → Fin 2 → K) : Fin 3 → K :=
  ![0, (u 0 1 - u 1 1 + u 2 1 - u 3 1) / (2 * b), (u 0 0 - u 1 0 + u 2 0 - u 3 0) / (2 * b)]

/-- Energy (twice) of the rectangle: the part of the centre and the part of the variation. -/
def meanPart (a b : K) (C : Matrix (Fin 3) (Fin 3) K) (u : Fin 4 → Fin 2 → K) : K :=
  a * b * (centreStrain a b u ⬝ᵥ C.mulVec (centreStrain a b u))

def bendPart (a b : K) (C : Matrix (Fin 3) (Fin 3) K) (u : Fin 4 → Fin 2 → K) : K :=
  a * b * (upStrain a u ⬝ᵥ C.mulVec (upStrain a u) + rightStrain b u ⬝ᵥ C.mulVec (rightStrain b u))

/-- A rectangle with lower left corner `(x, y)` and sides `a`, `b`. -/
def rectAt (x y a b : K) : Matrix (Fin 4) (Fin 2) K := !![x, y; x + a, y; x + a, y + b; x, y + b]

theorem rect_jac (x y a b r s : K) : (shapeQuad4 r s).2 * rectAt x y a b = !![a / 2, 0; 0, b / 2] := by
  ext i j
  fin_cases i <;> fin_cases j <;> simp [Matrix.mul_apply, Fin.sum_univ_four, shapeQuad4, rectAt, lit_quarter] <;> ring

theorem rect_strain {a b : K} (ha : a ≠ 0) (hb : b ≠ 0) (x y r s : K) (u : Fin 4 × Fin 2 → K) :
    (bMat2 (grad (shapeQuad4 r s).2 (rectAt x y a b))).mulVec u =
      centreStrain a b (fun i j => u (i, j)) + s • upStrain a (fun i j => u (i, j)) +
        r • rightStrain b (fun i j => u (i, j)) := by
  have hg : grad (shapeQuad4 r s).2 (rectAt x y a b) = !![2 / a, 0; 0, 2 / b] * (shapeQuad4 r s).2 := by
    unfold grad
    rw [rect_jac]
    congr 1
    rw [Matrix.det_fin_two, Matrix.adjugate_fin_two]
    ext i j
    fin_cases i <;> fin_cases j <;> simp <;> field_simp
  rw [hg, bMat2_mulVec]
  funext i
  fin_cases i <;>
  · simp [Fin.sum_univ_four, Matrix.mul_apply, Fin.sum_univ_two, shapeQuad4, lit_quarter, centreStrain, upStrain, rightStrain]
    field_simp
    ring

theorem rect_energy {a b : K} (ha : a ≠ 0) (hb : b ≠ 0) (x y : K) (C : Matrix (Fin 3) (Fin 3) K) (u : Fin 4 × Fin 2 → K) :
    u ⬝ᵥ (stiff2 (ruleQuad shapeQuad4 pts1d2 wts1d2) (rectAt x y a b) C).mulVec u =
      meanPart a b C (fun i j => u (i, j)) + (gaussPt : K) ^ 2 * bendPart a b C (fun i j => u (i, j)) := by
  unfold stiff2
  rw [stiff_form]
  have h1 : pts1d2 = [-gaussPt, gaussPt] := by decide +kernel
  have h2 : wts1d2 = [1, 1] := by decide +kernel
  have hj : ∀ r s : K, jdet (shapeQuad4 r s) (rectAt x y a b) = a * b / 4 := by
    intro r s
    unfold jdet
    rw [rect_jac, Matrix.det_fin_two]
    simp
    ring
  simp only [ruleQuad, at2, List.map_map, Function.comp_def, hj, rect_strain ha hb]
  rw [h1, h2]
  unfold meanPart bendPart
  generalize centreStrain a b (fun i j => u (i, j)) = e0
  generalize upStrain a (fun i j => u (i, j)) = e1
  generalize rightStrain b (fun i j => u (i, j)) = e2
  simp [prodRepeat, dotProduct, Matrix.mulVec, Fin.sum_univ_three]
  ring

/-- The four quarters of a rectangle with the displacements of the bilinear function of its corners. -/
theorem quarters (a b : K) (C : Matrix (Fin 3) (Fin 3) K) (u : Fin 4 → Fin 2 → K) :
    let mid := fun (i k : Fin 4) (j : Fin 2) => (u i j + u k j) / 2
    let cen := fun (j : Fin 2) => (u 0 j + u 1 j + u 2 j + u 3 j) / 4
    let q0 : Fin 4 → Fin 2 → K := ![u 0, mid 0 1, cen, mid 0 3]
    let q1 : Fin 4 → Fin 2 → K := ![mid 0 1, u 1, mid 1 2, cen]
    let q2 : Fin 4 → Fin 2 → K := ![mid 0 3, cen, mid 2 3, u 3]
    let q3 : Fin 4 → Fin 2 → K := ![cen, mid 1 2, u 2, mid 2 3]
    meanPart (a / 2) (b / 2) C q0 + meanPart (a / 2) (b / 2) C q1 + (meanPart (a / 2) (b / 2) C q2 + meanPart (a / 2) (b / 2) C q3) =
      meanPart a b C u + bendPart a b C u / 4 ∧
    bendPart (a / 2) (b / 2) C q0 + bendPart (a / 2) (b / 2) C q1 + (bendPart (a / 2) (b / 2) C q2 + bendPart (a / 2) (b / 2) C q3) =
      bendPart a b C u / 4 := by
  intro mid cen q0 q1 q2 q3
  have hh : ∀ x : K, 2 * (x / 2) = x := fun x => by ring
  have m0 : ∀ q : Fin 4 → Fin 2 → K, ∀ σ τ : K, centreStrain (a / 2) (b / 2) q = centreStrain a b u + σ • upStrain a u + τ • rightStrain b u →
      meanPart (a / 2) (b / 2) C q = a * b / 4 * ((centreStrain a b u + σ • upStrain a u + τ • rightStrain b u) ⬝ᵥ
        C.mulVec (centreStrain a b u + σ • upStrain a u + τ • rightStrain b u)) := by
    intro q σ τ h
    unfold meanPart
    rw [h]
    ring
  have b0 : ∀ q : Fin 4 → Fin 2 → K, upStrain (a / 2) q = (1 / 2 : K) • upStrain a u → rightStrain (b / 2) q = (1 / 2 : K) • rightStrain b u →
      bendPart (a / 2) (b / 2) C q = bendPart a b C u / 16 := by
    intro q h1 h2
    unfold bendPart
    rw [h1, h2, mulVec_smul, mulVec_smul, dotProduct_smul, smul_dotProduct, dotProduct_smul, smul_dotProduct]
    simp only [smul_eq_mul]
    ring
  have c0 : centreStrain (a / 2) (b / 2) q0 = centreStrain a b u + (-1 / 2 : K) • upStrain a u + (-1 / 2 : K) • rightStrain b u := by
    funext i
    fin_cases i <;> simp [centreStrain, upStrain, rightStrain, q0, mid, cen, hh] <;> ring
  have c1 : centreStrain (a / 2) (b / 2) q1 = centreStrain a b u + (-1 / 2 : K) • upStrain a u + (1 / 2 : K) • rightStrain b u := by
    funext i
    fin_cases i <;> simp [centreStrain, upStrain, rightStrain, q1, mid, cen, hh] <;> ring
  have c2 : centreStrain (a / 2) (b / 2) q2 = centreStrain a b u + (1 / 2 : K) • upStrain a u + (-1 / 2 : K) • rightStrain b u := by
    funext i
    fin_cases i <;> simp [centreStrain, upStrain, rightStrain, q2, mid, cen, hh] <;> ring
  have c3 : centreStrain (a / 2) (b / 2) q3 = centreStrain a b u + (1 / 2 : K) • upStrain a u + (1 / 2 : K) • rightStrain b u := by
    funext i
    fin_cases i <;> simp [centreStrain, upStrain, rightStrain, q3, mid, cen, hh] <;> ring
  constructor
  · rw [m0 _ _ _ c0, m0 _ _ _ c1, m0 _ _ _ c2, m0 _ _ _ c3]
    unfold meanPart bendPart
    generalize centreStrain a b u = e0
    generalize upStrain a u = e1
    generalize rightStrain b u = e2
    simp only [dotProduct, Matrix.mulVec, Fin.sum_univ_three, Pi.add_apply, Pi.smul_apply, smul_eq_mul]
    ring
  · have k0 : ∀ q ∈ [q0, q1, q2, q3], upStrain (a / 2) q = (1 / 2 : K) • upStrain a u ∧
        rightStrain (b / 2) q = (1 / 2 : K) • rightStrain b u := by
      intro q hq
      simp only [List.mem_cons, List.not_mem_nil, or_false] at hq
      rcases hq with rfl | rfl | rfl | rfl <;> constructor <;> funext i <;> fin_cases i <;>
        simp [upStrain, rightStrain, q0, q1, q2, q3, mid, cen, hh] <;> ring
    rw [b0 q0 (k0 q0 (by simp)).1 (k0 q0 (by simp)).2, b0 q1 (k0 q1 (by simp)).1 (k0 q1 (by simp)).2,
      b0 q2 (k0 q2 (by simp)).1 (k0 q2 (by simp)).2, b0 q3 (k0 q3 (by simp)).1 (k0 q3 (by simp)).2]
    ring


/-! ## Sums over the cells -/

theorem GridModel.sum (h : GridModel d L H nx ny E nu rest) {fn : ℤ → Uel K → Prop}
    (hms : List.Forall₂ (IsMember fn d.mats d.nodes) d.elements ms) (f : Member K → K) (g : ℕ → ℕ → K)
    (hfg : ∀ r c, r < ny → c < nx → ∀ m ∈ ms, m.nodes = cellNodes nx r c → f m = g r c) :
    (ms.map f).sum = ∑ r ∈ Finset.range ny, ∑ c ∈ Finset.range nx, g r c := by
  have hl : ms.map f = (List.range ny).flatMap fun r => (List.range nx).map fun c => g r c := by
    have hlen : ms.length = nx * ny := by
      rw [← hms.length_eq, h.elements]
      exact gridEls_length nx ny
    apply List.ext_getElem?
    intro e
    by_cases he : e < nx * ny
    · obtain ⟨h1, h2, h3⟩ := div_mod_lt he
      obtain ⟨m, hm, hn⟩ := h.nodes_of hms h1 h2
      have h4 := flatMap_map_getElem? (List.range ny) (List.range nx) (fun r c : ℕ => g r c)
        (a := e / nx) (b := e % nx) (x := e / nx) (by simpa using h2) (by simp [h1])
      rw [List.length_range] at h4
      rw [h3, List.getElem?_map, hm, h4]
      simp [h2, hfg _ _ h1 h2 m (List.mem_of_getElem? hm) hn]
    · rw [List.getElem?_eq_none (by simp [hlen]; omega), List.getElem?_eq_none]
      have := flatMap_map_length (List.range ny) (List.range nx) (fun r c : ℕ => g r c)
      rw [List.length_range, List.length_range] at this
      rw [this]
      nlinarith
  rw [hl]
  have key : ∀ n (G : ℕ → List K), ((List.range n).flatMap G).sum = ∑ i ∈ Finset.range n, (G i).sum := by
    intro n G
    induction n with
    | zero => simp
    | succ n ih => rw [List.range_succ, List.flatMap_append, List.sum_append, ih, Finset.sum_range_succ]; simp
  rw [key]
  refine Finset.sum_congr rfl fun r _ => ?_
  have key2 : ∀ n (G : ℕ → K), ((List.range n).map G).sum = ∑ i ∈ Finset.range n, G i := by
    intro n G
    induction n with
    | zero => simp
    | succ n ih => rw [List.range_succ, List.map_append, List.sum_append, ih, Finset.sum_range_succ]; simp
  exact key2 nx _

theorem sum_double {f : ℕ → K} (n : ℕ) : ∑ i ∈ Finset.range (2 * n), f i = ∑ i ∈ Finset.range n, (f (2 * i) + f (2 * i + 1)) := by
  induction n with
  | zero => simp
  | succ n ih =>
    rw [show 2 * (n + 1) = 2 * n + 1 + 1 by ring, Finset.sum_range_succ, Finset.sum_range_succ, ih, Finset.sum_range_succ]
    ring

/-- Displacements of the corners of a cell. -/
def cornersOf (nx : ℕ) (u : ℕ → ℕ → K) (r c : ℕ) : Fin 4 → Fin 2 → K :=
  fun i j => u ((cellNodes nx r c).getD i 0) j

/-- Where the element of a cell is. -/
theorem grid_cell_rect (h : GridModel d L H nx ny E nu rest) {r c : ℕ} (hr : r < ny) (hc : c < nx) {m : Member K}
    {X : Matrix (Fin 4) (Fin 2) K} {k : Matrix (Fin 4 × Fin 2) (Fin 4 × Fin 2) K} (a8 : Placed d.nodes m X k)
    (hn : m.nodes = cellNodes nx r c) :
    X = rectAt (-L / 2 + c * (L / nx)) (-H / 2 + r * (H / ny)) (L / nx) (H / ny) := by
  ext i j
  have h1 : X i j = posOf d.nodes ((cellNodes nx r c).getD i 0) j := by
    have := a8.coord i j
    rw [hn] at this
    unfold posOf coordOf fieldOf
    rw [this]
    rfl
  rw [h1]
  have p0 := h.pos (r := r) (c := c) (by omega) (by omega)
  have p1 := h.pos (r := r) (c := c + 1) (by omega) (by omega)
  have p2 := h.pos (r := r + 1) (c := c + 1) (by omega) (by omega)
  have p3 := h.pos (r := r + 1) (c := c) (by omega) (by omega)
  fin_cases i
  · change posOf d.nodes (nodeNo nx r c) j = _
    rw [p0]
    fin_cases j <;> simp [rectAt]
  · change posOf d.nodes (nodeNo nx r (c + 1)) j = _
    rw [p1]
    fin_cases j <;> simp [rectAt]
    ring
  · change posOf d.nodes (nodeNo nx (r + 1) (c + 1)) j = _
    rw [p2]
    fin_cases j <;> simp [rectAt] <;> ring
  · change posOf d.nodes (nodeNo nx (r + 1) c) j = _
    rw [p3]
    fin_cases j <;> simp [rectAt]
    ring

/-- The element of a cell. -/
theorem grid_cell_placed (h : GridModel d L H nx ny E nu rest) (hms : Members sq d ms) {C : Matrix (Fin 3) (Fin 3) K}
    (hC : umat [E, nu] = .ok C) {r c : ℕ} (hr : r < ny) (hc : c < nx) {m : Member K} (hm : m ∈ ms)
    (hn : m.nodes = cellNodes nx r c) :
    Placed d.nodes m (rectAt (-L / 2 + c * (L / nx)) (-H / 2 + r * (H / ny)) (L / nx) (H / ny))
      (stiff2 (ruleQuad shapeQuad4 pts1d2 wts1d2) (rectAt (-L / 2 + c * (L / nx)) (-H / 2 + r * (H / ny)) (L / nx) (H / ny)) C) := by
  obtain ⟨e, he, hme⟩ := List.mem_iff_getElem.1 hm
  have he' : e < d.elements.length := by rw [hms.length_eq]; exact he
  have hmem : IsMember (Routine sq) d.mats d.nodes d.elements[e] m := by
    have := hms.get (i := e) he' he
    simp only [List.get_eq_getElem] at this
    rw [hme] at this
    exact this
  have hu := h.uniform hms
  have hin : ∀ x ∈ d.elements, x ∈ (rectGrid L H nx ny).2.2 := by
    rw [h.elements]
    exact fun _ hx => hx
  obtain ⟨r', c', hr', hc', e1⟩ := mem_grid (hin _ (List.getElem_mem he'))
  have e2 := gridEls_getElem? (nx := nx) hr' hc'
  change (rectGrid L H nx ny).2.2[r' * nx + c']? = _ at e2
  rw [e1, Option.some.injEq] at e2
  obtain ⟨ty, mi, q, params, n, f, X, k, mm, a1, a2, a3, a4, a5, a6, a7, a8⟩ := member_placed hmem h.widths (by
    intro ty h1
    rw [e2] at h1
    simp at h1
    subst h1
    simp)
  rw [e2] at a1 a3
  simp only [List.getElem?_cons_succ, List.getElem?_cons_zero, Option.some.injEq] at a1 a3
  subst a1
  have hmi : mi = 0 := a3.symm
  subst hmi
  have hfe : f = elastQuad4 := by
    simp only [Uel.eleFun, Except.ok.injEq] at a2
    exact a2.symm
  subst hfe
  have hn4 : n = 4 := by rw [← a8.size, hn]; rfl
  subst hn4
  have hm0 := (List.getElem?_eq_some_iff.1 h.material).1
  have : q = 0 := resolves_unique a4 ⟨hm0, .inl rfl⟩
  subst this
  rw [h.material, Option.some.injEq] at a5
  subst a5
  obtain ⟨C', ρ, hm', ha, hk, -⟩ := (returns_plane_lax (K := K) .quad4 (by decide) _ _ _ _).1 a7
  have hC' := (mat2_cons.1 hm').2.1
  rw [hC, Except.ok.injEq] at hC'
  subst hC'
  have hX := grid_cell_rect h hr hc a8 hn
  rw [hk, hX] at a8
  exact a8

theorem grid_cell_energy (h : GridModel d L H nx ny E nu rest) (hms : Members sq d ms) {C : Matrix (Fin 3) (Fin 3) K}
    (hC : umat [E, nu] = .ok C) (hpos : L / nx * (H / ny) ≠ 0) {r c : ℕ} (hr : r < ny) (hc : c < nx) {m : Member K} (hm : m ∈ ms)
    (hn : m.nodes = cellNodes nx r c) (u : ℕ → ℕ → K) :
    m.form 2 u u = meanPart (L / nx) (H / ny) C (cornersOf nx u r c) +
      (gaussPt : K) ^ 2 * bendPart (L / nx) (H / ny) C (cornersOf nx u r c) := by
  rw [(grid_cell_placed h hms hC hr hc hm hn).form, rect_energy (left_ne_zero_of_mul hpos) (right_ne_zero_of_mul hpos)]
  have hp : (fun (i : Fin 4) (j : Fin 2) => m.pick 4 u (i, j)) = cornersOf nx u r c := by
    funext i j
    unfold Member.pick cornersOf
    rw [hn]
  rw [hp]

/-! ## The interpolation -/

/-- The displacements of the nodes of the halved grid: each node has the mean of the values at the nodes of the old grid around
it (four, two equal pairs, or four equal ones). -/
def Spec.halfway (nx : ℕ) (u : ℕ → ℕ → K) : ℕ → ℕ → K := fun v j =>
  let R := v / (2 * nx + 1)
  let C := v % (2 * nx + 1)
  (u (nodeNo nx (R / 2) (C / 2)) j + u (nodeNo nx (R / 2) ((C + 1) / 2)) j +
    (u (nodeNo nx ((R + 1) / 2) (C / 2)) j + u (nodeNo nx ((R + 1) / 2) ((C + 1) / 2)) j)) / 4

theorem halfway_at (nx : ℕ) (u : ℕ → ℕ → K) {R C : ℕ} (hC : C ≤ 2 * nx) (j : ℕ) : halfway nx u (nodeNo (2 * nx) R C) j =
    (u (nodeNo nx (R / 2) (C / 2)) j + u (nodeNo nx (R / 2) ((C + 1) / 2)) j +
    (u (nodeNo nx ((R + 1) / 2) (C / 2)) j + u (nodeNo nx ((R + 1) / 2) ((C + 1) / 2)) j)) / 4 := by
  have h1 : nodeNo (2 * nx) R C / (2 * nx + 1) = R := by
    unfold nodeNo
    rw [Nat.mul_comm, Nat.mul_add_div (by omega), Nat.div_eq_of_lt (by omega), add_zero]
  have h2 : nodeNo (2 * nx) R C % (2 * nx + 1) = C := nodeNo_mod hC
  unfold halfway
  rw [h1, h2]

theorem corners_halfway (nx : ℕ) (u : ℕ → ℕ → K) {r c : ℕ} (hc : c < nx) :
    let U := cornersOf nx u r c
    let mid := fun (i k : Fin 4) (j : Fin 2) => (U i j + U k j) / 2
    let cen := fun (j : Fin 2) => (U 0 j + U 1 j + U 2 j + U 3 j) / 4
    cornersOf (2 * nx) (halfway nx u) (2 * r) (2 * c) = ![U 0, mid 0 1, cen, mid 0 3] ∧
    cornersOf (2 * nx) (halfway nx u) (2 * r) (2 * c + 1) = ![mid 0 1, U 1, mid 1 2, cen] ∧
    cornersOf (2 * nx) (halfway nx u) (2 * r + 1) (2 * c) = ![mid 0 3, cen, mid 2 3, U 3] ∧
    cornersOf (2 * nx) (halfway nx u) (2 * r + 1) (2 * c + 1) = ![cen, mid 1 2, U 2, mid 2 3] := by
  intro U mid cen
  have d1 : ∀ n : ℕ, 2 * n / 2 = n := fun n => by omega
  have d2 : ∀ n : ℕ, (2 * n + 1) / 2 = n := fun n => by omega
  have d3 : ∀ n : ℕ, (2 * n + 1 + 1) / 2 = n + 1 := fun n => by omega
  have d4 : ∀ n : ℕ, (2 * n + 1 + 1 + 1) / 2 = n + 1 := fun n => by omega
  refine ⟨?_, ?_, ?_, ?_⟩
  all_goals
    funext i j
    fin_cases i <;> simp [cornersOf, cellNodes, U, mid, cen, halfway_at nx u (show 2 * c ≤ 2 * nx by omega),
      halfway_at nx u (show 2 * c + 1 ≤ 2 * nx by omega), halfway_at nx u (show 2 * c + 1 + 1 ≤ 2 * nx by omega), d1, d2, d3, d4] <;> ring


theorem gauss_bounds : (0 : K) ≤ 1 - 3 * (gaussPt : K) ^ 2 ∧ (1 - 3 * (gaussPt : K) ^ 2) / 4 ≤ 2e-18 * (gaussPt : K) ^ 2 := by
  have h1 : (0 : ℚ) ≤ 1 - 3 * gaussPt ^ 2 := by norm_num [gaussPt]
  have h2 : (1 - 3 * gaussPt ^ 2) / 4 ≤ 2e-18 * gaussPt ^ 2 := by norm_num [gaussPt]
  constructor
  · exact_mod_cast h1
  · have := (Rat.cast_le (K := K)).2 h2
    push_cast at this
    convert this using 2

/-- C133.  Energy of the interpolated displacements on the halved grid: not less than on the grid, and more by at most two parts
in `10¹⁸`, the error of the Gauss points written with eighteen decimals. -/
theorem C133_energy (h : GridModel d L H nx ny E nu rest) (h' : GridModel d' L H (2 * nx) (2 * ny) E nu rest')
    (hms : Members sq d ms) (hms' : Members sq d' ms') (hpos : 0 < L / nx * (H / ny)) (hE : 0 < E) (h1 : -1 < nu) (h2 : nu < 1)
    (U : ℕ → ℕ → K) :
    (ms.map fun m => m.form 2 U U).sum ≤ (ms'.map fun m => m.form 2 (halfway nx U) (halfway nx U)).sum ∧
    (ms'.map fun m => m.form 2 (halfway nx U) (halfway nx U)).sum ≤ (1 + 2e-18) * (ms.map fun m => m.form 2 U U).sum := by
  obtain ⟨C, hC⟩ := (C35_returns_iff [E, nu]).2 ⟨E, nu, rfl, by nlinarith⟩
  have hCp := (C35_positive_definite_iff hC).2 ⟨hE, h1, h2⟩
  have hQ : ∀ e : Fin 3 → K, 0 ≤ e ⬝ᵥ C.mulVec e := by
    intro e
    by_cases he : e = 0
    · rw [he, zero_dotProduct]
    · exact (hCp e he).le
  have sx : L / ((2 * nx : ℕ) : K) = L / nx / 2 := by
    push_cast
    rw [div_div, mul_comm]
  have sy : H / ((2 * ny : ℕ) : K) = H / ny / 2 := by
    push_cast
    rw [div_div, mul_comm]
  have hpos' : L / ((2 * nx : ℕ) : K) * (H / ((2 * ny : ℕ) : K)) ≠ 0 := by
    rw [sx, sy]
    have : L / nx / 2 * (H / ny / 2) = L / nx * (H / ny) / 4 := by ring
    rw [this]
    positivity
  have e1 := h.sum hms _ _ fun r c hr hc m hm hn => grid_cell_energy h hms hC hpos.ne' hr hc hm hn U
  have e2 := h'.sum hms' _ _ fun r c hr hc m hm hn => grid_cell_energy h' hms' hC hpos' hr hc hm hn (halfway nx U)
  rw [sum_double] at e2
  simp only [sum_double (n := nx)] at e2
  have e3 : ∀ r ∈ Finset.range ny, ∀ c ∈ Finset.range nx, ∀ a b : K, a = L / nx → b = H / ny →
      meanPart (a / 2) (b / 2) C (cornersOf (2 * nx) (halfway nx U) (2 * r) (2 * c)) +
        (gaussPt : K) ^ 2 * bendPart (a / 2) (b / 2) C (cornersOf (2 * nx) (halfway nx U) (2 * r) (2 * c)) +
      (meanPart (a / 2) (b / 2) C (cornersOf (2 * nx) (halfway nx U) (2 * r) (2 * c + 1)) +
        (gaussPt : K) ^ 2 * bendPart (a / 2) (b / 2) C (cornersOf (2 * nx) (halfway nx U) (2 * r) (2 * c + 1))) +
      (meanPart (a / 2) (b / 2) C (cornersOf (2 * nx) (halfway nx U) (2 * r + 1) (2 * c)) +
        (gaussPt : K) ^ 2 * bendPart (a / 2) (b / 2) C (cornersOf (2 * nx) (halfway nx U) (2 * r + 1) (2 * c)) +
      (meanPart (a / 2) (b / 2) C (cornersOf (2 * nx) (halfway nx U) (2 * r + 1) (2 * c + 1)) +
        (gaussPt : K) ^ 2 * bendPart (a / 2) (b / 2) C (cornersOf (2 * nx) (halfway nx U) (2 * r + 1) (2 * c + 1)))) =
      meanPart a b C (cornersOf nx U r c) + (gaussPt : K) ^ 2 * bendPart a b C (cornersOf nx U r c) +
        (1 - 3 * (gaussPt : K) ^ 2) / 4 * bendPart a b C (cornersOf nx U r c) := by
    intro r hr c hc a b _ _
    obtain ⟨c0, c1, c2, c3⟩ := corners_halfway nx U (r := r) (Finset.mem_range.1 hc)
    obtain ⟨q1, q2⟩ := quarters a b C (cornersOf nx U r c)
    rw [c0, c1, c2, c3]
    linear_combination q1 + (gaussPt : K) ^ 2 * q2
  simp only [sx, sy] at e2
  have e4 : (ms'.map fun m => m.form 2 (halfway nx U) (halfway nx U)).sum = (ms.map fun m => m.form 2 U U).sum +
      (1 - 3 * (gaussPt : K) ^ 2) / 4 * ∑ r ∈ Finset.range ny, ∑ c ∈ Finset.range nx, bendPart (L / nx) (H / ny) C (cornersOf nx U r c) := by
    rw [e2, e1, Finset.mul_sum, ← Finset.sum_add_distrib]
    refine Finset.sum_congr rfl fun r hr => ?_
    rw [Finset.mul_sum, ← Finset.sum_add_distrib, ← Finset.sum_add_distrib]
    refine Finset.sum_congr rfl fun c hc => ?_
    exact e3 r hr c hc _ _ rfl rfl
  have hb : ∀ r c, 0 ≤ bendPart (L / nx) (H / ny) C (cornersOf nx U r c) := fun r c =>
    mul_nonneg hpos.le (add_nonneg (hQ _) (hQ _))
  have hm : ∀ r c, 0 ≤ meanPart (L / nx) (H / ny) C (cornersOf nx U r c) := fun r c => mul_nonneg hpos.le (hQ _)
  have hB : 0 ≤ ∑ r ∈ Finset.range ny, ∑ c ∈ Finset.range nx, bendPart (L / nx) (H / ny) C (cornersOf nx U r c) :=
    Finset.sum_nonneg fun r _ => Finset.sum_nonneg fun c _ => hb r c
  have hle : (gaussPt : K) ^ 2 * ∑ r ∈ Finset.range ny, ∑ c ∈ Finset.range nx, bendPart (L / nx) (H / ny) C (cornersOf nx U r c) ≤
      (ms.map fun m => m.form 2 U U).sum := by
    rw [e1, Finset.mul_sum]
    refine Finset.sum_le_sum fun r _ => ?_
    rw [Finset.mul_sum]
    refine Finset.sum_le_sum fun c _ => ?_
    have := hm r c
    linarith
  obtain ⟨g1, g2⟩ := gauss_bounds (K := K)
  rw [e4]
  constructor
  · have := mul_nonneg g1 hB
    linarith
  · have k1 := mul_le_mul_of_nonneg_right g2 hB
    have k2 := mul_le_mul_of_nonneg_left hle (show (0 : K) ≤ 2e-18 by norm_num)
    linarith

variable {F F' : ℕ → ℕ → K} {res res' : Gui.Result K} {plot plot' : Bool}

theorem form_mul_right (nd : ℕ) (V U : ℕ → ℕ → K) (c : K) (m : Member K) :
    m.form nd V (fun p j => c * U p j) = c * m.form nd V U := by
  unfold Member.form Member.force
  rw [Finset.mul_sum]
  refine Finset.sum_congr rfl fun a _ => ?_
  rw [Finset.mul_sum]
  refine Finset.sum_congr rfl fun j _ => ?_
  have : (∑ b ∈ Finset.range m.nodes.length, ∑ x ∈ Finset.range nd, m.k (nd * a + j) (nd * b + x) * (c * U (m.nodes.getD b 0) x)) =
      c * ∑ b ∈ Finset.range m.nodes.length, ∑ x ∈ Finset.range nd, m.k (nd * a + j) (nd * b + x) * U (m.nodes.getD b 0) x := by
    rw [Finset.mul_sum]
    refine Finset.sum_congr rfl fun b _ => ?_
    rw [Finset.mul_sum]
    exact Finset.sum_congr rfl fun x _ => by ring
  rw [this]
  ring

/-- C133.  On the halved grid the same loads do at least as much work, up to two parts in `10¹⁸`. -/
theorem C133_softer (hs : SqrtFn sq) (h : GridModel d L H nx ny E nu rest) (h' : GridModel d' L H (2 * nx) (2 * ny) E nu rest')
    (hpos : 0 < L / nx * (H / ny)) (hE : 0 < E) (h1 : -1 < nu) (h2 : nu < 1) (hwf : WellFormed d) (hwf' : WellFormed d')
    (hsp : SolverOk sp) (hms : SolidMesh sq d ms) (hms' : SolidMesh sq d' ms') (hst : Stable d.cons 2 ms) (hst' : Stable d'.cons 2 ms')
    (hsup : ∀ u, Admissible d.cons 2 u → Admissible d'.cons 2 (halfway nx u))
    (hF : LoadField d F) (hF' : LoadField d' F') (hw : SameWork (halfway nx) d d' F F')
    (hr : Gui.solidsAuto sq sp de d plot = .ok res) (hr' : Gui.solidsAuto sq sp de d' plot' = .ok res') :
    work d.nodes.length F (fieldOf res.disp) ≤ (1 + 2e-18) * work d'.nodes.length F' (fieldOf res'.disp) := by
  have he := (C18_nodal_equilibrium hwf hsp hms.members hst hr).2
  have he' := (C18_nodal_equilibrium hwf' hsp hms'.members hst' hr').2
  obtain ⟨hsym', hpsd'⟩ := C93_elements hs hms'.plane hms'.members
  have w2 := load_work hwf hms.members hF he he.1
  have w3 := load_work hwf' hms'.members hF' he' (hsup _ he.1)
  have w4 := load_work hwf' hms'.members hF' he' he'.1
  have w5 := hw _ he.1
  have en := (C133_energy h h' hms.members hms'.members hpos hE h1 h2 (fieldOf res.disp)).2
  have g := forms_sub ms' hsym' (halfway nx (fieldOf res.disp)) (fun p j => (1 + 2e-18) * fieldOf res'.disp p j)
  have g0 : 0 ≤ (ms'.map fun m => m.form 2 (fun p j => halfway nx (fieldOf res.disp) p j - (1 + 2e-18) * fieldOf res'.disp p j)
      (fun p j => halfway nx (fieldOf res.disp) p j - (1 + 2e-18) * fieldOf res'.disp p j)).sum := by
    apply List.sum_nonneg
    intro x hx
    obtain ⟨m, hm, rfl⟩ := List.mem_map.1 hx
    exact hpsd' hms'.physical m hm _
  have s1 : (ms'.map fun m => m.form 2 (halfway nx (fieldOf res.disp)) (fun p j => (1 + 2e-18) * fieldOf res'.disp p j)).sum =
      (1 + 2e-18) * (ms'.map fun m => m.form 2 (halfway nx (fieldOf res.disp)) (fieldOf res'.disp)).sum := by
    rw [← List.sum_map_mul_left]
    exact congrArg List.sum (List.map_congr_left fun m _ => form_mul_right 2 _ _ _ m)
  have s2 : (ms'.map fun m => m.form 2 (fun p j => (1 + 2e-18) * fieldOf res'.disp p j) (fun p j => (1 + 2e-18) * fieldOf res'.disp p j)).sum =
      (1 + 2e-18) * ((1 + 2e-18) * (ms'.map fun m => m.form 2 (fieldOf res'.disp) (fieldOf res'.disp)).sum) := by
    rw [← List.sum_map_mul_left, ← List.sum_map_mul_left]
    refine congrArg List.sum (List.map_congr_left fun m hm => ?_)
    rw [form_mul_right, hsym' m hm, form_mul_right]
  rw [g, s1, s2] at g0
  unfold work at w5 ⊢
  rw [← w2] at en
  rw [← w3, ← w4, w5] at g0
  generalize (∑ p ∈ Finset.range d.nodes.length, ∑ j ∈ Finset.range 2, fieldOf res.disp p j * F p j) = c at *
  generalize (∑ p ∈ Finset.range d'.nodes.length, ∑ j ∈ Finset.range 2, fieldOf res'.disp p j * F' p j) = c' at *
  have g3 : 0 ≤ (1 + 2e-18) * ((1 + 2e-18) * c' - c) := by linarith
  have g4 := nonneg_of_mul_nonneg_right g3 (by norm_num)
  linarith

/-! ## A plate clamped on its left edge, with a vertical force at the upper right corner -/

def clampedPlate (L H E nu P : K) (nx ny : ℕ) : Gui.Data K where
  nodes := (List.range ((nx + 1) * (ny + 1))).map fun v : ℕ =>
    [(v : K), (rectGrid L H nx ny).1.getD v 0, (rectGrid L H nx ny).2.1.getD v 0]
  cons := (List.range ((nx + 1) * (ny + 1))).map fun v => if v % (nx + 1) = 0 then [-1, -1] else [0, 0]
  elements := (rectGrid L H nx ny).2.2
  mats := [[E, nu]]
  loads := [[((nodeNo nx ny nx : ℕ) : K), 0, P]]

theorem clamped_grid (L H E nu P : K) (nx ny : ℕ) : GridModel (clampedPlate L H E nu P nx ny) L H nx ny E nu [] where
  elements := rfl
  material := rfl
  count := by simp [clampedPlate, (C65_elements L H nx ny).1]
  place := by
    intro v x y h1 h2
    have hv : v < (nx + 1) * (ny + 1) := by
      rw [← (C65_elements L H nx ny).1]
      exact (List.getElem?_eq_some_iff.1 h1).1
    refine ⟨v, ?_⟩
    simp [clampedPlate, hv, h1, h2]

theorem clamped_cons (L H E nu P : K) {nx ny v j : ℕ} {x : K} :
    entry (clampedPlate L H E nu P nx ny).cons v j = some x ↔ v < (nx + 1) * (ny + 1) ∧ j < 2 ∧
      x = if v % (nx + 1) = 0 then -1 else 0 := by
  rw [entry_some]
  simp only [clampedPlate, List.getElem?_map, Option.map_eq_some_iff]
  constructor
  · rintro ⟨row, ⟨a, ha, rfl⟩, hx⟩
    rw [List.getElem?_eq_some_iff] at ha
    obtain ⟨hv, ha⟩ := ha
    rw [List.getElem_range] at ha
    subst ha
    refine ⟨by simpa using hv, ?_⟩
    match j, hx with
    | 0, hx => split_ifs at hx ⊢ <;> simp at hx <;> exact ⟨by omega, hx.symm⟩
    | 1, hx => split_ifs at hx ⊢ <;> simp at hx <;> exact ⟨by omega, hx.symm⟩
    | j + 2, hx => split_ifs at hx <;> simp at hx
  · rintro ⟨hv, hj, rfl⟩
    refine ⟨_, ⟨v, by simp [hv], rfl⟩, ?_⟩
    have : j = 0 ∨ j = 1 := by omega
    rcases this with rfl | rfl <;> split_ifs <;> rfl

theorem clamped_wf (L H E nu P : K) (nx ny : ℕ) : WellFormed (clampedPlate L H E nu P nx ny) where
  codes := by
    intro v j x hj hx
    obtain ⟨-, -, rfl⟩ := (clamped_cons ..).1 hx
    split_ifs <;> simp
  width := by
    intro r hr
    simp only [clampedPlate, List.mem_map] at hr
    obtain ⟨v, -, rfl⟩ := hr
    split_ifs <;> rfl
  size := by simp [clampedPlate]

theorem clamped_free (L H E nu P : K) {nx ny r c : ℕ} (hr : r ≤ ny) (hc : c ≤ nx) {j : ℕ} (hj : j < 2) :
    Free (clampedPlate L H E nu P nx ny).cons 2 (nodeNo nx r c) j ↔ c ≠ 0 := by
  have hlt := nodeNo_lt (nx := nx) hr hc
  unfold Free
  simp only [clamped_cons, nodeNo_mod hc, hlt, true_and, hj]
  by_cases h : c = 0 <;> simp [h]

theorem clamped_supported {P : K} (hny : 0 < ny) (hne : H / ny ≠ 0) :
    Supported (clampedPlate L H E nu P nx ny).cons (clampedPlate L H E nu P nx ny).nodes := by
  have hg := clamped_grid L H E nu P nx ny
  have hwf := clamped_wf L H E nu P nx ny
  intro g ha p j hp hj
  have hlt : ∀ {r c}, r ≤ ny → c ≤ nx → nodeNo nx r c < (clampedPlate L H E nu P nx ny).cons.length := by
    intro r c hr hc
    rw [hwf.size, hg.size]
    exact nodeNo_lt hr hc
  have a0 := ha _ 0 (hlt (Nat.zero_le ny) (Nat.zero_le nx)) (by omega) (by
    rw [clamped_free L H E nu P (Nat.zero_le ny) (Nat.zero_le nx) (by omega)]
    simp)
  have a1 := ha _ 0 (hlt (le_refl ny) (Nat.zero_le nx)) (by omega) (by
    rw [clamped_free L H E nu P (le_refl ny) (Nat.zero_le nx) (by omega)]
    simp)
  have a2 := ha _ 1 (hlt (Nat.zero_le ny) (Nat.zero_le nx)) (by omega) (by
    rw [clamped_free L H E nu P (Nat.zero_le ny) (Nat.zero_le nx) (by omega)]
    simp)
  have e0 := congrFun (hg.pos (Nat.zero_le ny) (Nat.zero_le nx)) 1
  have e1 := congrFun (hg.pos (le_refl ny) (Nat.zero_le nx)) 1
  simp only [posOf, Fin.val_one, Matrix.cons_val_one, Matrix.cons_val_fin_one] at e0 e1
  simp only [Motion.move, if_true, one_ne_zero, if_false] at a0 a1 a2
  rw [e0] at a0
  rw [e1] at a1
  have hny' : (ny : K) ≠ 0 := by exact_mod_cast hny.ne'
  have hw : g.spin = 0 := by
    have : g.spin * (ny * (H / ny)) = 0 := by
      push_cast at a0
      linear_combination a0 - a1
    exact (mul_eq_zero.1 this).resolve_right (mul_ne_zero hny' hne)
  simp only [Motion.move, hw, zero_mul, sub_zero, add_zero] at a0 a2 ⊢
  split
  · exact a0
  · exact a2

/-- The force at the corner. -/
def cornerForce (P : K) (n : ℕ) : ℕ → ℕ → K := fun p j => if p = n ∧ j = 1 then P else 0

theorem clamped_load (L H E nu P : K) (nx ny : ℕ) :
    LoadField (clampedPlate L H E nu P nx ny) (cornerForce P (nodeNo nx ny nx)) := by
  have hlt : nodeNo nx ny nx < (clampedPlate L H E nu P nx ny).nodes.length := by
    rw [(clamped_grid L H E nu P nx ny).size]
    exact nodeNo_lt (le_refl _) (le_refl _)
  intro p j hp hj
  have names : ∀ v, Names (clampedPlate L H E nu P nx ny).nodes.length [((nodeNo nx ny nx : ℕ) : K), 0, P] v ↔ v = nodeNo nx ny nx :=
    fun v => names_nat hlt rfl
  by_cases h : p = nodeNo nx ny nx
  · right
    refine ⟨[], _, [], rfl, (names p).2 h, by simp, ?_⟩
    have : j = 0 ∨ j = 1 := by omega
    rcases this with rfl | rfl <;> simp [cornerForce, h]
  · left
    refine ⟨?_, by simp [cornerForce, h]⟩
    intro L' hL'
    simp only [clampedPlate, List.mem_singleton] at hL'
    subst hL'
    rw [names]
    exact h

theorem corner_work (L H E nu P : K) (nx ny : ℕ) (u : ℕ → ℕ → K) :
    work (clampedPlate L H E nu P nx ny).nodes.length (cornerForce P (nodeNo nx ny nx)) u = P * u (nodeNo nx ny nx) 1 := by
  have hlt : nodeNo nx ny nx < (clampedPlate L H E nu P nx ny).nodes.length := by
    rw [(clamped_grid L H E nu P nx ny).size]
    exact nodeNo_lt (le_refl _) (le_refl _)
  unfold work
  rw [Finset.sum_eq_single (nodeNo nx ny nx)]
  · rw [Finset.sum_range_succ, Finset.sum_range_one]
    simp [cornerForce, mul_comm]
  · intro p _ hp
    simp [cornerForce, hp]
  · intro h
    exact absurd (Finset.mem_range.2 hlt) h

theorem clamped_interp (L H E nu P : K) (nx ny : ℕ) (u : ℕ → ℕ → K) (hu : Admissible (clampedPlate L H E nu P nx ny).cons 2 u) :
    Admissible (clampedPlate L H E nu P (2 * nx) (2 * ny)).cons 2 (halfway nx u) := by
  intro v j hv hj hf
  rw [(clamped_wf ..).size, (clamped_grid ..).size] at hv
  obtain ⟨R, C, hR, hC, rfl⟩ := node_split hv
  rw [clamped_free L H E nu P hR hC hj, not_not] at hf
  subst hf
  have z : ∀ r ≤ ny, u (nodeNo nx r 0) j = 0 := by
    intro r hr
    refine hu _ j ?_ hj ?_
    · rw [(clamped_wf ..).size, (clamped_grid ..).size]
      exact nodeNo_lt hr (Nat.zero_le _)
    · rw [clamped_free L H E nu P hr (Nat.zero_le _) hj]
      simp
  rw [halfway_at nx u hC, show (0 + 1) / 2 = 0 from rfl, z _ (by omega), z _ (by omega)]
  simp

theorem corner_interp (nx ny : ℕ) (u : ℕ → ℕ → K) (j : ℕ) : halfway nx u (nodeNo (2 * nx) (2 * ny) (2 * nx)) j = u (nodeNo nx ny nx) j := by
  rw [halfway_at nx u (le_refl _), show 2 * ny / 2 = ny by omega, show 2 * nx / 2 = nx by omega, show (2 * ny + 1) / 2 = ny by omega,
    show (2 * nx + 1) / 2 = nx by omega]
  ring

theorem clamped_returns (hs : SqrtFn sq) (hsp : SolverOk sp) {P : K} (htol : 1e-8 < L / nx * (H / ny) / 4) (hE : 0 < E) (h1 : -1 < nu)
    (h2 : nu < 1) : ∃ res, Gui.solidsAuto sq sp de (clampedPlate L H E nu P nx ny) false = .ok res ∧ res.warned = false := by
  have hpos : 0 < L / nx * (H / ny) := by
    have := tol_pos.trans htol
    linarith
  have hny : 0 < ny := by
    rcases Nat.eq_zero_or_pos ny with rfl | h
    · simp at hpos
    · exact h
  have hnx : 0 < nx := by
    rcases Nat.eq_zero_or_pos nx with rfl | h
    · simp at hpos
    · exact h
  have hg := clamped_grid L H E nu P nx ny
  refine C97_solids_auto hs hg htol hE h1 h2 (by simp) (clamped_wf L H E nu P nx ny) hsp
    (clamped_supported hny (right_ne_zero_of_mul hpos.ne')) ?_ ?_
  · refine ⟨nodeNo nx 0 nx, 0, ?_⟩
    rw [clamped_free L H E nu P (Nat.zero_le ny) (le_refl nx) (by omega)]
    omega
  · intro l hl
    simp only [clampedPlate, List.mem_singleton] at hl
    subst hl
    refine ⟨by simp, nodeNo nx ny nx, ?_⟩
    rw [hg.size]
    exact (names_nat (nodeNo_lt (le_refl _) (le_refl _)) rfl).2 rfl

/-- Vertical displacement of the loaded corner. -/
def cornerLift (nx ny : ℕ) (res : Gui.Result K) : K := fieldOf res.disp (nodeNo nx ny nx) 1

theorem clamped_step (hs : SqrtFn sq) (hsp : SolverOk sp) {P : K} (htol : 1e-8 < L / ((2 * nx : ℕ) : K) * (H / ((2 * ny : ℕ) : K)) / 4)
    (hE : 0 < E) (h1 : -1 < nu) (h2 : nu < 1)
    (hr : Gui.solidsAuto sq sp de (clampedPlate L H E nu P nx ny) plot = .ok res)
    (hr' : Gui.solidsAuto sq sp de (clampedPlate L H E nu P (2 * nx) (2 * ny)) plot' = .ok res') :
    1e-8 < L / nx * (H / ny) / 4 ∧ P * cornerLift nx ny res ≤ (1 + 2e-18) * (P * cornerLift (2 * nx) (2 * ny) res') := by
  have hh : L / ((2 * nx : ℕ) : K) * (H / ((2 * ny : ℕ) : K)) / 4 = L / nx * (H / ny) / 4 / 4 := by
    push_cast
    rw [mul_comm 2 (nx : K), mul_comm 2 (ny : K), ← div_div, ← div_div]
    ring
  have htol0 : 1e-8 < L / nx * (H / ny) / 4 := by
    rw [hh] at htol
    have := tol_pos (K := K)
    linarith
  have hpos : 0 < L / nx * (H / ny) := by
    have := tol_pos.trans htol0
    linarith
  have hpos' : 0 < L / ((2 * nx : ℕ) : K) * (H / ((2 * ny : ℕ) : K)) := by
    have := tol_pos.trans htol
    linarith
  have hny : 0 < ny := by
    rcases Nat.eq_zero_or_pos ny with rfl | h
    · simp at hpos
    · exact h
  refine ⟨htol0, ?_⟩
  obtain ⟨ms, hms⟩ := C97_mesh (sq := sq) (clamped_grid L H E nu P nx ny) htol0 hE h1 h2 (by simp)
  obtain ⟨ms', hms'⟩ := C97_mesh (sq := sq) (clamped_grid L H E nu P (2 * nx) (2 * ny)) htol hE h1 h2 (by simp)
  have hst := (C95_stable_iff hs hms (clamped_wf ..)).2 (clamped_supported hny (right_ne_zero_of_mul hpos.ne'))
  have hst' := (C95_stable_iff hs hms' (clamped_wf ..)).2 (clamped_supported (by omega) (right_ne_zero_of_mul hpos'.ne'))
  have := C133_softer hs (clamped_grid L H E nu P nx ny) (clamped_grid L H E nu P (2 * nx) (2 * ny)) hpos hE h1 h2 (clamped_wf ..)
    (clamped_wf ..) hsp hms hms' hst hst' (clamped_interp L H E nu P nx ny) (clamped_load L H E nu P nx ny) (clamped_load L H E nu P (2 * nx) (2 * ny))
    (fun u _ => by rw [corner_work, corner_work, corner_interp]) hr hr'
  rw [corner_work, corner_work] at this
  exact this

/-- C133.  Halving the cells of a clamped plate `k` times: all models are solved, and the corner yields at least as much to the
force as on the first grid, up to two parts in `10¹⁸` for each step. -/
theorem C133_clamped (hs : SqrtFn sq) (hsp : SolverOk sp) {P : K} (hE : 0 < E) (h1 : -1 < nu) (h2 : nu < 1) (k : ℕ)
    (htol : 1e-8 < L / ((2 ^ k * nx : ℕ) : K) * (H / ((2 ^ k * ny : ℕ) : K)) / 4) :
    ∃ res res', Gui.solidsAuto sq sp de (clampedPlate L H E nu P nx ny) false = .ok res ∧
      Gui.solidsAuto sq sp de (clampedPlate L H E nu P (2 ^ k * nx) (2 ^ k * ny)) false = .ok res' ∧
      res.warned = false ∧ res'.warned = false ∧
      P * cornerLift nx ny res ≤ (1 + 2e-18) ^ k * (P * cornerLift (2 ^ k * nx) (2 ^ k * ny) res') := by
  obtain ⟨res', hr', hw'⟩ := clamped_returns (de := de) (P := P) hs hsp htol hE h1 h2
  induction k generalizing res' with
  | zero =>
    simp only [pow_zero, one_mul] at hr' ⊢
    exact ⟨res', res', hr', hr', hw', hw', le_refl _⟩
  | succ k ih =>
    rw [show 2 ^ (k + 1) * nx = 2 * (2 ^ k * nx) by ring, show 2 ^ (k + 1) * ny = 2 * (2 ^ k * ny) by ring] at htol hr' ⊢
    have hh : L / ((2 * (2 ^ k * nx) : ℕ) : K) * (H / ((2 * (2 ^ k * ny) : ℕ) : K)) / 4 =
        L / ((2 ^ k * nx : ℕ) : K) * (H / ((2 ^ k * ny : ℕ) : K)) / 4 / 4 := by
      rw [Nat.cast_mul 2, Nat.cast_mul 2, mul_comm ((2 : ℕ) : K), mul_comm ((2 : ℕ) : K), ← div_div, ← div_div]
      push_cast
      ring
    have htol0 : 1e-8 < L / ((2 ^ k * nx : ℕ) : K) * (H / ((2 ^ k * ny : ℕ) : K)) / 4 := by
      rw [hh] at htol
      have := tol_pos (K := K)
      linarith
    obtain ⟨res1, hr1, hw1⟩ := clamped_returns (de := de) (P := P) hs hsp htol0 hE h1 h2
    obtain ⟨res, r, a1, a2, a3, a4, a5⟩ := ih htol0 res1 hr1 hw1
    rw [hr1, Except.ok.injEq] at a2
    subst a2
    have st := (clamped_step hs hsp htol hE h1 h2 hr1 hr').2
    refine ⟨res, res', a1, hr', a3, hw', a5.trans ?_⟩
    rw [pow_succ, mul_assoc]
    exact mul_le_mul_of_nonneg_left st (by positivity)

/-! ## Cases -/

/-- A cantilever of three by one cells and its second refinement. -/
example : ∃ res res', Gui.solidsAuto Real.sqrt cramerR cramerR (clampedPlate (24 : ℝ) 8 1000 (3 / 10) 50 3 1) false = .ok res ∧
    Gui.solidsAuto Real.sqrt cramerR cramerR (clampedPlate (24 : ℝ) 8 1000 (3 / 10) 50 12 4) false = .ok res' ∧
    res.warned = false ∧ res'.warned = false ∧
    (50 : ℝ) * cornerLift 3 1 res ≤ (1 + 2e-18) ^ 2 * (50 * cornerLift 12 4 res') :=
  C133_clamped sqrtFn_real cramerR_ok (by norm_num) (by norm_num) (by norm_num) 2 (by norm_num)

end
end SolidsPy
