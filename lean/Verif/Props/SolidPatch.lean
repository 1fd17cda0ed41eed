import Verif.Props.SolidBodies
import Verif.Spec.SolidPatch

/-! # C151: uniform strain in solid bodies -/

set_option linter.unusedSectionVars false

namespace SolidsPy
open Spec Fem Uel Gauss Assem Matrix

section
variable {K : Type} [Field K] [LinearOrder K] [IsStrictOrderedRing K] [FloorRing K]

/-- The vector with which a stress acts at a node. -/
def pull {n : ℕ} (R : QRule K 3 n) (X : Matrix (Fin n) (Fin 3) K) (a : Fin n) : Fin 3 → K :=
  fun i => (R.map fun x => x.2 * ((x.1.2 * X).adjugate * x.1.2) i a).sum

theorem bMat3_transpose {n : ℕ} (g : Matrix (Fin 3) (Fin n) K) (s : Fin 6 → K) (a : Fin n) (i : Fin 3) :
    (bMat3 g).transpose.mulVec s (a, i) = faceForce s (fun i => g i a) i := by
  unfold Matrix.mulVec dotProduct bMat3 faceForce
  rw [Fin.sum_univ_six]
  fin_cases i <;> simp <;> ring

theorem faceForce_smul (s : Fin 6 → K) (c : K) (v : Fin 3 → K) (i : Fin 3) :
    faceForce s (fun i => c * v i) i = c * faceForce s v i := by
  unfold faceForce
  fin_cases i <;> simp <;> ring

theorem faceForce_add (s : Fin 6 → K) (v w : Fin 3 → K) (i : Fin 3) :
    faceForce s (fun i => v i + w i) i = faceForce s v i + faceForce s w i := by
  unfold faceForce
  fin_cases i <;> simp <;> ring

theorem faceForce_sum {α : Type} (s : Fin 6 → K) (l : List α) (v : α → Fin 3 → K) (i : Fin 3) :
    faceForce s (fun i => (l.map fun x => v x i).sum) i = (l.map fun x => faceForce s (v x) i).sum := by
  induction l with
  | nil =>
    unfold faceForce
    fin_cases i <;> simp
  | cons x l ih =>
    simp only [List.map_cons, List.sum_cons]
    rw [faceForce_add, ih]

/-- Under a uniform strain the forces of an element are those of the uniform stress. -/
theorem solid_forces {n : ℕ} {f : Uel K} {R : QRule K 3 n} (hf : SolidRule n f R) {X : Matrix (Fin n) (Fin 3) K} {E nu ρ : K} {k m}
    (h : Returns f X [E, nu, ρ] k m) (c : Fin 3 → K) (G : Matrix (Fin 3) (Fin 3) K) {C : Matrix (Fin 6) (Fin 6) K}
    (hC : elastMat [E, nu] = .ok C) (a : Fin n) (i : Fin 3) :
    k.mulVec (sample X (affine c G)) (a, i) = faceForce (C.mulVec (strainOf3 G)) (pull R X a) i := by
  obtain ⟨hg, hr⟩ := returns_solid hf
  obtain ⟨C', ρ', ⟨-, h1, -⟩, ha, rfl, -⟩ := (hr _ _ _ _).1 h
  have h1' : elastMat [E, nu] = .ok C' := h1
  rw [hC, Except.ok.injEq] at h1'
  subst h1'
  unfold stiff3
  rw [stiff_mulVec]
  have hs : ∀ x ∈ R, (bMat3 (grad x.1.2 X)).mulVec (sample X (affine c G)) = strainOf3 G := by
    intro x hx
    rw [bMat3_mulVec]
    simp only [grad_affine (tol_pos.trans (ha x hx)).ne' (hg.rows x hx)]
    rfl
  rw [List.map_congr_left (g := fun x => (x.2 * jdet x.1 X) • (bMat3 (grad x.1.2 X)).transpose.mulVec (C.mulVec (strainOf3 G)))
    (fun x hx => by rw [hs x hx])]
  have happ : ∀ (l : QRule K 3 n) (v : Shape K 3 n × K → Fin n × Fin 3 → K), (l.map v).sum (a, i) = (l.map fun x => v x (a, i)).sum := by
    intro l v
    induction l with
    | nil => rfl
    | cons x l ih => rw [List.map_cons, List.sum_cons, Pi.add_apply, ih, List.map_cons, List.sum_cons]
  rw [happ]
  unfold pull
  rw [faceForce_sum]
  congr 1
  refine List.map_congr_left fun x hx => ?_
  rw [Pi.smul_apply, smul_eq_mul, bMat3_transpose, ← faceForce_smul]
  congr 1
  funext i
  unfold grad jdet
  have hd : (x.1.2 * X).det ≠ 0 := (tol_pos.trans (ha x hx)).ne'
  rw [Matrix.smul_mul, Matrix.smul_apply, smul_eq_mul, mul_assoc, mul_inv_cancel_left₀ hd]

/-- Vector areas of triangles and quadrilaterals. -/
theorem area_three (nodes : Table K) (a b c : ℕ) (i : Fin 3) : areaOf nodes (([a, b, c] : List ℕ) : Cycle ℕ) i =
    crossed (fun i => placeOf nodes b i - placeOf nodes a i) (fun i => placeOf nodes c i - placeOf nodes a i) i / 2 := by
  show (List.sum [_, _, _]) / 2 = _
  simp only [List.sum_cons, List.sum_nil]
  unfold crossed
  fin_cases i <;> simp <;> ring

theorem area_four (nodes : Table K) (a b c d : ℕ) (i : Fin 3) : areaOf nodes (([a, b, c, d] : List ℕ) : Cycle ℕ) i =
    crossed (fun i => placeOf nodes c i - placeOf nodes a i) (fun i => placeOf nodes d i - placeOf nodes b i) i / 2 := by
  show (List.sum [_, _, _, _]) / 2 = _
  simp only [List.sum_cons, List.sum_nil]
  unfold crossed
  fin_cases i <;> simp <;> ring

/-- The derivatives of the shape functions of the tetrahedron. -/
abbrev tetDer : Matrix (Fin 3) (Fin 4) K := !![-1, 1, 0, 0; -1, 0, 1, 0; -1, 0, 0, 1]

theorem tetDer_mul (X : Matrix (Fin 4) (Fin 3) K) : tetDer * X = Matrix.of fun p i => X p.succ i - X 0 i := by
  ext p i
  fin_cases p <;> simp [Matrix.mul_apply, Fin.sum_univ_four] <;> ring

theorem pull_tet (X : Matrix (Fin 4) (Fin 3) K) (a : Fin 4) (i : Fin 3) : pull ruleTet4 X a i =
    ((Matrix.of fun p i => X p.succ i - X 0 i : Matrix (Fin 3) (Fin 3) K).adjugate * (tetDer : Matrix (Fin 3) (Fin 4) K)) i a / 6 := by
  have hD : ∀ r s t : K, (shapeTet4 r s t).2 = (tetDer : Matrix (Fin 3) (Fin 4) K) := fun _ _ _ => rfl
  unfold pull ruleTet4
  simp only [List.map_map, Function.comp_def, hD, tetDer_mul]
  rw [List.sum_map_mul_right]
  have : (List.map (fun x : (ℚ × ℚ × ℚ) × ℚ => (x.2 : K) / 6) (ptsTet3.zip wtsTet3)).sum = 1 / 6 := by
    simp [ptsTet3, wtsTet3]
    ring
  rw [this]
  ring

theorem tet_corner (nodes : Table K) {X : Matrix (Fin 4) (Fin 3) K} {p : Fin 4 → ℕ} (hX : ∀ a i, placeOf nodes (p a) i = X a i)
    (i : Fin 3) :
    pull ruleTet4 X 0 i = (areaOf nodes (([p 0, p 2, p 1] : List ℕ) : Cycle ℕ) i + areaOf nodes (([p 0, p 1, p 3] : List ℕ) : Cycle ℕ) i +
        areaOf nodes (([p 0, p 3, p 2] : List ℕ) : Cycle ℕ) i) / 3 ∧
    pull ruleTet4 X 1 i = (areaOf nodes (([p 0, p 2, p 1] : List ℕ) : Cycle ℕ) i + areaOf nodes (([p 0, p 1, p 3] : List ℕ) : Cycle ℕ) i +
        areaOf nodes (([p 1, p 2, p 3] : List ℕ) : Cycle ℕ) i) / 3 ∧
    pull ruleTet4 X 2 i = (areaOf nodes (([p 0, p 2, p 1] : List ℕ) : Cycle ℕ) i + areaOf nodes (([p 1, p 2, p 3] : List ℕ) : Cycle ℕ) i +
        areaOf nodes (([p 0, p 3, p 2] : List ℕ) : Cycle ℕ) i) / 3 ∧
    pull ruleTet4 X 3 i = (areaOf nodes (([p 0, p 1, p 3] : List ℕ) : Cycle ℕ) i + areaOf nodes (([p 1, p 2, p 3] : List ℕ) : Cycle ℕ) i +
        areaOf nodes (([p 0, p 3, p 2] : List ℕ) : Cycle ℕ) i) / 3 := by
  simp only [area_three, hX, pull_tet, Matrix.adjugate_fin_three, Matrix.mul_apply, Fin.sum_univ_three, crossed]
  have s0 : (0 : Fin 3).succ = (1 : Fin 4) := rfl
  have s1 : (1 : Fin 3).succ = (2 : Fin 4) := rfl
  have s2 : (2 : Fin 3).succ = (3 : Fin 4) := rfl
  fin_cases i <;> refine ⟨?_, ?_, ?_, ?_⟩ <;> simp [s0, s1, s2] <;> ring

/-- The derivatives of the shape functions of the brick, summed over its points. -/
theorem hex_affine (c : Fin 3 → K) (A : Matrix (Fin 3) (Fin 3) K) {X : Matrix (Fin 8) (Fin 3) K}
    (hX : ∀ a i, X a i = c i + A i 0 * (hexNode a).1 + A i 1 * (hexNode a).2.1 + A i 2 * (hexNode a).2.2) (r s t : K) :
    (shapeHex8 r s t).2 * X = A.transpose := by
  ext k i
  rw [Matrix.mul_apply, Matrix.transpose_apply]
  simp only [hX]
  fin_cases k <;> simp [Fin.sum_univ_eight, shapeHex8, hexNode] <;> ring

/-- The coordinates of a vertex of the reference cube. -/
def hexAt (a : Fin 8) : Fin 3 → K := ![(hexNode a).1, (hexNode a).2.1, (hexNode a).2.2]

theorem hex_der (r s t : K) (a : Fin 8) :
    (shapeHex8 r s t).2 0 a = (hexNode a).1 * (1 + (hexNode a).2.1 * s) * (1 + (hexNode a).2.2 * t) / 8 ∧
    (shapeHex8 r s t).2 1 a = (hexNode a).2.1 * (1 + (hexNode a).1 * r) * (1 + (hexNode a).2.2 * t) / 8 ∧
    (shapeHex8 r s t).2 2 a = (hexNode a).2.2 * (1 + (hexNode a).1 * r) * (1 + (hexNode a).2.1 * s) / 8 := by
  have h8 : (0.125 : K) = 1 / 8 := by norm_num
  unfold shapeHex8 hexNode
  rw [h8]
  fin_cases a <;> refine ⟨?_, ?_, ?_⟩ <;> simp <;> ring

theorem hex_sum (a : Fin 8) (k : Fin 3) : (ruleHex8.map fun x : Shape K 3 8 × K => x.2 * x.1.2 k a).sum = hexAt a k := by
  obtain ⟨g, h1⟩ : ∃ g : ℚ, pts1d2 = [-g, g] := ⟨_, rfl⟩
  have h2 : wts1d2 = [1, 1] := by decide +kernel
  unfold ruleHex8
  rw [h1, h2]
  simp only [prodRepeat, at3]
  unfold hexAt
  fin_cases k
  · simp [(hex_der _ _ _ a).1]
    ring
  · simp [(hex_der _ _ _ a).2.1]
    ring
  · simp [(hex_der _ _ _ a).2.2]
    ring

theorem pull_hex (c : Fin 3 → K) (A : Matrix (Fin 3) (Fin 3) K) {X : Matrix (Fin 8) (Fin 3) K}
    (hX : ∀ a i, X a i = c i + A i 0 * (hexNode a).1 + A i 1 * (hexNode a).2.1 + A i 2 * (hexNode a).2.2) (a : Fin 8) (i : Fin 3) :
    pull ruleHex8 X a i = A.transpose.adjugate.mulVec (hexAt a) i := by
  have hJ : ∀ x ∈ (ruleHex8 : QRule K 3 8), x.1.2 * X = A.transpose := by
    intro x hx
    obtain ⟨y, -, rfl⟩ := List.mem_map.1 hx
    exact hex_affine c A hX _ _ _
  unfold pull
  rw [List.map_congr_left (g := fun x => A.transpose.adjugate i 0 * (x.2 * x.1.2 0 a) + A.transpose.adjugate i 1 * (x.2 * x.1.2 1 a) +
    A.transpose.adjugate i 2 * (x.2 * x.1.2 2 a)) (fun x hx => by
      rw [hJ x hx, Matrix.mul_apply, Fin.sum_univ_three]
      ring)]
  rw [List.sum_map_add, List.sum_map_add, List.sum_map_mul_left, List.sum_map_mul_left, List.sum_map_mul_left, hex_sum, hex_sum, hex_sum]
  unfold Matrix.mulVec dotProduct
  rw [Fin.sum_univ_three]

theorem hex_areas (nodes : Table K) (c : Fin 3 → K) (A : Matrix (Fin 3) (Fin 3) K) {p : Fin 8 → ℕ}
    (hX : ∀ a i, placeOf nodes (p a) i = c i + A i 0 * (hexNode a).1 + A i 1 * (hexNode a).2.1 + A i 2 * (hexNode a).2.2) (i : Fin 3) :
    areaOf nodes (([p 0, p 3, p 2, p 1] : List ℕ) : Cycle ℕ) i = -4 * A.transpose.adjugate i 2 ∧
    areaOf nodes (([p 4, p 5, p 6, p 7] : List ℕ) : Cycle ℕ) i = 4 * A.transpose.adjugate i 2 ∧
    areaOf nodes (([p 0, p 1, p 5, p 4] : List ℕ) : Cycle ℕ) i = -4 * A.transpose.adjugate i 1 ∧
    areaOf nodes (([p 1, p 2, p 6, p 5] : List ℕ) : Cycle ℕ) i = 4 * A.transpose.adjugate i 0 ∧
    areaOf nodes (([p 2, p 3, p 7, p 6] : List ℕ) : Cycle ℕ) i = 4 * A.transpose.adjugate i 1 ∧
    areaOf nodes (([p 3, p 0, p 4, p 7] : List ℕ) : Cycle ℕ) i = -4 * A.transpose.adjugate i 0 := by
  simp only [area_four, hX, Matrix.adjugate_fin_three, crossed, Matrix.transpose_apply, hexNode]
  fin_cases i <;> refine ⟨?_, ?_, ?_, ?_, ?_, ?_⟩ <;> simp <;> ring

theorem hex_corner (nodes : Table K) (c : Fin 3 → K) (A : Matrix (Fin 3) (Fin 3) K) {X : Matrix (Fin 8) (Fin 3) K} {p : Fin 8 → ℕ}
    (hX : ∀ a i, X a i = c i + A i 0 * (hexNode a).1 + A i 1 * (hexNode a).2.1 + A i 2 * (hexNode a).2.2)
    (hp : ∀ a i, placeOf nodes (p a) i = X a i) (i : Fin 3) :
    pull ruleHex8 X 0 i = (areaOf nodes (([p 0, p 3, p 2, p 1] : List ℕ) : Cycle ℕ) i + areaOf nodes (([p 0, p 1, p 5, p 4] : List ℕ) : Cycle ℕ) i + areaOf nodes (([p 3, p 0, p 4, p 7] : List ℕ) : Cycle ℕ) i) / 4 ∧
    pull ruleHex8 X 1 i = (areaOf nodes (([p 0, p 3, p 2, p 1] : List ℕ) : Cycle ℕ) i + areaOf nodes (([p 0, p 1, p 5, p 4] : List ℕ) : Cycle ℕ) i + areaOf nodes (([p 1, p 2, p 6, p 5] : List ℕ) : Cycle ℕ) i) / 4 ∧
    pull ruleHex8 X 2 i = (areaOf nodes (([p 0, p 3, p 2, p 1] : List ℕ) : Cycle ℕ) i + areaOf nodes (([p 1, p 2, p 6, p 5] : List ℕ) : Cycle ℕ) i + areaOf nodes (([p 2, p 3, p 7, p 6] : List ℕ) : Cycle ℕ) i) / 4 ∧
    pull ruleHex8 X 3 i = (areaOf nodes (([p 0, p 3, p 2, p 1] : List ℕ) : Cycle ℕ) i + areaOf nodes (([p 2, p 3, p 7, p 6] : List ℕ) : Cycle ℕ) i + areaOf nodes (([p 3, p 0, p 4, p 7] : List ℕ) : Cycle ℕ) i) / 4 ∧
    pull ruleHex8 X 4 i = (areaOf nodes (([p 4, p 5, p 6, p 7] : List ℕ) : Cycle ℕ) i + areaOf nodes (([p 0, p 1, p 5, p 4] : List ℕ) : Cycle ℕ) i + areaOf nodes (([p 3, p 0, p 4, p 7] : List ℕ) : Cycle ℕ) i) / 4 ∧
    pull ruleHex8 X 5 i = (areaOf nodes (([p 4, p 5, p 6, p 7] : List ℕ) : Cycle ℕ) i + areaOf nodes (([p 0, p 1, p 5, p 4] : List ℕ) : Cycle ℕ) i + areaOf nodes (([p 1, p 2, p 6, p 5] : List ℕ) : Cycle ℕ) i) / 4 ∧
    pull ruleHex8 X 6 i = (areaOf nodes (([p 4, p 5, p 6, p 7] : List ℕ) : Cycle ℕ) i + areaOf nodes (([p 1, p 2, p 6, p 5] : List ℕ) : Cycle ℕ) i + areaOf nodes (([p 2, p 3, p 7, p 6] : List ℕ) : Cycle ℕ) i) / 4 ∧
    pull ruleHex8 X 7 i = (areaOf nodes (([p 4, p 5, p 6, p 7] : List ℕ) : Cycle ℕ) i + areaOf nodes (([p 2, p 3, p 7, p 6] : List ℕ) : Cycle ℕ) i + areaOf nodes (([p 3, p 0, p 4, p 7] : List ℕ) : Cycle ℕ) i) / 4 := by
  obtain ⟨h1, h2, h3, h4, h5, h6⟩ := hex_areas nodes c A (fun a i => (hp a i).trans (hX a i)) i
  simp only [h1, h2, h3, h4, h5, h6, pull_hex c A hX, Matrix.mulVec, dotProduct, Fin.sum_univ_three, hexAt, hexNode]
  refine ⟨?_, ?_, ?_, ?_, ?_, ?_, ?_, ?_⟩ <;> simp <;> ring

theorem corner_three (nodes : Table K) (s : Fin 6 → K) (p : ℕ) (j : Fin 3) {a b c : ℕ} (h : [a, b, c].Nodup) :
    cornerForce nodes s p j (([a, b, c] : List ℕ) : Cycle ℕ) =
      ((if a = p then 1 else 0) + (if b = p then 1 else 0) + if c = p then 1 else 0) *
        (faceForce s (areaOf nodes (([a, b, c] : List ℕ) : Cycle ℕ)) j / 3) := by
  unfold cornerForce
  simp only [Cycle.mem_coe_iff, Cycle.length_coe, List.length_cons, List.length_nil]
  simp only [List.nodup_cons, List.mem_cons, List.not_mem_nil, or_false, not_or] at h
  obtain ⟨⟨h1, h2⟩, h3, -⟩ := h
  by_cases ha : a = p
  · subst ha
    simp [Ne.symm h1, Ne.symm h2]
  by_cases hb : b = p
  · subst hb
    simp [h1, Ne.symm h3]
  by_cases hc : c = p
  · subst hc
    simp [h2, h3]
  simp [ha, hb, hc, Ne.symm ha, Ne.symm hb, Ne.symm hc]

theorem corner_four (nodes : Table K) (s : Fin 6 → K) (p : ℕ) (j : Fin 3) {a b c d : ℕ} (h : [a, b, c, d].Nodup) :
    cornerForce nodes s p j (([a, b, c, d] : List ℕ) : Cycle ℕ) =
      ((if a = p then 1 else 0) + (if b = p then 1 else 0) + (if c = p then 1 else 0) + if d = p then 1 else 0) *
        (faceForce s (areaOf nodes (([a, b, c, d] : List ℕ) : Cycle ℕ)) j / 4) := by
  unfold cornerForce
  simp only [Cycle.mem_coe_iff, Cycle.length_coe, List.length_cons, List.length_nil]
  simp only [List.nodup_cons, List.mem_cons, List.not_mem_nil, or_false, not_or] at h
  obtain ⟨⟨h1, h2, h3⟩, ⟨h4, h5⟩, h6, -⟩ := h
  by_cases ha : a = p
  · subst ha
    simp [Ne.symm h1, Ne.symm h2, Ne.symm h3]
  by_cases hb : b = p
  · subst hb
    simp [h1, Ne.symm h4, Ne.symm h5]
  by_cases hc : c = p
  · subst hc
    simp [h2, h4, Ne.symm h6]
  by_cases hd : d = p
  · subst hd
    simp [h3, h5, h6]
  simp [ha, hb, hc, hd, Ne.symm ha, Ne.symm hb, Ne.symm hc, Ne.symm hd]

theorem faceForce_three (s : Fin 6 → K) (k : K) (x y z : Fin 3 → K) (i : Fin 3) :
    faceForce s (fun i => (x i + y i + z i) / k) i = (faceForce s x i + faceForce s y i + faceForce s z i) / k := by
  unfold faceForce
  fin_cases i <;> simp <;> ring

/-- The nodes of an accepted tetrahedron are different. -/
theorem tet_injective {X : Matrix (Fin 4) (Fin 3) K} (h : Acc ruleTet4 X) {p : Fin 4 → ℕ} {nodes : Table K}
    (hp : ∀ a i, placeOf nodes (p a) i = X a i) : Function.Injective p := by
  have hd : 0 < (tetDer * X).det := by
    obtain ⟨x, hx⟩ := List.exists_mem_of_ne_nil _ (good_tet4 (K := K)).ne
    have := h x hx
    obtain ⟨y, -, rfl⟩ := List.mem_map.1 hx
    exact tol_pos.trans this
  rw [tetDer_mul, Matrix.det_fin_three] at hd
  simp only [Matrix.of_apply] at hd
  intro a b hab
  by_contra hne
  have e : ∀ i, X a i = X b i := fun i => by rw [← hp, hab, hp]
  have e0 := e 0
  have e1 := e 1
  have e2 := e 2
  have s0 : (0 : Fin 3).succ = (1 : Fin 4) := rfl
  have s1 : (1 : Fin 3).succ = (2 : Fin 4) := rfl
  have s2 : (2 : Fin 3).succ = (3 : Fin 4) := rfl
  rw [s0, s1, s2] at hd
  apply hd.ne'
  fin_cases a <;> fin_cases b <;>
    first | exact (hne rfl).elim | (simp only [Fin.zero_eta, Fin.mk_one, Fin.reduceFinMk] at e0 e1 e2; rw [e0, e1, e2]; ring1)

/-- The nodes of an accepted brick are different. -/
theorem hex_injective {c : Fin 3 → K} {A : Matrix (Fin 3) (Fin 3) K} {X : Matrix (Fin 8) (Fin 3) K}
    (hX : ∀ a i, X a i = c i + A i 0 * (hexNode a).1 + A i 1 * (hexNode a).2.1 + A i 2 * (hexNode a).2.2) (h : Acc ruleHex8 X)
    {p : Fin 8 → ℕ} {nodes : Table K} (hp : ∀ a i, placeOf nodes (p a) i = X a i) : Function.Injective p := by
  have hd : A.det ≠ 0 := by
    obtain ⟨x, hx⟩ := List.exists_mem_of_ne_nil _ (good_hex8 (K := K)).ne
    have := h x hx
    obtain ⟨y, -, rfl⟩ := List.mem_map.1 hx
    unfold jdet at3 at this
    rw [hex_affine c A hX, Matrix.det_transpose] at this
    exact (tol_pos.trans this).ne'
  intro a b hab
  have e : A.mulVec (hexAt a) = A.mulVec (hexAt b) := by
    funext i
    have := (hp a i).symm.trans (by rw [hab, hp b i] : _ = X b i)
    rw [hX, hX] at this
    unfold Matrix.mulVec dotProduct hexAt
    rw [Fin.sum_univ_three, Fin.sum_univ_three]
    simp
    linear_combination this
  have e' := Matrix.mulVec_injective_of_det_ne_zero hd e
  have e0 := congrFun e' 0
  have e1 := congrFun e' 1
  have e2 := congrFun e' 2
  simp only [hexAt, hexNode] at e0 e1 e2
  by_contra hne
  have h2 : (1 : K) ≠ -1 := by norm_num
  have h3 : (-1 : K) ≠ 1 := by norm_num
  fin_cases a <;> fin_cases b <;> simp [h2, h3] at hne e0 e1 e2

theorem Placed3.force {n : ℕ} {nodes : Table K} {m : Member K} {X : Matrix (Fin n) (Fin 3) K} {k} (h : Placed3 nodes m X k) (u : ℕ → ℕ → K)
    (p : Fin n × Fin 3) : m.force 3 u p.1 p.2 = k.mulVec (m.pick3 n u) p := by
  unfold Member.force Matrix.mulVec dotProduct
  rw [h.size, Finset.sum_range, Fintype.sum_prod_type]
  refine Finset.sum_congr rfl fun b _ => ?_
  rw [Finset.sum_range]
  refine Finset.sum_congr rfl fun c _ => ?_
  dsimp only
  rw [← h.stiff p (b, c)]
  rfl

/-- A body of one material, made of tetrahedra of any shape or of parallelepiped bricks. -/
structure UniformBody (n : ℕ) (f : Uel K) (elements : List (List ℤ)) (mats nodes : Table K) (ms : List (Member K)) (E nu : K) : Prop where
  members : List.Forall₂ (Describes f mats nodes) elements ms
  kind : (n = 4 ∧ f = Uel.elastTet4) ∨ (n = 8 ∧ f = Uel.elastHex8 ∧ ∀ m ∈ ms, Brick nodes hexNode m)
  material : ∀ el ∈ elements, ∀ mi q params, el[2]? = some mi → Resolves mats.length mi q → mats[q]? = some params →
    ∃ ρ, params = [E, nu, ρ]

variable {n : ℕ} {f : Uel K} {elements : List (List ℤ)} {mats nodes cons loads : Table K} {ms : List (Member K)} {E nu : K}

theorem UniformBody.member_force (h : UniformBody n f elements mats nodes ms E nu) {C : Matrix (Fin 6) (Fin 6) K}
    (hC : elastMat [E, nu] = .ok C) (c : Fin 3 → K) (G : Matrix (Fin 3) (Fin 3) K) {u : ℕ → ℕ → K}
    (hu : ∀ p (j : Fin 3), u p j = affine c G (placeOf nodes p) j) {m : Member K} (hm : m ∈ ms) (p : ℕ) (j : Fin 3) :
    (∑ a ∈ Finset.range m.nodes.length, if m.nodes[a]? = some p then m.force 3 u a j else 0) =
      ((facesOf m.nodes).map (cornerForce nodes (C.mulVec (strainOf3 G)) p j)).sum := by
  obtain ⟨el, hel, hd⟩ := described h.members hm
  have hind : ∀ (P : Prop) [Decidable P] (t : K), (if P then t else 0) = (if P then 1 else 0) * t := by
    intro P _ t
    split_ifs <;> simp
  rw [Finset.sum_congr rfl fun a _ => hind (m.nodes[a]? = some p) (m.force 3 u a j)]
  rcases h.kind with ⟨rfl, rfl⟩ | ⟨rfl, rfl, hb⟩
  · obtain ⟨mi, q, params, X, k, mm, a1, a2, a3, hr, hpl⟩ := member_placed3 .tet4 hd
    obtain ⟨ρ, rfl⟩ := h.material el hel mi q params a1 a2 a3
    obtain ⟨-, -, -, hacc, -⟩ := ((returns_solid .tet4).2 _ _ _ _).1 hr
    have hpos : ∀ (a : Fin 4) i, placeOf nodes (m.nodes.getD a 0) i = X a i := by
      intro a i
      unfold placeOf coordOf fieldOf
      rw [hpl.coord a i]
      rfl
    have hinj := tet_injective hacc (p := fun a => m.nodes.getD a 0) hpos
    have hforce : ∀ a : Fin 4, m.force 3 u a j = faceForce (C.mulVec (strainOf3 G)) (pull ruleTet4 X a) j := by
      intro a
      rw [hpl.force u (a, j), hpl.rigid_pick c G u (fun p j => hu p j), solid_forces .tet4 hr c G hC]
    generalize C.mulVec (strainOf3 G) = s at hforce ⊢
    have hcor := tet_corner nodes (p := fun a => m.nodes.getD a 0) hpos
    have g0 := hforce 0
    have g1 := hforce 1
    have g2 := hforce 2
    have g3 := hforce 3
    rw [funext fun i => (hcor i).1, faceForce_three] at g0
    rw [funext fun i => (hcor i).2.1, faceForce_three] at g1
    rw [funext fun i => (hcor i).2.2.1, faceForce_three] at g2
    rw [funext fun i => (hcor i).2.2.2, faceForce_three] at g3
    have hlen := hpl.size
    clear hforce hcor hpos hpl hd
    match h4 : m.nodes, hlen with
    | [p0, p1, p2, p3], _ =>
      have hnd : [p0, p1, p2, p3].Nodup := by
        rw [h4] at hinj
        exact List.nodup_ofFn.2 hinj
      rw [h4] at g0 g1 g2 g3
      have v0 : ((0 : Fin 4) : ℕ) = 0 := rfl
      have v1 : ((1 : Fin 4) : ℕ) = 1 := rfl
      have v2 : ((2 : Fin 4) : ℕ) = 2 := rfl
      have v3 : ((3 : Fin 4) : ℕ) = 3 := rfl
      simp only [v0, v1, v2, v3, List.getD_cons_zero, List.getD_cons_succ] at g0 g1 g2 g3
      have n0 : [p0, p2, p1].Nodup := by simp at hnd ⊢; tauto
      have n1 : [p0, p1, p3].Nodup := by simp at hnd ⊢; tauto
      have n2 : [p1, p2, p3].Nodup := by simp at hnd ⊢; tauto
      have n3 : [p0, p3, p2].Nodup := by simp at hnd ⊢; tauto
      simp only [facesOf, List.map_cons, List.map_nil, List.sum_cons, List.sum_nil, corner_three _ _ _ _ n0, corner_three _ _ _ _ n1,
        corner_three _ _ _ _ n2, corner_three _ _ _ _ n3]
      simp only [List.length_cons, List.length_nil, Finset.sum_range_succ, Finset.sum_range_zero, List.getElem?_cons_zero,
        List.getElem?_cons_succ, Option.some.injEq, g0, g1, g2, g3]
      ring
  · obtain ⟨mi, q, params, X, k, mm, a1, a2, a3, hr, hpl⟩ := member_placed3 .hex8 hd
    obtain ⟨ρ, rfl⟩ := h.material el hel mi q params a1 a2 a3
    obtain ⟨-, -, -, hacc, -⟩ := ((returns_solid .hex8).2 _ _ _ _).1 hr
    have hpos : ∀ (a : Fin 8) i, placeOf nodes (m.nodes.getD a 0) i = X a i := by
      intro a i
      unfold placeOf coordOf fieldOf
      rw [hpl.coord a i]
      rfl
    obtain ⟨o, A, hA⟩ := hb m hm
    have hX : ∀ a i, X a i = o i + A i 0 * (hexNode a).1 + A i 1 * (hexNode a).2.1 + A i 2 * (hexNode a).2.2 :=
      fun a i => (hpos a i).symm.trans (hA a i)
    have hinj := hex_injective hX hacc (p := fun a => m.nodes.getD a 0) hpos
    have hforce : ∀ a : Fin 8, m.force 3 u a j = faceForce (C.mulVec (strainOf3 G)) (pull ruleHex8 X a) j := by
      intro a
      rw [hpl.force u (a, j), hpl.rigid_pick c G u (fun p j => hu p j), solid_forces .hex8 hr c G hC]
    generalize C.mulVec (strainOf3 G) = s at hforce ⊢
    have hcor := hex_corner nodes o A (p := fun a => m.nodes.getD a 0) hX hpos
    have g0 := hforce 0
    have g1 := hforce 1
    have g2 := hforce 2
    have g3 := hforce 3
    have g4 := hforce 4
    have g5 := hforce 5
    have g6 := hforce 6
    have g7 := hforce 7
    rw [funext fun i => (hcor i).1, faceForce_three] at g0
    rw [funext fun i => (hcor i).2.1, faceForce_three] at g1
    rw [funext fun i => (hcor i).2.2.1, faceForce_three] at g2
    rw [funext fun i => (hcor i).2.2.2.1, faceForce_three] at g3
    rw [funext fun i => (hcor i).2.2.2.2.1, faceForce_three] at g4
    rw [funext fun i => (hcor i).2.2.2.2.2.1, faceForce_three] at g5
    rw [funext fun i => (hcor i).2.2.2.2.2.2.1, faceForce_three] at g6
    rw [funext fun i => (hcor i).2.2.2.2.2.2.2, faceForce_three] at g7
    have hlen := hpl.size
    clear hforce hcor hpos hpl hd hX hA
    match h4 : m.nodes, hlen with
    | [p0, p1, p2, p3, p4, p5, p6, p7], _ =>
      have hnd : [p0, p1, p2, p3, p4, p5, p6, p7].Nodup := by
        rw [h4] at hinj
        exact List.nodup_ofFn.2 hinj
      rw [h4] at g0 g1 g2 g3 g4 g5 g6 g7
      have v0 : ((0 : Fin 8) : ℕ) = 0 := rfl
      have v1 : ((1 : Fin 8) : ℕ) = 1 := rfl
      have v2 : ((2 : Fin 8) : ℕ) = 2 := rfl
      have v3 : ((3 : Fin 8) : ℕ) = 3 := rfl
      have v4 : ((4 : Fin 8) : ℕ) = 4 := rfl
      have v5 : ((5 : Fin 8) : ℕ) = 5 := rfl
      have v6 : ((6 : Fin 8) : ℕ) = 6 := rfl
      have v7 : ((7 : Fin 8) : ℕ) = 7 := rfl
      simp only [v0, v1, v2, v3, v4, v5, v6, v7, List.getD_cons_zero, List.getD_cons_succ] at g0 g1 g2 g3 g4 g5 g6 g7
      simp only [List.nodup_cons, List.mem_cons, List.not_mem_nil, or_false, not_or] at hnd
      have n0 : [p0, p3, p2, p1].Nodup := by
        simp only [List.nodup_cons, List.mem_cons, List.not_mem_nil, or_false, not_or, List.nodup_nil, not_false_eq_true, and_true]
        tauto
      have n1 : [p4, p5, p6, p7].Nodup := by
        simp only [List.nodup_cons, List.mem_cons, List.not_mem_nil, or_false, not_or, List.nodup_nil, not_false_eq_true, and_true]
        tauto
      have n2 : [p0, p1, p5, p4].Nodup := by
        simp only [List.nodup_cons, List.mem_cons, List.not_mem_nil, or_false, not_or, List.nodup_nil, not_false_eq_true, and_true]
        tauto
      have n3 : [p1, p2, p6, p5].Nodup := by
        simp only [List.nodup_cons, List.mem_cons, List.not_mem_nil, or_false, not_or, List.nodup_nil, not_false_eq_true, and_true]
        tauto
      have n4 : [p2, p3, p7, p6].Nodup := by
        simp only [List.nodup_cons, List.mem_cons, List.not_mem_nil, or_false, not_or, List.nodup_nil, not_false_eq_true, and_true]
        tauto
      have n5 : [p3, p0, p4, p7].Nodup := by
        simp only [List.nodup_cons, List.mem_cons, List.not_mem_nil, or_false, not_or, List.nodup_nil, not_false_eq_true, and_true]
        tauto
      simp only [facesOf, List.map_cons, List.map_nil, List.sum_cons, List.sum_nil, corner_four _ _ _ _ n0, corner_four _ _ _ _ n1,
        corner_four _ _ _ _ n2, corner_four _ _ _ _ n3, corner_four _ _ _ _ n4, corner_four _ _ _ _ n5]
      simp only [List.length_cons, List.length_nil, Finset.sum_range_succ, Finset.sum_range_zero, List.getElem?_cons_zero,
        List.getElem?_cons_succ, Option.some.injEq, g0, g1, g2, g3, g4, g5, g6, g7]
      ring

theorem faceForce_neg (s : Fin 6 → K) (v : Fin 3 → K) (i : Fin 3) : faceForce s (fun i => -v i) i = -faceForce s v i := by
  unfold faceForce
  fin_cases i <;> simp <;> ring

theorem corner_swap (nodes : Table K) (s : Fin 6 → K) (p : ℕ) (j : Fin 3) {F : Cycle ℕ}
    (hF : (∃ a b c : ℕ, F = (([a, b, c] : List ℕ) : Cycle ℕ)) ∨ ∃ a b c d : ℕ, F = (([a, b, c, d] : List ℕ) : Cycle ℕ)) :
    cornerForce nodes s p j F + cornerForce nodes s p j F.reverse = 0 := by
  have hr : ∀ i, areaOf nodes F.reverse i = -areaOf nodes F i := by
    intro i
    rcases hF with ⟨a, b, c, rfl⟩ | ⟨a, b, c, d, rfl⟩
    · rw [show Cycle.reverse (([a, b, c] : List ℕ) : Cycle ℕ) = (([c, b, a] : List ℕ) : Cycle ℕ) from rfl, area_three, area_three]
      unfold crossed
      fin_cases i <;> simp <;> ring
    · rw [show Cycle.reverse (([a, b, c, d] : List ℕ) : Cycle ℕ) = (([d, c, b, a] : List ℕ) : Cycle ℕ) from rfl, area_four, area_four]
      unfold crossed
      fin_cases i <;> simp <;> ring
  unfold cornerForce
  simp only [Cycle.mem_reverse_iff, Cycle.length_reverse]
  rw [funext hr, faceForce_neg]
  split_ifs <;> ring

theorem facesOf_kind {l : List ℕ} {F : Cycle ℕ} (h : F ∈ facesOf l) :
    (∃ a b c : ℕ, F = (([a, b, c] : List ℕ) : Cycle ℕ)) ∨ ∃ a b c d : ℕ, F = (([a, b, c, d] : List ℕ) : Cycle ℕ) := by
  unfold facesOf at h
  split at h
  · left
    simp only [List.mem_cons, List.not_mem_nil, or_false] at h
    rcases h with rfl | rfl | rfl | rfl <;> exact ⟨_, _, _, rfl⟩
  · right
    simp only [List.mem_cons, List.not_mem_nil, or_false] at h
    rcases h with rfl | rfl | rfl | rfl | rfl | rfl <;> exact ⟨_, _, _, _, rfl⟩
  · cases h

/-- Only the faces without a partner count. -/
theorem sum_outerFaces {l : List (Cycle ℕ)} (hl : l.Nodup) {f : Cycle ℕ → K} (hf : ∀ e ∈ l, f e + f e.reverse = 0) :
    (l.map f).sum = ((l.filter fun e => e.reverse ∉ l).map f).sum := by
  have hzero : ((l.filter fun e => e.reverse ∈ l).map f).sum = 0 := by
    rw [← List.sum_toFinset _ (hl.filter _)]
    refine Finset.sum_involution (fun e _ => e.reverse) (fun e he => ?_) (fun e he hne hsw => hne ?_)
      (fun e he => ?_) (fun e _ => Cycle.reverse_reverse e)
    · simp only [List.mem_toFinset, List.mem_filter] at he
      exact hf e he.1
    · simp only [List.mem_toFinset, List.mem_filter] at he
      have := hf e he.1
      rw [hsw] at this
      linarith
    · simp only [List.mem_toFinset, List.mem_filter, decide_eq_true_eq] at he ⊢
      exact ⟨he.2, by rw [Cycle.reverse_reverse]; exact he.1⟩
  have hsplit : ∀ (P : Cycle ℕ → Bool) (l : List (Cycle ℕ)),
      (l.map f).sum = ((l.filter P).map f).sum + ((l.filter fun e => !P e).map f).sum := by
    intro P l
    induction l with
    | nil => simp
    | cons e l ih =>
      rw [List.map_cons, List.sum_cons, ih]
      cases hP : P e <;> simp [hP] <;> ring
  rw [hsplit (fun e => decide (e.reverse ∈ l)) l, hzero, zero_add]
  congr 3
  funext e
  simp

/-- C151.  The patch test in space.  In a body of one material whose faces fit together, a displacement field of uniform strain
gives internal forces at the boundary only: at each node, of every outer face ending there, an equal share of the force of the
uniform stress on it. -/
theorem C151_uniform_strain (h : UniformBody n f elements mats nodes ms E nu) (hnd : (allFaces ms).Nodup)
    {C : Matrix (Fin 6) (Fin 6) K} (hC : elastMat [E, nu] = .ok C) (c : Fin 3 → K) (G : Matrix (Fin 3) (Fin 3) K)
    {u : ℕ → ℕ → K} (hu : ∀ p (j : Fin 3), u p j = affine c G (placeOf nodes p) j) (p : ℕ) (j : Fin 3) :
    internal 3 ms u p j = ((outerFaces ms).map (cornerForce nodes (C.mulVec (strainOf3 G)) p j)).sum := by
  have h1 : internal 3 ms u p j = ((allFaces ms).map (cornerForce nodes (C.mulVec (strainOf3 G)) p j)).sum := by
    unfold internal allFaces
    rw [List.map_flatMap, List.flatMap, List.sum_flatten, List.map_map]
    congr 1
    refine List.map_congr_left fun m hm => ?_
    rw [h.member_force hC c G hu hm p j]
    rfl
  rw [h1, sum_outerFaces hnd]
  · rfl
  · intro F hF
    obtain ⟨m, -, hF⟩ := List.mem_flatMap.1 hF
    exact corner_swap nodes _ p j (facesOf_kind hF)

/-- C151.  A node on no outer face is in equilibrium under every uniform strain. -/
theorem C151_interior (h : UniformBody n f elements mats nodes ms E nu) (hnd : (allFaces ms).Nodup)
    {C : Matrix (Fin 6) (Fin 6) K} (hC : elastMat [E, nu] = .ok C) (c : Fin 3 → K) (G : Matrix (Fin 3) (Fin 3) K)
    {u : ℕ → ℕ → K} (hu : ∀ p (j : Fin 3), u p j = affine c G (placeOf nodes p) j) {p : ℕ}
    (hp : ∀ F ∈ outerFaces ms, p ∉ F) (j : Fin 3) : internal 3 ms u p j = 0 := by
  rw [C151_uniform_strain h hnd hC c G hu p j]
  apply List.sum_eq_zero
  intro x hx
  obtain ⟨F, hF, rfl⟩ := List.mem_map.1 hx
  unfold cornerForce
  rw [if_neg (hp F hF)]

theorem SolidBody.uniform (h : SolidBody n f elements mats nodes ms)
    (hmat : ∀ el ∈ elements, ∀ mi q params, el[2]? = some mi → Resolves mats.length mi q → mats[q]? = some params →
      ∃ ρ, params = [E, nu, ρ]) : UniformBody n f elements mats nodes ms E nu := ⟨h.members, h.kind, hmat⟩

variable {tab : ℤ → Py (Uel K)} {count : ℤ → Py ℕ} {m : ℕ}

/-- C151.  A body loaded by the forces of a uniform stress on its outer faces, and held where the displacements of that stress
vanish, is computed exactly: the analysis returns these displacements at every node. -/
theorem C151_exact (h : SolidBody n f elements mats nodes ms)
    (hmat : ∀ el ∈ elements, ∀ mi q params, el[2]? = some mi → Resolves mats.length mi q → mats[q]? = some params →
      ∃ ρ, params = [E, nu, ρ]) (hnd : (allFaces ms).Nodup) (hus : UserModel 3 n cons nodes elements)
    (hc : Counts count (n * 3) elements) (hm : n * 3 ≤ m) (hsup : Spec.Held cons nodes) {sp de : Sol.Solver K} (hsp : SolverOk sp)
    (hde : SolverOk de) (sparse : Bool) (hl : ∀ L ∈ loads, 4 ≤ L.length ∧ ∃ p, Names nodes.length L p)
    {C : Matrix (Fin 6) (Fin 6) K} (hC : elastMat [E, nu] = .ok C) (c : Fin 3 → K) (G : Matrix (Fin 3) (Fin 3) K)
    (hfix : ∀ p (j : Fin 3), p < nodes.length → ¬ Free cons 3 p j → affine c G (placeOf nodes p) j = 0)
    (hload : ∀ p (j : Fin 3), Free cons 3 p j → IsLoad nodes.length loads p j
      ((outerFaces ms).map (cornerForce nodes (C.mulVec (strainOf3 G)) p j)).sum) :
    ∃ full, userRun tab f 3 m count sp de sparse cons elements mats nodes loads = .ok full ∧
      ∀ p (j : Fin 3), p < nodes.length → entry full p j = some (affine c G (placeOf nodes p) j) := by
  have h0 : 0 < n * 3 := by rcases h.kind with ⟨rfl, _⟩ | ⟨rfl, _⟩ <;> omega
  have hst := (C136_stable_iff h hus.size).2 hsup
  obtain ⟨full, h1, -⟩ := C136_solved (tab := tab) (loads := loads) h hus hc hm hsup hsp hde sparse hl
  refine ⟨full, h1, ?_⟩
  set u : ℕ → ℕ → K := fun p j => if hj : j < 3 then affine c G (placeOf nodes p) ⟨j, hj⟩ else 0 with hudef
  have hu : ∀ p (j : Fin 3), u p j = affine c G (placeOf nodes p) j := fun p j => dif_pos j.2
  have hE : Equilibrium cons 3 loads ms u := by
    constructor
    · intro p j hp hj hf
      rw [hu p ⟨j, hj⟩]
      exact hfix p ⟨j, hj⟩ (by rw [← hus.size]; exact hp) hf
    · intro p j hf
      have hj := hf.1
      rw [C151_uniform_strain (h.uniform hmat) hnd hC c G hu p ⟨j, hj⟩, hus.size]
      exact hload p ⟨j, hj⟩ hf
  intro p j hp
  rw [C135_unique (elementOf_solid h.element) hus hc h0 hm h.members hst hsp hde h1 hE p j hp j.2, hu]

end

/-! ## Cases -/

section demo

/-- A column of two bricks, one above the other, on rollers in the three coordinate planes and pulled upwards. -/
def columnNodes : Table ℚ := [[0, 0, 0, 0], [1, 1, 0, 0], [2, 1, 1, 0], [3, 0, 1, 0], [4, 0, 0, 1], [5, 1, 0, 1], [6, 1, 1, 1], [7, 0, 1, 1],
  [8, 0, 0, 3], [9, 1, 0, 3], [10, 1, 1, 3], [11, 0, 1, 3]]
def columnCons : Table ℚ := [[-1, -1, -1], [0, -1, -1], [0, 0, -1], [-1, 0, -1], [-1, -1, 0], [0, -1, 0], [0, 0, 0], [-1, 0, 0],
  [-1, -1, 0], [0, -1, 0], [0, 0, 0], [-1, 0, 0]]
def columnEls : List (List ℤ) := [[0, 1, 0, 0, 1, 2, 3, 4, 5, 6, 7], [1, 1, 0, 4, 5, 6, 7, 8, 9, 10, 11]]
def columnLoads : Table ℚ := [[8, 0, 0, 1/4], [9, 0, 0, 1/4], [10, 0, 0, 1/4], [11, 0, 0, 1/4]]

theorem column_body : ∃ a b : Member ℚ, SolidBody 8 Uel.elastHex8 columnEls tetMats columnNodes [a, b] ∧
    a.nodes = [0, 1, 2, 3, 4, 5, 6, 7] ∧ b.nodes = [4, 5, 6, 7, 8, 9, 10, 11] := by
  obtain ⟨a, ha, na⟩ := describe_exists (f := Uel.elastHex8) (mats := tetMats) (nodes := columnNodes) (id := 0) (ty := 1)
    (ps := [0, 1, 2, 3, 4, 5, 6, 7]) (params := [10, 1/4, 1]) (rows := columnNodes.take 8) rfl
    (.cons rfl (.cons rfl (.cons rfl (.cons rfl (.cons rfl (.cons rfl (.cons rfl (.cons rfl .nil)))))))) (by decide +kernel)
  obtain ⟨b, hb, nb⟩ := describe_exists (f := Uel.elastHex8) (mats := tetMats) (nodes := columnNodes) (id := 1) (ty := 1)
    (ps := [4, 5, 6, 7, 8, 9, 10, 11]) (params := [10, 1/4, 1]) (rows := columnNodes.drop 4) rfl
    (.cons rfl (.cons rfl (.cons rfl (.cons rfl (.cons rfl (.cons rfl (.cons rfl (.cons rfl .nil)))))))) (by decide +kernel)
  have face : Bent columnNodes 4 5 6 := .inl (by decide +kernel)
  refine ⟨a, b, ⟨.cons ha (.cons hb .nil), .inr ⟨rfl, rfl, ?_⟩, ?_, ?_, ?_⟩, na, nb⟩
  · intro m hm
    simp only [List.mem_cons, List.not_mem_nil, or_false] at hm
    rcases hm with rfl | rfl
    · refine ⟨![1/2, 1/2, 1/2], !![1/2, 0, 0; 0, 1/2, 0; 0, 0, 1/2], ?_⟩
      rw [na]
      decide +kernel
    · refine ⟨![1/2, 1/2, 2], !![1/2, 0, 0; 0, 1/2, 0; 0, 0, 1], ?_⟩
      rw [nb]
      decide +kernel
  · intro el _ mi q params _ _ hp
    refine ⟨10, 1/4, 1, ?_, by norm_num, by norm_num, by norm_num, by norm_num⟩
    match q, hp with
    | 0, hp => simpa [tetMats] using hp.symm
    | q + 1, hp => simp [tetMats] at hp
  · intro p hp
    have : p < 8 ∨ 8 ≤ p ∧ p < 12 := by simp [columnNodes] at hp; omega
    rcases this with h | ⟨h, h'⟩
    · exact ⟨a, by simp, by rw [na]; interval_cases p <;> simp⟩
    · exact ⟨b, by simp, by rw [nb]; interval_cases p <;> simp⟩
  · have hab : SharesFace columnNodes a b := ⟨4, 5, 6, by rw [na]; simp, by rw [na]; simp, by rw [na]; simp, by rw [nb]; simp,
      by rw [nb]; simp, by rw [nb]; simp, face⟩
    have hba : SharesFace columnNodes b a := ⟨4, 5, 6, by rw [nb]; simp, by rw [nb]; simp, by rw [nb]; simp, by rw [na]; simp,
      by rw [na]; simp, by rw [na]; simp, face⟩
    intro x hx y hy
    simp only [List.mem_cons, List.not_mem_nil, or_false] at hx hy
    rcases hx with rfl | rfl <;> rcases hy with rfl | rfl
    · exact .refl
    · exact .single ⟨by simp, hab⟩
    · exact .single ⟨by simp, hba⟩
    · exact .refl

theorem column_model : UserModel 3 8 columnCons columnNodes columnEls where
  codes := by
    intro p j v _ h
    have : ∀ r ∈ columnCons, ∀ x ∈ r, x = 0 ∨ x = -1 := by decide +kernel
    obtain ⟨r, h1, h2⟩ := entry_some.1 h
    exact this r (List.mem_of_getElem? h1) v (List.mem_of_getElem? h2)
  width := by decide
  size := rfl
  typed := by decide

theorem column_fixed {p j : ℕ} (h : entry columnCons p j = some (-1)) : ¬ Free columnCons 3 p j := by
  rintro ⟨-, x, hx, h1, h2⟩
  rw [h, Option.some.injEq] at hx
  subst hx
  exact absurd h1 (lt_irrefl _)

theorem column_held : Spec.Held columnCons columnNodes := by
  intro g ha p j hp hj
  have e : ∀ p j : ℕ, p < 12 → j < 3 → entry columnCons p j = some (-1) → g.move columnNodes p j = 0 := fun p j hp hj h =>
    ha p j hp hj (column_fixed h)
  have a1 := e 0 0 (by norm_num) (by norm_num) rfl
  have a2 := e 0 1 (by norm_num) (by norm_num) rfl
  have a3 := e 0 2 (by norm_num) (by norm_num) rfl
  have a4 := e 3 0 (by norm_num) (by norm_num) rfl
  have a5 := e 1 2 (by norm_num) (by norm_num) rfl
  have a6 := e 3 2 (by norm_num) (by norm_num) rfl
  obtain ⟨s, w⟩ := g
  simp [Screw.move, coordOf, fieldOf, entry, columnNodes] at a1 a2 a3 a4 a5 a6
  have w2 : w 2 = 0 := by linarith
  have w1 : w 1 = 0 := by linarith
  have w0 : w 0 = 0 := by linarith
  unfold Screw.move
  simp [a1, a2, a3, w0, w1, w2]

/-- C151: the column is stretched by a tenth of its height and gets thinner by a fortieth, at every node. -/
example (tab : ℤ → Py (Uel ℚ)) (sparse : Bool) : ∃ full,
    userRun tab Uel.elastHex8 3 24 (fun _ => .ok 24) cramerSolver cramerSolver sparse columnCons columnEls tetMats columnNodes columnLoads = .ok full ∧
      ∀ p (j : Fin 3), p < 12 → entry full p j = some (affine 0 !![-1/40, 0, 0; 0, -1/40, 0; 0, 0, 1/10] (placeOf columnNodes p) j) := by
  obtain ⟨a, b, h, na, nb⟩ := column_body
  have hfaces : allFaces [a, b] = facesOf [0, 1, 2, 3, 4, 5, 6, 7] ++ facesOf [4, 5, 6, 7, 8, 9, 10, 11] := by
    unfold allFaces
    simp [na, nb]
  obtain ⟨C, hC, hs⟩ : ∃ C, elastMat [(10 : ℚ), 1/4] = .ok C ∧
      C.mulVec (strainOf3 !![-1/40, 0, 0; 0, -1/40, 0; 0, 0, 1/10]) = ![0, 0, 1, 0, 0, 0] := by
    refine ⟨_, elastMat_ok.2 ⟨10, 1/4, rfl, by norm_num, by norm_num, 4, 4, by norm_num, by norm_num, rfl⟩, ?_⟩
    rw [elastMat_mulVec]
    decide +kernel
  refine C151_exact (E := 10) (nu := 1/4) h ?_ (by rw [hfaces]; decide) column_model ?_ (by norm_num) column_held cramerSolver_ok
    cramerSolver_ok sparse ?_ hC 0 _ ?_ ?_
  · intro el _ mi q params _ _ hp
    match q, hp with
    | 0, hp => exact ⟨1, by simpa [tetMats] using hp.symm⟩
    | q + 1, hp => simp [tetMats] at hp
  · intro el hel
    simp only [columnEls, List.mem_cons, List.not_mem_nil, or_false] at hel
    rcases hel with rfl | rfl <;> exact ⟨1, rfl, rfl⟩
  · intro L hL
    simp only [columnLoads, List.mem_cons, List.not_mem_nil, or_false] at hL
    rcases hL with rfl | rfl | rfl | rfl
    · exact ⟨by simp, 8, 8, 8, rfl, ⟨by decide, .inl rfl⟩, .inl ⟨by norm_num, by norm_num, by norm_num⟩⟩
    · exact ⟨by simp, 9, 9, 9, rfl, ⟨by decide, .inl rfl⟩, .inl ⟨by norm_num, by norm_num, by norm_num⟩⟩
    · exact ⟨by simp, 10, 10, 10, rfl, ⟨by decide, .inl rfl⟩, .inl ⟨by norm_num, by norm_num, by norm_num⟩⟩
    · exact ⟨by simp, 11, 11, 11, rfl, ⟨by decide, .inl rfl⟩, .inl ⟨by norm_num, by norm_num, by norm_num⟩⟩
  · intro p j hp hf
    have hp' : p < 12 := hp
    have key : ∀ (p : Fin 12) (j : Fin 3), entry columnCons p j = some 0 ∨
        affine 0 !![-1/40, 0, 0; 0, -1/40, 0; 0, 0, 1/10] (placeOf columnNodes p) j = 0 := by decide +kernel
    rcases key ⟨p, hp'⟩ j with h | h
    · exact absurd ⟨j.2, 0, h, by norm_num, by norm_num⟩ hf
    · exact h
  · intro p j hfree
    obtain ⟨-, x, hx, -, -⟩ := id hfree
    obtain ⟨r, h1, -⟩ := entry_some.1 hx
    have hp : p < 12 := (List.getElem?_eq_some_iff.1 h1).1
    have key : ∀ (p : Fin 12) (j : Fin 3), (((facesOf [0, 1, 2, 3, 4, 5, 6, 7] ++ facesOf [4, 5, 6, 7, 8, 9, 10, 11]).filter fun F =>
        F.reverse ∉ facesOf [0, 1, 2, 3, 4, 5, 6, 7] ++ facesOf [4, 5, 6, 7, 8, 9, 10, 11]).map
          (cornerForce columnNodes ![0, 0, 1, 0, 0, 0] p j)).sum =
        if j = 2 then (if 8 ≤ (p : ℕ) then 1/4 else if (p : ℕ) < 4 then -1/4 else 0) else 0 := by decide +kernel
    rw [hs]
    unfold outerFaces
    rw [hfaces, key ⟨p, hp⟩ j]
    have hres : ∀ q : ℕ, q < 12 → ∀ L : List ℚ, ∀ p, Names 12 ((q : ℚ) :: L) p ↔ p = q := fun q hq L p => names_nat hq rfl
    have n8 : ∀ p, Names 12 [(8 : ℚ), 0, 0, 1/4] p ↔ p = 8 := hres 8 (by norm_num) _
    have n9 : ∀ p, Names 12 [(9 : ℚ), 0, 0, 1/4] p ↔ p = 9 := hres 9 (by norm_num) _
    have n10 : ∀ p, Names 12 [(10 : ℚ), 0, 0, 1/4] p ↔ p = 10 := hres 10 (by norm_num) _
    have n11 : ∀ p, Names 12 [(11 : ℚ), 0, 0, 1/4] p ↔ p = 11 := hres 11 (by norm_num) _
    have hval : ∀ j : Fin 3, ∀ q : ℚ, ([q, 0, 0, 1/4] : List ℚ)[(j : ℕ) + 1]? = some (if j = 2 then 1/4 else 0) := by
      intro j q
      fin_cases j <;> rfl
    show IsLoad 12 columnLoads p j _
    dsimp only
    by_cases h8 : 8 ≤ p
    · right
      rw [if_pos h8]
      have hc : p = 8 ∨ p = 9 ∨ p = 10 ∨ p = 11 := by omega
      rcases hc with rfl | rfl | rfl | rfl
      · exact ⟨[], _, _, rfl, (n8 _).2 rfl, by simp [-one_div, n9, n10, n11], hval j _⟩
      · exact ⟨[_], _, _, rfl, (n9 _).2 rfl, by simp [-one_div, n10, n11], hval j _⟩
      · exact ⟨[_, _], _, _, rfl, (n10 _).2 rfl, by simp [-one_div, n11], hval j _⟩
      · exact ⟨[_, _, _], _, [], rfl, (n11 _).2 rfl, by simp, hval j _⟩
    · left
      rw [if_neg h8]
      constructor
      · intro L hL
        simp only [columnLoads, List.mem_cons, List.not_mem_nil, or_false] at hL
        rcases hL with rfl | rfl | rfl | rfl
        · rw [n8]; omega
        · rw [n9]; omega
        · rw [n10]; omega
        · rw [n11]; omega
      · split_ifs with h2 h4
        · subst h2
          exfalso
          refine column_fixed ?_ hfree
          interval_cases p <;> rfl
        · rfl
        · rfl

/-- C151: an octahedron of eight tetrahedra about an inner node, which is in equilibrium under every uniform strain. -/
def starNodes : Table ℚ := [[0, 0, 0, 0], [1, 1, 0, 0], [2, 0, 1, 0], [3, -1, 0, 0], [4, 0, -1, 0], [5, 0, 0, 1], [6, 0, 0, -1]]
def starEls : List (List ℤ) := [[0, 9, 0, 0, 1, 2, 5], [1, 9, 0, 0, 2, 3, 5], [2, 9, 0, 0, 3, 4, 5], [3, 9, 0, 0, 4, 1, 5],
  [4, 9, 0, 0, 2, 1, 6], [5, 9, 0, 0, 3, 2, 6], [6, 9, 0, 0, 4, 3, 6], [7, 9, 0, 0, 1, 4, 6]]

theorem star_member {id : ℤ} {a b c : ℕ} (ha : a < 7) (hb : b < 7) (hc : c < 7)
    (h : (Uel.elastTet4 ([starNodes[0]!, starNodes[a]!, starNodes[b]!, starNodes[c]!].map (List.drop 1)) [10, 1/4, 1]).isOk = true) :
    ∃ m, Describes Uel.elastTet4 tetMats starNodes [id, 9, 0, 0, a, b, c] m ∧ m.nodes = [0, a, b, c] :=
  describe_exists (f := Uel.elastTet4) (mats := tetMats) (nodes := starNodes) (id := id) (ty := 9) (ps := [0, a, b, c])
    (params := [10, 1/4, 1]) (rows := [starNodes[0]!, starNodes[a]!, starNodes[b]!, starNodes[c]!]) rfl
    (.cons (by simp [starNodes]) (.cons (by interval_cases a <;> rfl) (.cons (by interval_cases b <;> rfl)
      (.cons (by interval_cases c <;> rfl) .nil)))) h

example : ∃ ms, UniformBody 4 Uel.elastTet4 starEls tetMats starNodes ms 10 (1/4) ∧ ∀ (c : Fin 3 → ℚ) (G : Matrix (Fin 3) (Fin 3) ℚ)
    (u : ℕ → ℕ → ℚ), (∀ p (j : Fin 3), u p j = affine c G (placeOf starNodes p) j) → ∀ j : Fin 3, internal 3 ms u 0 j = 0 := by
  obtain ⟨m0, h0, n0⟩ := star_member (id := 0) (a := 1) (b := 2) (c := 5) (by norm_num) (by norm_num) (by norm_num) (by decide +kernel)
  obtain ⟨m1, h1, n1⟩ := star_member (id := 1) (a := 2) (b := 3) (c := 5) (by norm_num) (by norm_num) (by norm_num) (by decide +kernel)
  obtain ⟨m2, h2, n2⟩ := star_member (id := 2) (a := 3) (b := 4) (c := 5) (by norm_num) (by norm_num) (by norm_num) (by decide +kernel)
  obtain ⟨m3, h3, n3⟩ := star_member (id := 3) (a := 4) (b := 1) (c := 5) (by norm_num) (by norm_num) (by norm_num) (by decide +kernel)
  obtain ⟨m4, h4, n4⟩ := star_member (id := 4) (a := 2) (b := 1) (c := 6) (by norm_num) (by norm_num) (by norm_num) (by decide +kernel)
  obtain ⟨m5, h5, n5⟩ := star_member (id := 5) (a := 3) (b := 2) (c := 6) (by norm_num) (by norm_num) (by norm_num) (by decide +kernel)
  obtain ⟨m6, h6, n6⟩ := star_member (id := 6) (a := 4) (b := 3) (c := 6) (by norm_num) (by norm_num) (by norm_num) (by decide +kernel)
  obtain ⟨m7, h7, n7⟩ := star_member (id := 7) (a := 1) (b := 4) (c := 6) (by norm_num) (by norm_num) (by norm_num) (by decide +kernel)
  have hb : UniformBody 4 Uel.elastTet4 starEls tetMats starNodes [m0, m1, m2, m3, m4, m5, m6, m7] 10 (1/4) := by
    refine ⟨.cons h0 (.cons h1 (.cons h2 (.cons h3 (.cons h4 (.cons h5 (.cons h6 (.cons h7 .nil))))))), .inl ⟨rfl, rfl⟩, ?_⟩
    intro el _ mi q params _ _ hp
    match q, hp with
    | 0, hp => exact ⟨1, by simpa [tetMats] using hp.symm⟩
    | q + 1, hp => simp [tetMats] at hp
  have hfaces : allFaces [m0, m1, m2, m3, m4, m5, m6, m7] = [[0, 1, 2, 5], [0, 2, 3, 5], [0, 3, 4, 5], [0, 4, 1, 5], [0, 2, 1, 6],
      [0, 3, 2, 6], [0, 4, 3, 6], [0, 1, 4, 6]].flatMap facesOf := by
    unfold allFaces
    simp only [List.flatMap_cons, List.flatMap_nil, n0, n1, n2, n3, n4, n5, n6, n7]
  refine ⟨_, hb, fun c G u hu j => ?_⟩
  obtain ⟨C, hC⟩ : ∃ C, elastMat [(10 : ℚ), 1/4] = .ok C :=
    ⟨_, elastMat_ok.2 ⟨10, 1/4, rfl, by norm_num, by norm_num, 4, 4, by norm_num, by norm_num, rfl⟩⟩
  refine C151_interior hb (by rw [hfaces]; decide) hC c G hu ?_ j
  unfold outerFaces
  rw [hfaces]
  decide

end demo

end SolidsPy
