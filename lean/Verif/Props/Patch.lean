import Verif.Props.Supports
import Verif.Spec.Patch

/-! # C96: uniform strain in plane meshes -/

set_option linter.unusedSectionVars false

namespace SolidsPy
open Spec Fem Uel Gauss Assem Matrix

section
variable {K : Type} [Field K] [LinearOrder K] [IsStrictOrderedRing K] [FloorRing K]

/-- Determinant times gradient: the cofactors. -/
theorem jdet_grad {n : ℕ} {D : Matrix (Fin 2) (Fin n) K} {X : Matrix (Fin n) (Fin 2) K} (h : (D * X).det ≠ 0)
    (a : Fin n) : (D * X).det * grad D X 0 a = (∑ b, D 1 b * X b 1) * D 0 a - (∑ b, D 0 b * X b 1) * D 1 a ∧
      (D * X).det * grad D X 1 a = (∑ b, D 0 b * X b 0) * D 1 a - (∑ b, D 1 b * X b 0) * D 0 a := by
  unfold grad
  rw [Matrix.smul_mul]
  simp only [Matrix.smul_apply, smul_eq_mul, ← mul_assoc, mul_inv_cancel₀ h, one_mul, Matrix.adjugate_fin_two]
  simp only [Matrix.mul_apply, Fin.sum_univ_two]
  simp
  constructor <;> ring

/-- C96.  Under a uniform strain the forces on the corners of a bilinear quadrilateral are half the forces of
the uniform stress on the two sides that meet there, whatever the shape of the quadrilateral. -/
theorem C96_quad4_forces {X : Matrix (Fin 4) (Fin 2) K} {E nu : K} {rest : List K} {k m}
    (h : Returns elastQuad4 X (E :: nu :: rest) k m) (c : Fin 2 → K) (G : Matrix (Fin 2) (Fin 2) K)
    {C : Matrix (Fin 3) (Fin 3) K} (hC : umat [E, nu] = .ok C) (a : Fin 4) (i : Fin 2) :
    k.mulVec (sample X (affine c G)) (a, i) =
      (sideForce (C.mulVec (strainOf G)) (X (a - 1)) (X a) i +
        sideForce (C.mulVec (strainOf G)) (X a) (X (a + 1)) i) / 2 := by
  have hacc : Acc (ruleQuad shapeQuad4 pts1d2 wts1d2) X := by
    obtain ⟨hg, st, hr⟩ := returns_plane (K := K) .quad4
    obtain ⟨_, _, _, ha, _⟩ := (hr _ _ _ _).1 h
    exact ha
  have hB := (C42_plane_patch .quad4 h c G hC).1 (fun sh => bMat2 (grad sh.2 X)) (fun x hx =>
    ⟨_, diff2d_ok.2 ⟨hacc x hx, rfl⟩⟩)
  rw [hB]
  change _ = (sideForce (C.mulVec ![G 0 0, G 1 1, G 0 1 + G 1 0]) (X (a - 1)) (X a) i +
        sideForce (C.mulVec ![G 0 0, G 1 1, G 0 1 + G 1 0]) (X a) (X (a + 1)) i) / 2
  generalize C.mulVec ![G 0 0, G 1 1, G 0 1 + G 1 0] = s
  obtain ⟨g, h1⟩ : ∃ g : ℚ, pts1d2 = [-g, g] := ⟨_, rfl⟩
  have h2 : wts1d2 = [1, 1] := by decide +kernel
  have pt : ∀ r t : K, 1e-8 < ((shapeQuad4 r t).2 * X).det →
      ((shapeQuad4 r t).2 * X).det * ((bMat2 (grad (shapeQuad4 r t).2 X)).transpose.mulVec s) (a, i) =
      if i = 0 then
        s 0 * ((∑ b, (shapeQuad4 r t).2 1 b * X b 1) * (shapeQuad4 r t).2 0 a -
          (∑ b, (shapeQuad4 r t).2 0 b * X b 1) * (shapeQuad4 r t).2 1 a) +
        s 2 * ((∑ b, (shapeQuad4 r t).2 0 b * X b 0) * (shapeQuad4 r t).2 1 a -
          (∑ b, (shapeQuad4 r t).2 1 b * X b 0) * (shapeQuad4 r t).2 0 a)
      else
        s 1 * ((∑ b, (shapeQuad4 r t).2 0 b * X b 0) * (shapeQuad4 r t).2 1 a -
          (∑ b, (shapeQuad4 r t).2 1 b * X b 0) * (shapeQuad4 r t).2 0 a) +
        s 2 * ((∑ b, (shapeQuad4 r t).2 1 b * X b 1) * (shapeQuad4 r t).2 0 a -
          (∑ b, (shapeQuad4 r t).2 0 b * X b 1) * (shapeQuad4 r t).2 1 a) := by
    intro r t hd
    obtain ⟨e0, e1⟩ := jdet_grad (tol_pos.trans hd).ne' a
    rw [← e0, ← e1]
    fin_cases i <;> simp [Matrix.mulVec, dotProduct, bMat2, Fin.sum_univ_three] <;> ring
  have hpts : ∀ r t : K, (r = g ∨ r = -g) → (t = g ∨ t = -g) → 1e-8 < ((shapeQuad4 r t).2 * X).det := by
    intro r t hr ht
    have := hacc
    unfold Acc ruleQuad at this
    rw [h1, h2] at this
    simp only [prodRepeat, at2] at this
    simp [jdet] at this
    rcases hr with rfl | rfl <;> rcases ht with rfl | rfl
    all_goals tauto
  unfold ruleQuad
  rw [h1, h2]
  simp only [prodRepeat, at2]
  simp [jdet]
  rw [pt _ _ (hpts _ _ (.inr rfl) (.inr rfl)), pt _ _ (hpts _ _ (.inl rfl) (.inr rfl)),
    pt _ _ (hpts _ _ (.inr rfl) (.inl rfl)), pt _ _ (hpts _ _ (.inl rfl) (.inl rfl))]
  simp only [(quad4_der _ _ _).1, (quad4_der _ _ _).2]
  have m1 : (-1 : Fin 4) = 3 := rfl
  have m2 : (3 + 1 : Fin 4) = 0 := rfl
  have m3 : (2 + 1 : Fin 4) = 3 := rfl
  have m4 : (1 + 1 : Fin 4) = 2 := rfl
  have m5 : (3 - 1 : Fin 4) = 2 := rfl
  have m6 : (2 - 1 : Fin 4) = 1 := rfl
  fin_cases a <;> fin_cases i <;> simp [shapeQuad4, lit_quarter, sideForce, m1, m2, m3, m4, m5, m6] <;> ring

/-- C96.  The same for the linear triangle, except that its rule has weights with sum `0.999999999999`. -/
theorem C96_tri3_forces {X : Matrix (Fin 3) (Fin 2) K} {E nu : K} {rest : List K} {k m}
    (h : Returns elastTri3 X (E :: nu :: rest) k m) (c : Fin 2 → K) (G : Matrix (Fin 2) (Fin 2) K)
    {C : Matrix (Fin 3) (Fin 3) K} (hC : umat [E, nu] = .ok C) (a : Fin 3) (i : Fin 2) :
    k.mulVec (sample X (affine c G)) (a, i) = 999999999999 / 1000000000000 *
      ((sideForce (C.mulVec (strainOf G)) (X (a - 1)) (X a) i +
        sideForce (C.mulVec (strainOf G)) (X a) (X (a + 1)) i) / 2) := by
  have hacc : Acc ruleTri3 X := by
    obtain ⟨hg, st, hr⟩ := returns_plane (K := K) .tri3
    obtain ⟨_, _, _, ha, _⟩ := (hr _ _ _ _).1 h
    exact ha
  have hB := (C42_plane_patch .tri3 h c G hC).1 (fun sh => bMat2 (grad sh.2 X)) (fun x hx =>
    ⟨_, diff2d_ok.2 ⟨hacc x hx, rfl⟩⟩)
  rw [hB]
  change _ = 999999999999 / 1000000000000 *
    ((sideForce (C.mulVec ![G 0 0, G 1 1, G 0 1 + G 1 0]) (X (a - 1)) (X a) i +
        sideForce (C.mulVec ![G 0 0, G 1 1, G 0 1 + G 1 0]) (X a) (X (a + 1)) i) / 2)
  generalize C.mulVec ![G 0 0, G 1 1, G 0 1 + G 1 0] = s
  have der : ∀ r t : K, (shapeTri3 r t).2 = !![-1, 1, 0; -1, 0, 1] := fun r t => rfl
  have pt : 1e-8 < ((!![-1, 1, 0; -1, 0, 1] : Matrix (Fin 2) (Fin 3) K) * X).det →
      ((!![-1, 1, 0; -1, 0, 1] : Matrix (Fin 2) (Fin 3) K) * X).det *
        ((bMat2 (grad !![-1, 1, 0; -1, 0, 1] X)).transpose.mulVec s) (a, i) =
      sideForce s (X (a - 1)) (X a) i + sideForce s (X a) (X (a + 1)) i := by
    intro hd
    obtain ⟨e0, e1⟩ := jdet_grad (tol_pos.trans hd).ne' a
    have m1 : (-1 : Fin 3) = 2 := rfl
    have m2 : (2 + 1 : Fin 3) = 0 := rfl
    have m3 : (1 + 1 : Fin 3) = 2 := rfl
    have m4 : (2 - 1 : Fin 3) = 1 := rfl
    fin_cases a <;> fin_cases i <;>
      simp [Matrix.mulVec, dotProduct, bMat2, Fin.sum_univ_three, sideForce, m1, m2, m3, m4, mul_add, ← mul_assoc]
        at e0 e1 ⊢ <;> rw [e0, e1] <;> ring
  have hd : 1e-8 < ((!![-1, 1, 0; -1, 0, 1] : Matrix (Fin 2) (Fin 3) K) * X).det := by
    have := hacc _ (List.mem_map.2 ⟨_, List.mem_cons_self, rfl⟩)
    exact this
  have key := pt hd
  simp only [ruleTri3, ptsTri2, wtsTri2, List.zip_cons_cons, List.zip_nil_right, List.map_cons, List.map_nil,
    jdet, der, List.sum_cons, List.sum_nil, Pi.add_apply, Pi.smul_apply, smul_eq_mul, Pi.zero_apply, mul_assoc, key]
  push_cast
  rw [lit_half]
  ring

/-- A mesh of elements of one linear kind and one material, under one stiffness factor (1, except that the
rule of the triangle has weights with sum `0.999999999999`). -/
structure UniformMesh (sq : K → K) (d : Gui.Data K) (ms : List (Member K)) (E nu κ : K) : Prop where
  nodes : ∀ r ∈ d.nodes, r.length = 3
  members : Members sq d ms
  kind : (κ = 1 ∧ ∀ el ∈ d.elements, el[1]? = some 1) ∨
    (κ = 999999999999 / 1000000000000 ∧ ∀ el ∈ d.elements, el[1]? = some 3)
  material : ∀ el ∈ d.elements, ∀ mi q params, el[2]? = some mi → Resolves d.mats.length mi q →
    d.mats[q]? = some params → ∃ rest, params = E :: nu :: rest

variable {sq : K → K} {sp de : Sol.Solver K} {d : Gui.Data K} {plot : Bool} {res : Gui.Result K}
  {ms : List (Member K)} {E nu κ : K}

theorem UniformMesh.member_force (h : UniformMesh sq d ms E nu κ) {C : Matrix (Fin 3) (Fin 3) K}
    (hC : umat [E, nu] = .ok C) (c : Fin 2 → K) (G : Matrix (Fin 2) (Fin 2) K) {u : ℕ → ℕ → K}
    (hu : ∀ p (j : Fin 2), u p j = affine c G (posOf d.nodes p) j) {m : Member K} (hm : m ∈ ms) (p : ℕ)
    (j : Fin 2) :
    (∑ a ∈ Finset.range m.nodes.length, if m.nodes[a]? = some p then m.force 2 u a j else 0) =
      ((m.nodes.zip (m.nodes.drop 1 ++ m.nodes.take 1)).map fun e =>
        κ / 2 * endForce d.nodes (C.mulVec (strainOf G)) p j e).sum := by
  obtain ⟨i, hi, rfl⟩ := List.mem_iff_getElem.1 hm
  have hi' : i < d.elements.length := by rw [h.members.length_eq]; exact hi
  have hmem := h.members.get (i := i) hi' hi
  simp only [List.get_eq_getElem] at hmem
  have hel : d.elements[i] ∈ d.elements := List.getElem_mem hi'
  generalize d.elements[i] = el at hmem hel
  generalize ms[i] = m at hmem hm ⊢
  have htypes : ∀ ty, el[1]? = some ty → ty = 1 ∨ ty = 3 := by
    intro ty hty
    rcases h.kind with ⟨_, h1⟩ | ⟨_, h1⟩
    · left
      rw [h1 el hel, Option.some.injEq] at hty
      exact hty.symm
    · right
      rw [h1 el hel, Option.some.injEq] at hty
      exact hty.symm
  obtain ⟨ty, mi, q, params, n, f, X, k, mm, a1, a2, a3, a4, a5, hf, hr, hpl⟩ :=
    member_placed hmem h.nodes (fun ty hty => by
      left
      rcases htypes ty hty with rfl | rfl <;> simp)
  obtain ⟨rest, rfl⟩ := h.material el hel mi q params a3 a4 a5
  have hsize : ∀ {n' : ℕ}, PlaneElement n' f → n = n' := by
    intro n' hf'
    obtain ⟨A, B, hAB, _⟩ := hr
    obtain ⟨X', _, _, hX, _⟩ := C38_plane_shape hf' hAB
    have := congrArg List.length hX
    simpa [matRows] using this
  have hpos : ∀ a : Fin n, posOf d.nodes (m.nodes.getD a 0) = X a := by
    intro a
    funext i
    unfold posOf coordOf fieldOf
    rw [hpl.coord a i]
    rfl
  have hforce : ∀ a : Fin n, m.force 2 u a j = k.mulVec (sample X (affine c G)) (a, j) := by
    intro a
    rw [hpl.force u (a, j), hpl.rigid_pick c G u (fun p j => hu p j)]
  have hlen := hpl.size
  rcases h.kind with ⟨rfl, h1⟩ | ⟨rfl, h1⟩
  · rw [h1 el hel, Option.some.injEq] at a1
    subst a1
    simp only [Uel.eleFun, Except.ok.injEq] at a2
    subst a2
    obtain rfl := hsize .quad4
    simp only [C96_quad4_forces hr c G hC, ← hpos] at hforce
    match h4 : m.nodes, hlen with
    | [p0, p1, p2, p3], _ =>
      rw [h4] at hforce
      have f0 := hforce 0
      have f1 := hforce 1
      have f2 := hforce 2
      have f3 := hforce 3
      have m1 : ((0 - 1 : Fin 4) : ℕ) = 3 := rfl
      have m2 : ((3 + 1 : Fin 4) : ℕ) = 0 := rfl
      have m3 : ((2 + 1 : Fin 4) : ℕ) = 3 := rfl
      have m4 : ((1 + 1 : Fin 4) : ℕ) = 2 := rfl
      have m5 : ((3 - 1 : Fin 4) : ℕ) = 2 := rfl
      have m6 : ((2 - 1 : Fin 4) : ℕ) = 1 := rfl
      have m7 : ((1 - 1 : Fin 4) : ℕ) = 0 := rfl
      have m8 : ((0 + 1 : Fin 4) : ℕ) = 1 := rfl
      have v0 : ((0 : Fin 4) : ℕ) = 0 := rfl
      have v1 : ((1 : Fin 4) : ℕ) = 1 := rfl
      have v2 : ((2 : Fin 4) : ℕ) = 2 := rfl
      have v3 : ((3 : Fin 4) : ℕ) = 3 := rfl
      simp only [m1, m2, m3, m4, m5, m6, m7, m8, v0, v1, v2, v3, List.getD_cons_zero, List.getD_cons_succ]
        at f0 f1 f2 f3
      simp [Finset.sum_range_succ, f0, f1, f2, f3, endForce]
      split_ifs <;> ring
  · rw [h1 el hel, Option.some.injEq] at a1
    subst a1
    simp only [Uel.eleFun, Except.ok.injEq] at a2
    subst a2
    obtain rfl := hsize .tri3
    simp only [C96_tri3_forces hr c G hC, ← hpos] at hforce
    match h4 : m.nodes, hlen with
    | [p0, p1, p2], _ =>
      rw [h4] at hforce
      have f0 := hforce 0
      have f1 := hforce 1
      have f2 := hforce 2
      have m1 : ((0 - 1 : Fin 3) : ℕ) = 2 := rfl
      have m2 : ((2 + 1 : Fin 3) : ℕ) = 0 := rfl
      have m4 : ((1 + 1 : Fin 3) : ℕ) = 2 := rfl
      have m6 : ((2 - 1 : Fin 3) : ℕ) = 1 := rfl
      have m7 : ((1 - 1 : Fin 3) : ℕ) = 0 := rfl
      have m8 : ((0 + 1 : Fin 3) : ℕ) = 1 := rfl
      have v0 : ((0 : Fin 3) : ℕ) = 0 := rfl
      have v1 : ((1 : Fin 3) : ℕ) = 1 := rfl
      have v2 : ((2 : Fin 3) : ℕ) = 2 := rfl
      simp only [m1, m2, m4, m6, m7, m8, v0, v1, v2, List.getD_cons_zero, List.getD_cons_succ] at f0 f1 f2
      simp [Finset.sum_range_succ, f0, f1, f2, endForce]
      split_ifs <;> ring

theorem endForce_swap (nodes : Table K) (s : Fin 3 → K) (p : ℕ) (j : Fin 2) (e : ℕ × ℕ) :
    endForce nodes s p j e + endForce nodes s p j e.swap = 0 := by
  have hs : ∀ x y : Fin 2 → K, sideForce s y x j = - sideForce s x y j := by
    intro x y
    fin_cases j <;> simp [sideForce] <;> ring
  unfold endForce
  simp only [Prod.fst_swap, Prod.snd_swap]
  rw [hs (posOf nodes e.1) (posOf nodes e.2)]
  split_ifs <;> ring

/-- Only the sides without a partner count. -/
theorem sum_outer {l : List (ℕ × ℕ)} (hl : l.Nodup) {f : ℕ × ℕ → K} (hf : ∀ e, f e + f e.swap = 0) :
    (l.map f).sum = ((l.filter fun e => e.swap ∉ l).map f).sum := by
  have h2 : (0 : K) < 2 := two_pos
  have hzero : ((l.filter fun e => e.swap ∈ l).map f).sum = 0 := by
    rw [← List.sum_toFinset _ (hl.filter _)]
    refine Finset.sum_involution (fun e _ => e.swap) (fun e _ => hf e) (fun e _ hne hsw => hne ?_)
      (fun e he => ?_) (fun e _ => Prod.swap_swap e)
    · have := hf e
      rw [hsw] at this
      linarith
    · simp only [List.mem_toFinset, List.mem_filter, decide_eq_true_eq] at he ⊢
      exact ⟨he.2, by rw [Prod.swap_swap]; exact he.1⟩
  have hsplit : ∀ (P : ℕ × ℕ → Bool) (l : List (ℕ × ℕ)),
      (l.map f).sum = ((l.filter P).map f).sum + ((l.filter fun e => !P e).map f).sum := by
    intro P l
    induction l with
    | nil => simp
    | cons e l ih =>
      rw [List.map_cons, List.sum_cons, ih]
      cases hP : P e <;> simp [hP] <;> ring
  rw [hsplit (fun e => decide (e.swap ∈ l)) l, hzero, zero_add]
  congr 3
  funext e
  simp

/-- C96.  The patch test.  In a mesh of linear elements of one kind and material in which no directed side
occurs twice, a displacement field of uniform strain gives internal forces at the boundary only: at each
node, half the force of the uniform stress on each of the outer sides that end there. -/
theorem C96_uniform_strain (h : UniformMesh sq d ms E nu κ) (hnd : (allSides ms).Nodup)
    {C : Matrix (Fin 3) (Fin 3) K} (hC : umat [E, nu] = .ok C) (c : Fin 2 → K) (G : Matrix (Fin 2) (Fin 2) K)
    {u : ℕ → ℕ → K} (hu : ∀ p (j : Fin 2), u p j = affine c G (posOf d.nodes p) j) (p : ℕ) (j : Fin 2) :
    internal 2 ms u p j =
      κ / 2 * ((outerSides ms).map (endForce d.nodes (C.mulVec (strainOf G)) p j)).sum := by
  have h1 : internal 2 ms u p j =
      ((allSides ms).map fun e => κ / 2 * endForce d.nodes (C.mulVec (strainOf G)) p j e).sum := by
    unfold internal allSides
    have : ∀ l : List (Member K), (∀ m ∈ l, m ∈ ms) →
        (l.map fun m => ∑ a ∈ Finset.range m.nodes.length,
          if m.nodes[a]? = some p then m.force 2 u a j else 0).sum =
        ((l.flatMap fun m => m.nodes.zip (m.nodes.drop 1 ++ m.nodes.take 1)).map fun e =>
          κ / 2 * endForce d.nodes (C.mulVec (strainOf G)) p j e).sum := by
      intro l hl
      induction l with
      | nil => rfl
      | cons m l ih =>
        rw [List.map_cons, List.sum_cons, List.flatMap_cons, List.map_append, List.sum_append,
          ih (fun m' hm' => hl m' (List.mem_cons_of_mem _ hm')),
          h.member_force hC c G hu (hl m List.mem_cons_self) p j]
    exact this ms fun _ h => h
  rw [h1, List.sum_map_mul_left, sum_outer hnd (endForce_swap _ _ _ _)]
  rfl

/-- C96.  A node on no outer side is in equilibrium under every uniform strain. -/
theorem C96_interior (h : UniformMesh sq d ms E nu κ) (hnd : (allSides ms).Nodup) (hnu : nu ^ 2 ≠ 1)
    (c : Fin 2 → K) (G : Matrix (Fin 2) (Fin 2) K) {u : ℕ → ℕ → K}
    (hu : ∀ p (j : Fin 2), u p j = affine c G (posOf d.nodes p) j) {p : ℕ}
    (hp : ∀ e ∈ outerSides ms, e.1 ≠ p ∧ e.2 ≠ p) (j : Fin 2) : internal 2 ms u p j = 0 := by
  obtain ⟨C, hC⟩ : ∃ C, umat [E, nu] = .ok C := by
    exact (C35_returns_iff _).2 ⟨E, nu, rfl, hnu⟩
  rw [C96_uniform_strain h hnd hC c G hu p j]
  rw [List.sum_eq_zero, mul_zero]
  intro x hx
  obtain ⟨e, he, rfl⟩ := List.mem_map.1 hx
  unfold endForce
  rw [if_neg (hp e he).1, if_neg (hp e he).2, add_zero]

end

/-! ## Cases -/

section demo

/-- A square cut into four triangles meeting at an inner point. -/
def fanTris : Gui.Data ℚ where
  nodes := [[0, 0, 0], [1, 2, 0], [2, 2, 2], [3, 0, 2], [4, 1 / 2, 3 / 4]]
  cons := [[-1, -1], [0, 0], [0, 0], [0, 0], [0, 0]]
  elements := [[0, 3, 0, 0, 1, 4], [1, 3, 0, 1, 2, 4], [2, 3, 0, 2, 3, 4], [3, 3, 0, 3, 0, 4]]
  mats := [[10, 1 / 4]]
  loads := []

theorem fan_member (el : List ℤ) (hel : el ∈ fanTris.elements) : ∃ m,
    IsMember (Routine id) fanTris.mats fanTris.nodes el m ∧ m.nodes = (el.drop 3).map Int.toNat := by
  obtain ⟨C, hC⟩ := (C35_returns_iff [(10 : ℚ), 1 / 4]).2 ⟨10, 1 / 4, rfl, by norm_num⟩
  have key : ∀ X : Matrix (Fin 3) (Fin 2) ℚ, Acc ruleTri3 X → ∃ A B, elastTri3 (matRows X) [10, 1 / 4] = .ok (A, B) := by
    intro X hX
    obtain ⟨A, B, h, _⟩ := (returns_plane_lax .tri3 (by decide) X _ _ _).2
      ⟨C, _, mat2_cons.2 ⟨by simp, hC, rfl⟩, hX, rfl, rfl⟩
    exact ⟨A, B, h⟩
  simp only [fanTris, List.mem_cons, List.not_mem_nil, or_false] at hel
  rcases hel with rfl | rfl | rfl | rfl
  · obtain ⟨A, B, h⟩ := key !![0, 0; 2, 0; 1 / 2, 3 / 4] (by unfold Acc; decide +kernel)
    exact ⟨⟨[0, 1, 4], cell A⟩, ⟨3, 0, _, _, elastTri3, A, B, rfl, rfl, ⟨0, by decide, rfl⟩,
      .cons (by decide) (.cons (by decide) (.cons (by decide) .nil)), .cons rfl (.cons rfl (.cons rfl .nil)), rfl,
      h, rfl⟩, rfl⟩
  · obtain ⟨A, B, h⟩ := key !![2, 0; 2, 2; 1 / 2, 3 / 4] (by unfold Acc; decide +kernel)
    exact ⟨⟨[1, 2, 4], cell A⟩, ⟨3, 0, _, _, elastTri3, A, B, rfl, rfl, ⟨0, by decide, rfl⟩,
      .cons (by decide) (.cons (by decide) (.cons (by decide) .nil)), .cons rfl (.cons rfl (.cons rfl .nil)), rfl,
      h, rfl⟩, rfl⟩
  · obtain ⟨A, B, h⟩ := key !![2, 2; 0, 2; 1 / 2, 3 / 4] (by unfold Acc; decide +kernel)
    exact ⟨⟨[2, 3, 4], cell A⟩, ⟨3, 0, _, _, elastTri3, A, B, rfl, rfl, ⟨0, by decide, rfl⟩,
      .cons (by decide) (.cons (by decide) (.cons (by decide) .nil)), .cons rfl (.cons rfl (.cons rfl .nil)), rfl,
      h, rfl⟩, rfl⟩
  · obtain ⟨A, B, h⟩ := key !![0, 2; 0, 0; 1 / 2, 3 / 4] (by unfold Acc; decide +kernel)
    exact ⟨⟨[3, 0, 4], cell A⟩, ⟨3, 0, _, _, elastTri3, A, B, rfl, rfl, ⟨0, by decide, rfl⟩,
      .cons (by decide) (.cons (by decide) (.cons (by decide) .nil)), .cons rfl (.cons rfl (.cons rfl .nil)), rfl,
      h, rfl⟩, rfl⟩

/-- Case for C96: the inner node of the fan is in equilibrium under uniform shear. -/
example : ∃ ms, Members id fanTris ms ∧ ∀ u : ℕ → ℕ → ℚ,
    (∀ p (j : Fin 2), u p j = affine 0 !![0, 1; 0, 0] (posOf fanTris.nodes p) j) →
    ∀ j : Fin 2, internal 2 ms u 4 j = 0 := by
  obtain ⟨m0, h0, n0⟩ := fan_member _ (List.mem_of_getElem? (i := 0) rfl)
  obtain ⟨m1, h1, n1⟩ := fan_member _ (List.mem_of_getElem? (i := 1) rfl)
  obtain ⟨m2, h2, n2⟩ := fan_member _ (List.mem_of_getElem? (i := 2) rfl)
  obtain ⟨m3, h3, n3⟩ := fan_member _ (List.mem_of_getElem? (i := 3) rfl)
  have hms : Members id fanTris [m0, m1, m2, m3] := .cons h0 (.cons h1 (.cons h2 (.cons h3 .nil)))
  have hsides : allSides [m0, m1, m2, m3] = [(0, 1), (1, 4), (4, 0), (1, 2), (2, 4), (4, 1), (2, 3), (3, 4), (4, 2),
      (3, 0), (0, 4), (4, 3)] := by
    unfold allSides
    simp only [List.flatMap_cons, List.flatMap_nil, n0, n1, n2, n3]
    rfl
  refine ⟨_, hms, fun u hu j => C96_interior (E := 10) (nu := 1 / 4) (κ := 999999999999 / 1000000000000)
    ⟨by decide, hms, .inr ⟨rfl, by decide⟩, ?_⟩ (by rw [hsides]; decide) (by norm_num) _ _ hu ?_ j⟩
  · intro el hel mi q params _ _ hp
    have := List.mem_of_getElem? hp
    simp only [fanTris, List.mem_singleton] at this
    exact ⟨[], this⟩
  · unfold outerSides
    rw [hsides]
    decide

end demo

end SolidsPy
