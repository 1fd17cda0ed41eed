import Verif.Props.Compare
import Verif.Props.FrameModes
import Verif.Props.UserVibration
import Verif.Props.Refinement

/-! # C176: the highest frequency of a model is bounded by its elements -/

set_option linter.unusedSectionVars false

namespace SolidsPy
open Spec Assem Matrix Uel Fem

section
variable {K : Type} [Field K] [LinearOrder K] [IsStrictOrderedRing K] [FloorRing K] {sq : K → K}

/-- Sum of the squared sides of a triangle. -/
def Spec.sidesSq (X : Matrix (Fin 3) (Fin 2) K) : K :=
  (X 2 0 - X 1 0) ^ 2 + (X 2 1 - X 1 1) ^ 2 + ((X 0 0 - X 2 0) ^ 2 + (X 0 1 - X 2 1) ^ 2) + ((X 1 0 - X 0 0) ^ 2 + (X 1 1 - X 0 1) ^ 2)

/-- C176.  A bar: the energy of its spring is at most `t` times that of its mass, for every motion of its ends, exactly when
`12 E ≤ t ρ L²`. -/
theorem C176_bar (hs : SqrtFn sq) {X : Matrix (Fin 2) (Fin 2) K} {L : K} (hL : IsLength X L) {E A : K} {rest : List K} {k m}
    (h : Returns (truss2D sq) X (E :: A :: rest) k m) (hE : 0 ≤ E) (hA : 0 < A) (t : K) :
    (0 ≤ t * density rest ∧ ∀ u, u ⬝ᵥ k.mulVec u ≤ t * (u ⬝ᵥ m.mulVec u)) ↔ 12 * E ≤ t * density rest * L ^ 2 := by
  have e1 := fun u => C51_energy hs hL h u
  have e2 : ∀ u : Fin 2 × Fin 2 → K, u ⬝ᵥ m.mulVec u = A * L * density rest / 3 *
      (u (0, 0) ^ 2 + u (0, 0) * u (1, 0) + u (1, 0) ^ 2 + (u (0, 1) ^ 2 + u (0, 1) * u (1, 1) + u (1, 1) ^ 2)) := by
    intro u
    obtain ⟨rfl, rfl⟩ := (truss_returns hs hL).1 h
    rw [barM_form]
    simp only [Fin.sum_univ_two]
    ring
  obtain ⟨h0, hLL⟩ := hL
  generalize hc : X 1 0 - X 0 0 = c at *
  generalize hd : X 1 1 - X 0 1 = d at *
  have e3 : ∀ u, elongation X L u ^ 2 * (L * L) = (c * (u (1, 0) - u (0, 0)) + d * (u (1, 1) - u (0, 1))) ^ 2 := by
    intro u
    unfold elongation
    rw [hc, hd, div_pow, div_mul_eq_mul_div, div_eq_iff (by positivity)]
    ring
  constructor
  · rintro ⟨-, H⟩
    have := H fun q => if q.1 = 1 then ![c, d] q.2 else - ![c, d] q.2
    rw [e1, e2] at this
    have e4 := e3 fun q => if q.1 = 1 then ![c, d] q.2 else - ![c, d] q.2
    simp at this e4
    have e5 : elongation X L (fun q => if q.1 = 1 then ![c, d] q.2 else - ![c, d] q.2) ^ 2 = 4 * (L * L) := by
      refine mul_right_cancel₀ (mul_ne_zero h0.ne' h0.ne') ?_
      rw [e4]
      linear_combination (-4 * (L * L) - 4 * (c ^ 2 + d ^ 2)) * hLL
    rw [e5, div_mul_eq_mul_div, div_le_iff₀ h0] at this
    have e6 : c ^ 2 + d ^ 2 = L * L := hLL.symm
    have key : 0 ≤ (A * (L * L) / 3) * (t * density rest * L ^ 2 - 12 * E) := by
      have : E * A * (4 * (L * L)) ≤ t * (A * L * density rest / 3 * (c ^ 2 + d ^ 2)) * L := by
        refine this.trans (le_of_eq ?_)
        ring
      rw [e6] at this
      linarith
    have := nonneg_of_mul_nonneg_right key (by positivity)
    linarith
  · intro H
    have ht : 0 ≤ t * density rest := by
      by_contra hn
      push Not at hn
      have : t * density rest * L ^ 2 < 0 := mul_neg_of_neg_of_pos hn (by positivity)
      linarith
    refine ⟨ht, fun u => ?_⟩
    rw [e1, e2]
    have e4 : elongation X L u ^ 2 ≤ 4 *
        (u (0, 0) ^ 2 + u (0, 0) * u (1, 0) + u (1, 0) ^ 2 + (u (0, 1) ^ 2 + u (0, 1) * u (1, 1) + u (1, 1) ^ 2)) := by
      have h1 : elongation X L u ^ 2 ≤ (u (1, 0) - u (0, 0)) ^ 2 + (u (1, 1) - u (0, 1)) ^ 2 := by
        refine le_of_mul_le_mul_right ?_ (mul_pos h0 h0)
        rw [e3]
        have := sq_nonneg (c * (u (1, 1) - u (0, 1)) - d * (u (1, 0) - u (0, 0)))
        have e : ((u (1, 0) - u (0, 0)) ^ 2 + (u (1, 1) - u (0, 1)) ^ 2) * (L * L) =
          ((u (1, 0) - u (0, 0)) ^ 2 + (u (1, 1) - u (0, 1)) ^ 2) * (c ^ 2 + d ^ 2) := by rw [hLL]
        rw [e]
        linarith
      have := sq_nonneg (u (1, 0) + u (0, 0))
      have := sq_nonneg (u (1, 1) + u (0, 1))
      linarith
    have e5 : 0 ≤ u (0, 0) ^ 2 + u (0, 0) * u (1, 0) + u (1, 0) ^ 2 + (u (0, 1) ^ 2 + u (0, 1) * u (1, 1) + u (1, 1) ^ 2) := by
      have := sq_nonneg (elongation X L u)
      linarith
    generalize u (0, 0) ^ 2 + u (0, 0) * u (1, 0) + u (1, 0) ^ 2 + (u (0, 1) ^ 2 + u (0, 1) * u (1, 1) + u (1, 1) ^ 2) = S at *
    calc E * A / L * elongation X L u ^ 2 ≤ E * A / L * (4 * S) := mul_le_mul_of_nonneg_left e4 (by positivity)
      _ = 12 * E * (A / (3 * L) * S) := by
        field_simp
        ring
      _ ≤ t * density rest * L ^ 2 * (A / (3 * L) * S) := mul_le_mul_of_nonneg_right H (by positivity)
      _ = t * (A * L * density rest / 3 * S) := by
        field_simp

/-- The mass of the rule of `elast_tri3`, one component. -/
theorem tri3_spread (x y z : K) : (x ^ 2 + y ^ 2 + z ^ 2) / 24.002 ≤
    (ruleTri3.map fun g : Shape K 2 3 × K => g.2 * (g.1.1 0 * x + g.1.1 1 * y + g.1.1 2 * z) ^ 2).sum := by
  simp only [ruleTri3, Gauss.ptsTri2, Gauss.wtsTri2, List.zip_cons_cons, List.zip_nil_right, List.map_cons, List.map_nil, List.sum_cons, List.sum_nil,
    shapeTri3]
  simp only [Matrix.cons_val_zero, Matrix.cons_val_one, Matrix.cons_val]
  push_cast
  norm_num
  nlinarith [sq_nonneg (x + y + z), sq_nonneg (x - y), sq_nonneg (y - z), sq_nonneg (x - z), sq_nonneg (x + y), sq_nonneg (y + z), sq_nonneg (x + z),
    sq_nonneg x, sq_nonneg y, sq_nonneg z]

theorem hMat2_three (N : Fin 3 → K) (u : Fin 3 × Fin 2 → K) : (hMat2 N).mulVec u ⬝ᵥ (hMat2 N).mulVec u =
    (N 0 * u (0, 0) + N 1 * u (1, 0) + N 2 * u (2, 0)) ^ 2 + (N 0 * u (0, 1) + N 1 * u (1, 1) + N 2 * u (2, 1)) ^ 2 := by
  simp only [hMat2, Matrix.mulVec, dotProduct, Fin.sum_univ_two, Fin.sum_univ_three, Fintype.sum_prod_type, Matrix.of_apply]
  simp
  ring

/-- C176.  A triangle of `elast_tri3` with sides of total square `s`, twice the area `a`, modulus `E`, Poisson ratio `nu` and density
`ρ`: the energy of its spring is at most `t` times that of its mass if `12.001 E s ≤ t ρ (1 - |nu|) a²`. -/
theorem C176_triangle {X : Matrix (Fin 3) (Fin 2) K} {E nu : K} {rest : List K} {k m}
    (h : Returns elastTri3 X (E :: nu :: rest) k m) (hE : 0 ≤ E) (hnu : |nu| < 1) {t : K} (ht : 0 ≤ t * density rest)
    (H : 12.001 * E * sidesSq X ≤ t * density rest * (1 - |nu|) * area2 X ^ 2) (u) : u ⬝ᵥ k.mulVec u ≤ t * (u ⬝ᵥ m.mulVec u) := by
  have ha := ((C48_accepts_iff X E nu rest).1 ⟨k, m, h⟩).2
  have ha0 : 0 < area2 X := lt_trans (by norm_num) ha
  obtain ⟨C, ρ, hm, hacc, rfl, rfl⟩ := (returns_plane_lax (K := K) .tri3 (by norm_num) _ _ _ _).1 h
  obtain ⟨_, h4, rfl⟩ := mat2_cons.1 hm
  obtain ⟨E', nu', hp, h1n, rfl⟩ := umat_ok.1 h4
  simp only [List.cons.injEq, and_true] at hp
  obtain ⟨rfl, rfl⟩ := hp
  obtain ⟨n1, n2⟩ := abs_lt.1 hnu
  -- the strains
  let g : Fin 3 → Fin 2 → K := ![![X 1 1 - X 2 1, X 2 0 - X 1 0], ![X 2 1 - X 0 1, X 0 0 - X 2 0], ![X 0 1 - X 1 1, X 1 0 - X 0 0]]
  let gr : Fin 2 → Fin 2 → K := fun i j => g 0 j * u (0, i) + g 1 j * u (1, i) + g 2 j * u (2, i)
  have hB : ((cstB X).submatrix id dof6).mulVec u = (area2 X)⁻¹ • ![gr 0 0, gr 1 1, gr 0 1 + gr 1 0] := by
    funext i
    simp only [Matrix.mulVec, dotProduct, Fintype.sum_prod_type, Fin.sum_univ_two, Fin.sum_univ_three, Matrix.submatrix_apply, cstB, Matrix.smul_apply, id]
    fin_cases i <;> simp [dof6, gr, g] <;> ring
  -- the two energies
  have hS : u ⬝ᵥ (stiff2 ruleTri3 X !![E / (1 - nu ^ 2), nu * (E / (1 - nu ^ 2)), 0; nu * (E / (1 - nu ^ 2)), E / (1 - nu ^ 2), 0;
      0, 0, E / (1 - nu ^ 2) * ((1 - nu) / 2)]).mulVec u = 999999999999 / 1000000000000 / 2 / area2 X * (E / (1 - nu ^ 2)) *
        (gr 0 0 ^ 2 + gr 1 1 ^ 2 + 2 * nu * (gr 0 0 * gr 1 1) + (1 - nu) / 2 * (gr 0 1 + gr 1 0) ^ 2) := by
    rw [stiff2, stiff_form]
    have hterm : ∀ x ∈ ruleTri3 (K := K), ∀ M : Matrix (Fin 3) (Fin 3) K, (x.2 * jdet x.1 X) *
        ((bMat2 (grad x.1.2 X)).mulVec u ⬝ᵥ M.mulVec ((bMat2 (grad x.1.2 X)).mulVec u)) = (x.2 * area2 X) *
        (((area2 X)⁻¹ • ![gr 0 0, gr 1 1, gr 0 1 + gr 1 0]) ⬝ᵥ M.mulVec ((area2 X)⁻¹ • ![gr 0 0, gr 1 1, gr 0 1 + gr 1 0])) := by
      intro x hx M
      obtain ⟨y, _, rfl⟩ := List.mem_map.1 hx
      rw [tri3_bMat, hB, tri3_jdet]
    rw [List.map_congr_left fun x hx => hterm x hx _]
    generalize gr 0 0 = p
    generalize gr 1 1 = q
    generalize gr 0 1 + gr 1 0 = r
    generalize E / (1 - nu ^ 2) = D
    have e : ((area2 X)⁻¹ • ![p, q, r]) ⬝ᵥ (!![D, nu * D, 0; nu * D, D, 0; 0, 0, D * ((1 - nu) / 2)] : Matrix (Fin 3) (Fin 3) K).mulVec
        ((area2 X)⁻¹ • ![p, q, r]) = (area2 X)⁻¹ ^ 2 * (D * (p ^ 2 + q ^ 2 + 2 * nu * (p * q) + (1 - nu) / 2 * r ^ 2)) := by
      simp [Matrix.mulVec, dotProduct, Fin.sum_univ_three]
      ring
    rw [e, List.sum_map_mul_right]
    have e2 : (ruleTri3.map fun x : Shape K 2 3 × K => x.2 * area2 X).sum = 999999999999 / 1000000000000 / 2 * area2 X := by
      rw [List.sum_map_mul_right]
      congr 1
      simp only [ruleTri3, Gauss.ptsTri2, Gauss.wtsTri2, List.zip_cons_cons, List.zip_nil_right, List.map_cons, List.map_nil, List.sum_cons, List.sum_nil]
      norm_num
    rw [e2]
    field_simp
  have hM : u ⬝ᵥ (mass2 ruleTri3 X (density rest)).mulVec u = density rest * area2 X *
      ((ruleTri3.map fun g : Shape K 2 3 × K => g.2 * (g.1.1 0 * u (0, 0) + g.1.1 1 * u (1, 0) + g.1.1 2 * u (2, 0)) ^ 2).sum +
       (ruleTri3.map fun g : Shape K 2 3 × K => g.2 * (g.1.1 0 * u (0, 1) + g.1.1 1 * u (1, 1) + g.1.1 2 * u (2, 1)) ^ 2).sum) := by
    rw [mass2, mass_form, ← List.sum_map_add, ← List.sum_map_mul_left]
    refine congrArg List.sum (List.map_congr_left fun x hx => ?_)
    obtain ⟨y, _, rfl⟩ := List.mem_map.1 hx
    rw [tri3_jdet, hMat2_three]
    ring
  have l1 := tri3_spread (u (0, 0)) (u (1, 0)) (u (2, 0))
  have l2 := tri3_spread (u (0, 1)) (u (1, 1)) (u (2, 1))
  rw [hS, hM]
  generalize (ruleTri3.map fun g : Shape K 2 3 × K => g.2 * (g.1.1 0 * u (0, 0) + g.1.1 1 * u (1, 0) + g.1.1 2 * u (2, 0)) ^ 2).sum = q1 at *
  generalize (ruleTri3.map fun g : Shape K 2 3 × K => g.2 * (g.1.1 0 * u (0, 1) + g.1.1 1 * u (1, 1) + g.1.1 2 * u (2, 1)) ^ 2).sum = q2 at *
  -- Cauchy and Schwarz
  have cs : ∀ a b c x y z : K, (a * x + b * y + c * z) ^ 2 ≤ (a ^ 2 + b ^ 2 + c ^ 2) * (x ^ 2 + y ^ 2 + z ^ 2) := by
    intro a b c x y z
    have := sq_nonneg (a * y - b * x)
    have := sq_nonneg (b * z - c * y)
    have := sq_nonneg (a * z - c * x)
    linarith
  have hsum : gr 0 0 ^ 2 + gr 1 1 ^ 2 + gr 0 1 ^ 2 + gr 1 0 ^ 2 ≤ sidesSq X *
      (u (0, 0) ^ 2 + u (1, 0) ^ 2 + u (2, 0) ^ 2 + (u (0, 1) ^ 2 + u (1, 1) ^ 2 + u (2, 1) ^ 2)) := by
    have c1 := cs (g 0 0) (g 1 0) (g 2 0) (u (0, 0)) (u (1, 0)) (u (2, 0))
    have c2 := cs (g 0 1) (g 1 1) (g 2 1) (u (0, 1)) (u (1, 1)) (u (2, 1))
    have c3 := cs (g 0 1) (g 1 1) (g 2 1) (u (0, 0)) (u (1, 0)) (u (2, 0))
    have c4 := cs (g 0 0) (g 1 0) (g 2 0) (u (0, 1)) (u (1, 1)) (u (2, 1))
    have e : sidesSq X = g 0 0 ^ 2 + g 1 0 ^ 2 + g 2 0 ^ 2 + (g 0 1 ^ 2 + g 1 1 ^ 2 + g 2 1 ^ 2) := by
      simp [sidesSq, g]
      ring
    rw [e]
    refine (add_le_add (add_le_add (add_le_add c1 c2) c3) c4).trans (le_of_eq ?_)
    ring
  generalize gr 0 0 = p at *
  generalize gr 1 1 = q at *
  generalize gr 0 1 = r at *
  generalize gr 1 0 = r' at *
  have hU1 : 0 ≤ u (0, 0) ^ 2 + u (1, 0) ^ 2 + u (2, 0) ^ 2 := by positivity
  have hU2 : 0 ≤ u (0, 1) ^ 2 + u (1, 1) ^ 2 + u (2, 1) ^ 2 := by positivity
  generalize u (0, 0) ^ 2 + u (1, 0) ^ 2 + u (2, 0) ^ 2 = U1 at *
  generalize u (0, 1) ^ 2 + u (1, 1) ^ 2 + u (2, 1) ^ 2 = U2 at *
  have hκ : E / (1 - nu ^ 2) * (p ^ 2 + q ^ 2 + 2 * nu * (p * q) + (1 - nu) / 2 * (r + r') ^ 2) ≤
      E / (1 - |nu|) * (p ^ 2 + q ^ 2 + r ^ 2 + r' ^ 2) := by
    have hn : 0 < 1 - |nu| := by linarith
    have hq : 0 < 1 - nu ^ 2 := by
      rw [show 1 - nu ^ 2 = (1 - nu) * (1 + nu) by ring]
      exact mul_pos (by linarith) (by linarith)
    have hqn : 1 - nu ^ 2 = (1 - |nu|) * (1 + |nu|) := by rw [← sq_abs]; ring
    have key : p ^ 2 + q ^ 2 + 2 * nu * (p * q) + (1 - nu) / 2 * (r + r') ^ 2 ≤ (1 + |nu|) * (p ^ 2 + q ^ 2 + r ^ 2 + r' ^ 2) := by
      have f1 : 2 * nu * (p * q) ≤ |nu| * (p ^ 2 + q ^ 2) := by
        rcases abs_cases nu with ⟨e, h0⟩ | ⟨e, h0⟩ <;> rw [e]
        · have := mul_nonneg h0 (sq_nonneg (p - q))
          linarith
        · have := mul_nonneg (neg_nonneg.2 h0.le) (sq_nonneg (p + q))
          linarith
      have f2 : (1 - nu) / 2 * (r + r') ^ 2 ≤ (1 + |nu|) * (r ^ 2 + r' ^ 2) := by
        have g1 : (r + r') ^ 2 ≤ 2 * (r ^ 2 + r' ^ 2) := by
          have := sq_nonneg (r - r')
          linarith
        have g2 : (1 - nu) / 2 ≤ (1 + |nu|) / 2 := by
          have := neg_abs_le nu
          linarith
        calc (1 - nu) / 2 * (r + r') ^ 2 ≤ (1 + |nu|) / 2 * (2 * (r ^ 2 + r' ^ 2)) :=
              mul_le_mul g2 g1 (sq_nonneg _) (by positivity)
          _ = _ := by ring
      linarith
    rw [div_mul_eq_mul_div E, div_mul_eq_mul_div E (1 - |nu|), div_le_div_iff₀ hq hn, hqn]
    have := mul_le_mul_of_nonneg_left key (mul_nonneg hE hn.le)
    linarith
  have hn : 0 < 1 - |nu| := by linarith
  have hκ2 := hκ.trans (mul_le_mul_of_nonneg_left hsum (div_nonneg hE hn.le))
  have hs0 : 0 ≤ sidesSq X := by
    unfold sidesSq
    positivity
  have hR : 0 ≤ E / (1 - |nu|) * (sidesSq X * (U1 + U2)) := by positivity
  calc 999999999999 / 1000000000000 / 2 / area2 X * (E / (1 - nu ^ 2)) * (p ^ 2 + q ^ 2 + 2 * nu * (p * q) + (1 - nu) / 2 * (r + r') ^ 2)
      = 999999999999 / 1000000000000 * (1 / (2 * area2 X)) *
        (E / (1 - nu ^ 2) * (p ^ 2 + q ^ 2 + 2 * nu * (p * q) + (1 - nu) / 2 * (r + r') ^ 2)) := by
        field_simp
    _ ≤ 999999999999 / 1000000000000 * (1 / (2 * area2 X)) * (E / (1 - |nu|) * (sidesSq X * (U1 + U2))) :=
        mul_le_mul_of_nonneg_left hκ2 (by positivity)
    _ ≤ 1 * (1 / (2 * area2 X)) * (E / (1 - |nu|) * (sidesSq X * (U1 + U2))) := by
        refine mul_le_mul_of_nonneg_right (mul_le_mul_of_nonneg_right (by norm_num) (by positivity)) hR
    _ = 12.001 * E * sidesSq X * ((U1 + U2) / (24.002 * (area2 X * (1 - |nu|)))) := by
        rw [show (24.002 : K) = 2 * 12.001 by norm_num]
        have h12 : (12.001 : K) ≠ 0 := by norm_num
        generalize (12.001 : K) = c at *
        field_simp
    _ ≤ t * density rest * (1 - |nu|) * area2 X ^ 2 * ((U1 + U2) / (24.002 * (area2 X * (1 - |nu|)))) :=
        mul_le_mul_of_nonneg_right H (by positivity)
    _ = t * density rest * area2 X * (U1 / 24.002 + U2 / 24.002) := by
        field_simp
    _ ≤ t * density rest * area2 X * (q1 + q2) := mul_le_mul_of_nonneg_left (add_le_add l1 l2) (by positivity)
    _ = _ := by ring

/-- The nodes listed in the row of an element and their coordinates. -/
def Spec.CornersAt (nodes : Table K) (el : List ℤ) {n : ℕ} (X : Matrix (Fin n) (Fin 2) K) : Prop :=
  ∃ ns : List ℕ, List.Forall₂ (Resolves nodes.length) (el.drop 3) ns ∧ ns.length = n ∧
    ∀ (a : Fin n) (i : Fin 2), entry nodes (ns.getD a 0) (i + 1) = some (X a i)

/-- The row is a bar with `12 E ≤ t ρ L²`, or a triangle of three nodes with `12.001 E s ≤ t ρ (1 - |nu|) a²`, `s` the sum of the
squared sides and `a` twice the area. -/
def Spec.Below (d : Gui.Data K) (t : K) (el : List ℤ) : Prop :=
  ∃ mi, ∃ q : ℕ, ∃ E b rest, el[2]? = some mi ∧ Resolves d.mats.length mi q ∧ d.mats[q]? = some (E :: b :: rest) ∧ 0 ≤ E ∧ 0 ≤ density rest ∧
    ((el[1]? = some 6 ∧ 0 < b ∧ ∃ X L, CornersAt (n := 2) d.nodes el X ∧ IsLength X L ∧ 12 * E ≤ t * density rest * L ^ 2) ∨
     (el[1]? = some 3 ∧ |b| < 1 ∧ ∃ X, CornersAt (n := 3) d.nodes el X ∧
        12.001 * E * sidesSq X ≤ t * density rest * (1 - |b|) * area2 X ^ 2))

/-- One element of a plane model. -/
theorem below_form (hs : SqrtFn sq) {d : Gui.Data K} {t : K} (ht : 0 ≤ t) (hp : PlaneModel d) {el : List ℤ} (hel : el ∈ d.elements) (hb : Below d t el)
    {m μ : Member K} (h : IsMember (Routine sq) d.mats d.nodes el m) (hμ : IsMember (MassRoutine sq) d.mats d.nodes el μ) (u : ℕ → ℕ → K) :
    m.form 2 u u ≤ t * μ.form 2 u u := by
  have hns : List.Forall₂ (Resolves d.nodes.length) (el.drop 3) m.nodes := by
    obtain ⟨_, _, _, _, _, _, _, -, -, -, a5, -⟩ := h
    exact a5
  obtain ⟨hnn, ty, mi, q, params, n, f, X, k, mm, a1, a2, a3, a4, a5, a6, a7, a8, a9⟩ := pair_placed h hμ hp.nodes (hp.types _ hel)
  obtain ⟨mi', q', E, b, rest, b1, b2, b3, hE, hρ, hb⟩ := hb
  rw [a3, Option.some.injEq] at b1
  subst b1
  obtain rfl := resolves_unique a4 b2
  rw [a5, Option.some.injEq] at b3
  subst b3
  have hcoord : ∀ {n' : ℕ} {X' : Matrix (Fin n') (Fin 2) K}, CornersAt d.nodes el X' → ∃ e : n' = n, ∀ a i, X' a i = X (Fin.cast e a) i := by
    rintro n' X' ⟨ns, c1, c2, c3⟩
    obtain rfl := forall₂_resolves_unique hns c1
    refine ⟨by rw [← c2, a8.size], fun a i => ?_⟩
    have := a8.coord (Fin.cast (by rw [← c2, a8.size]) a) i
    rw [Fin.val_cast, c3 a i, Option.some.injEq] at this
    exact this
  rw [a8.form, a9.form, show μ.pick n u = m.pick n u from pick_congr hnn u]
  rcases hb with ⟨h6, hA, X', L, hc, hL, hlt⟩ | ⟨h3, hnu, X', hc, hlt⟩
  · rw [a1, Option.some.injEq] at h6
    subst h6
    simp only [Uel.eleFun, Except.ok.injEq] at a2
    subst a2
    obtain ⟨rfl, hX⟩ := hcoord hc
    obtain rfl : X' = X := by ext a i; exact hX a i
    exact ((C176_bar hs hL a7 hE hA t).2 hlt).2 _
  · rw [a1, Option.some.injEq] at h3
    subst h3
    simp only [Uel.eleFun, Except.ok.injEq] at a2
    subst a2
    obtain ⟨rfl, hX⟩ := hcoord hc
    obtain rfl : X' = X := by ext a i; exact hX a i
    exact C176_triangle a7 hE hnu (mul_nonneg ht hρ) hlt _

end

/-- The list of springs is no stiffer than `t` times the list of masses, element by element. -/
theorem energies_below {nd : ℕ} {t : ℝ} {els : List (List ℤ)} {R S : List ℤ → Member ℝ → Prop} {ks ms : List (Member ℝ)}
    (hk : List.Forall₂ R els ks) (hm : List.Forall₂ S els ms) {u : ℕ → ℕ → ℝ}
    (H : ∀ el ∈ els, ∀ m μ, R el m → S el μ → m.form nd u u ≤ t * μ.form nd u u) : energyOf nd ks u ≤ t * energyOf nd ms u := by
  unfold energyOf
  induction hk generalizing ms with
  | nil =>
    cases hm
    simp
  | cons h1 _ ih =>
    cases hm with
    | cons g1 g2 =>
      rw [List.map_cons, List.sum_cons, List.map_cons, List.sum_cons, mul_add]
      exact add_le_add (H _ (by simp) _ _ h1 g1) (ih g2 fun el hel m μ => H el (by simp [hel]) m μ)

section
variable {fn fn' : ℤ → Uel ℝ → Prop} {cons mats nodes : Table ℝ} {els : List (List ℤ)} {nd neq : ℕ} {bc : List (List ℤ)} {ks ms : List (Member ℝ)}
  {Kg Mg : Matrix (Fin neq) (Fin neq) ℝ} {w : Fin neq → ℝ} {φ : Fin neq → Fin neq → ℝ}

/-- No squared frequency exceeds `t` exactly when no admissible field stores more than `t` times as much energy in the springs as in the
masses. -/
theorem modes_below (s : Setup fn cons els mats nodes nd neq bc Kg ks) (s' : Setup fn' cons els mats nodes nd neq bc Mg ms)
    (h : Modes Kg Mg w φ) (hM : Mg.IsSymm) (t : ℝ) :
    (∀ k, w k ≤ t) ↔ ∀ u, Admissible cons nd u → energyOf nd ks u ≤ t * energyOf nd ms u := by
  constructor
  · intro H u hu
    obtain ⟨v, hv⟩ := exists_reduced s.eq s.valid hu
    have e1 := reduced_form s hv hv
    have e2 := reduced_form s' hv hv
    have f1 := h.form_stiff hM v
    have f2 := h.form_mass v
    unfold dotProduct at f1 f2
    unfold energyOf
    rw [← e1, ← e2, f1, f2, Finset.mul_sum]
    exact Finset.sum_le_sum fun k _ => mul_le_mul_of_nonneg_right (H k) (sq_nonneg _)
  · intro H k
    obtain ⟨V, hV⟩ := exists_completes (cons := cons) bc nd (φ k)
    have e1 := reduced_form s hV hV
    have e2 := reduced_form s' hV hV
    have f1 := Modes.quotient h k
    have f2 := h.normal k k
    rw [if_pos rfl] at f2
    unfold dotProduct at f1 f2
    have := H V (completes_admissible s.eq s.valid hV)
    unfold energyOf at this
    rwa [← e1, ← e2, f1, f2, mul_one] at this

end

section
variable {sq : ℝ → ℝ} {d : Gui.Data ℝ} {neq : ℕ} {Kg Mg : Matrix (Fin neq) (Fin neq) ℝ} {ks ms : List (Member ℝ)}
  {w : Fin neq → ℝ} {φ : Fin neq → Fin neq → ℝ}

/-- C176.  Plane models: no squared frequency exceeds `t` exactly when no admissible field has a larger quotient of energies. -/
theorem C176_iff (hs : SqrtFn sq) (h : Vibrating sq d ks ms Kg Mg) (hm : Modes Kg Mg w φ) (t : ℝ) :
    (∀ k, w k ≤ t) ↔ ∀ u, Admissible d.cons 2 u → energyOf 2 ks u ≤ t * energyOf 2 ms u := by
  obtain ⟨bc, s, s'⟩ := h.setups
  exact modes_below s s' hm (h.mass hs).1 t

/-- C176.  A plane model has no frequency above the highest of those of its single free elements. -/
theorem C176_elements (hs : SqrtFn sq) (h : Vibrating sq d ks ms Kg Mg) (hm : Modes Kg Mg w φ) {t : ℝ}
    (H : ∀ el ∈ d.elements, ∀ m μ, IsMember (Routine sq) d.mats d.nodes el m → IsMember (MassRoutine sq) d.mats d.nodes el μ →
      ∀ u, m.form 2 u u ≤ t * μ.form 2 u u) (k : Fin neq) : w k ≤ t :=
  (C176_iff hs h hm t).2 (fun u _ => energies_below h.springs h.masses fun el hel m μ h1 h2 => H el hel m μ h1 h2 u) k

/-- C176.  Meshes of bars and triangles: a bound from moduli, densities, lengths, sides and areas. -/
theorem C176_mesh (hs : SqrtFn sq) (h : Vibrating sq d ks ms Kg Mg) {t : ℝ} (ht : 0 ≤ t)
    (hb : ∀ el ∈ d.elements, Below d t el) {v : Fin neq → ℝ} {lam : ℝ} (hv : v ≠ 0) (he : Kg.mulVec v = lam • Mg.mulVec v) : lam ≤ t := by
  obtain ⟨w, φ, hm, -⟩ := C119_modes hs h
  obtain ⟨k, rfl⟩ := (hm.eigen_iff lam).1 ⟨v, hv, he⟩
  exact C176_elements hs h hm (fun el hel m μ h1 h2 u => below_form hs ht h.plane hel (hb el hel) h1 h2 u) k

end

section
variable {sq : ℝ → ℝ} {cons mats nodes : Table ℝ} {elements : List (List ℤ)} {el : List ℤ} {m μ : Member ℝ} {neq : ℕ} {a b : ℕ}
  {X : Matrix (Fin 2) (Fin 2) ℝ} {L EI EA γ ν t : ℝ} {ks ms : List (Member ℝ)} {Kg Mg : Matrix (Fin neq) (Fin neq) ℝ}
  {w : Fin neq → ℝ} {φ : Fin neq → Fin neq → ℝ}

theorem bend_below (hL : 0 < L) (P : Polynomial ℝ) : L ^ 4 * bendInt L P P ≤ 8400 * prodInt L P P := by
  rw [prodInt_squares]
  have e : L ^ 4 * bendInt L P P = L * (4 * (P.coeff 2 * L ^ 2 + 3 / 2 * (P.coeff 3 * L ^ 3)) ^ 2 + 3 * (P.coeff 3 * L ^ 3) ^ 2) := by
    unfold bendInt
    ring
  rw [e, mul_left_comm (8400 : ℝ) L]
  refine mul_le_mul_of_nonneg_left ?_ hL.le
  have := sq_nonneg (P.coeff 0 + P.coeff 1 * L / 2 + P.coeff 2 * L ^ 2 / 3 + P.coeff 3 * L ^ 3 / 4)
  have := sq_nonneg (P.coeff 1 * L + P.coeff 2 * L ^ 2 + 9 / 10 * (P.coeff 3 * L ^ 3))
  have := sq_nonneg (P.coeff 2 * L ^ 2 + 3 / 2 * (P.coeff 3 * L ^ 3))
  linarith

theorem stretch_below (hL : 0 < L) {P : Polynomial ℝ} (hP : P.natDegree ≤ 1) :
    L ^ 2 * (P.coeff 1 * P.coeff 1 * L) ≤ 12 * prodInt L P P := by
  have h2 : P.coeff 2 = 0 := P.coeff_eq_zero_of_natDegree_lt (by omega)
  have h3 : P.coeff 3 = 0 := P.coeff_eq_zero_of_natDegree_lt (by omega)
  rw [prodInt_squares, h2, h3]
  have := mul_nonneg hL.le (sq_nonneg (P.coeff 0 + P.coeff 1 * L / 2))
  linarith

/-- C176.  A beam: the energy of its spring is at most `t` times that of its mass if `8400 EI ≤ t γ L⁴` and `12 EA ≤ t ν L²`. -/
theorem C176_beam (hs : SqrtFn sq) (h : IsBeam mats nodes el a b X L EI EA γ ν) (hm : IsMember (Routine sq) mats nodes el m)
    (hμ : IsMember (MassRoutine sq) mats nodes el μ) (hEI : 8400 * EI ≤ t * γ * L ^ 4) (hEA : 12 * EA ≤ t * ν * L ^ 2) (h0 : 0 ≤ EI) (h1 : 0 ≤ EA)
    (U : ℕ → ℕ → ℝ) : m.form 3 U U ≤ t * μ.form 3 U U := by
  have hL := h.length.1
  rw [(h.spring hs hm).2, (h.mass hs hμ).2]
  have l := (extension_stretches (a := a) (b := b) (X := X) hL.ne' U).linear
  generalize deflection a b X L U = P
  generalize extension a b X L U = A at *
  have b1 := bend_below hL P
  have b2 := stretch_below hL l
  have p1 := bendInt_nonneg hL P
  have p2 : 0 ≤ A.coeff 1 * A.coeff 1 * L := mul_nonneg (mul_self_nonneg _) hL.le
  have q1 := prodInt_nonneg hL P
  have q2 := prodInt_nonneg hL A
  generalize bendInt L P P = B at *
  generalize A.coeff 1 * A.coeff 1 * L = S at *
  generalize prodInt L P P = M at *
  generalize prodInt L A A = N at *
  rw [mul_add]
  refine add_le_add ?_ ?_
  · have : L ^ 4 * (EI * B) ≤ L ^ 4 * (t * (γ * M)) := by
      calc L ^ 4 * (EI * B) = EI * (L ^ 4 * B) := by ring
        _ ≤ EI * (8400 * M) := mul_le_mul_of_nonneg_left b1 h0
        _ = 8400 * EI * M := by ring
        _ ≤ t * γ * L ^ 4 * M := mul_le_mul_of_nonneg_right hEI q1
        _ = _ := by ring
    exact le_of_mul_le_mul_left this (by positivity)
  · have : L ^ 2 * (EA * S) ≤ L ^ 2 * (t * (ν * N)) := by
      calc L ^ 2 * (EA * S) = EA * (L ^ 2 * S) := by ring
        _ ≤ EA * (12 * N) := mul_le_mul_of_nonneg_left b2 h1
        _ = 12 * EA * N := by ring
        _ ≤ t * ν * L ^ 2 * N := mul_le_mul_of_nonneg_right hEA q2
        _ = _ := by ring
    exact le_of_mul_le_mul_left this (by positivity)

/-- C176.  Frames: no squared frequency exceeds the largest of `8400 EI / (γ L⁴)` and `12 EA / (γ L²)` over the beams. -/
theorem C176_frame (hs : SqrtFn sq) (h : BeamModel sq cons mats nodes elements ks ms Kg Mg) (hm : Modes Kg Mg w φ)
    (hb : ∀ el ∈ elements, ∃ a b X L EI EA γ ν, IsBeam mats nodes el a b X L EI EA γ ν ∧ 0 ≤ EI ∧ 0 ≤ EA ∧ 8400 * EI ≤ t * γ * L ^ 4 ∧
      12 * EA ≤ t * ν * L ^ 2) {v : Fin neq → ℝ} {lam : ℝ} (hv : v ≠ 0) (he : Kg.mulVec v = lam • Mg.mulVec v) : lam ≤ t := by
  obtain ⟨k, rfl⟩ := (hm.eigen_iff lam).1 ⟨v, hv, he⟩
  obtain ⟨bc, s, s'⟩ := h.setups
  refine (modes_below s s' hm (h.symm hs).2 t).2 (fun u _ => energies_below h.springs h.masses fun el hel m μ h1 h2 => ?_) k
  obtain ⟨a, b, X, L, EI, EA, γ, ν, hb, e1, e2, e3, e4⟩ := hb el hel
  exact C176_beam hs hb h1 h2 e3 e4 e1 e2 u

end

section
variable {f : Uel ℝ} {tab : ℤ → Py (Uel ℝ)} {nd n m : ℕ} {cons mats nodes : Table ℝ} {elements : List (List ℤ)} {ks μs : List (Member ℝ)} {neq : ℕ}
  {count : ℤ → Py ℕ} {Kg Mg : Matrix (Fin neq) (Fin neq) ℝ} {w : Fin neq → ℝ} {φ : Fin neq → Fin neq → ℝ}

/-- C176.  The user's own elements: no frequency above those of the single free elements. -/
theorem C176_user (h : UserVibration tab nd n m f count cons elements mats nodes ks μs Kg Mg) (hm : Modes Kg Mg w φ) {t : ℝ}
    (H : ∀ el ∈ elements, ∀ k μ, Describes f mats nodes el k → Weighs f mats nodes el μ → ∀ u, k.form nd u u ≤ t * μ.form nd u u) (k : Fin neq) :
    w k ≤ t := by
  obtain ⟨bc, s, s'⟩ := h.setups
  exact (modes_below s s' hm h.mass.2.1 t).2 (fun u _ => energies_below h.springs h.masses fun el hel m μ h1 h2 => H el hel m μ h1 h2 u) k

end

/-! ## Cases -/

/-- Case for C176: the square of two triangles has no squared frequency above 161. -/
example : ∃ (neq : ℕ) (Kg Mg : Matrix (Fin neq) (Fin neq) ℝ) (ks ms : List (Member ℝ)), Vibrating Real.sqrt cutTwo ks ms Kg Mg ∧ 0 < neq ∧
    ∀ (v : Fin neq → ℝ) (lam : ℝ), v ≠ 0 → Kg.mulVec v = lam • Mg.mulVec v → lam ≤ 161 := by
  obtain ⟨m0, m1, hms, a0, a1⟩ := cutTwo_members
  have hmesh := cut_mesh hms a0 a1
  have hfree : ∀ p j, Free cutTwo.cons 2 p j → p < 4 := fun p j hf => free_lt hf
  obtain ⟨neq, Kg, Mg, ms, h⟩ := exists_vibrating hmesh.plane cut_wf.1 hms (fun el hel => .inr (by
    intro el' hel'
    rw [List.mem_singleton.1 hel']
    simp only [cutTwo, List.mem_cons, List.not_mem_nil, or_false] at hel
    rcases hel with rfl | rfl <;>
      exact ⟨3, 0, 0, 10, 1 / 4, [], rfl, by simp, rfl, ⟨by simp [cutTwo], .inl rfl⟩, rfl, by simp⟩)) (fun p j hf => by
    have := hfree p j hf
    rcases (by omega : p = 0 ∨ p = 1 ∨ p = 2 ∨ p = 3) with rfl | rfl | rfl | rfl
    · exact ⟨[0, 3, 0, 0, 1, 2], by simp [cutTwo], 0, by simp, by simp [cutTwo], .inl rfl⟩
    · exact ⟨[0, 3, 0, 0, 1, 2], by simp [cutTwo], 1, by simp, by simp [cutTwo], .inl rfl⟩
    · exact ⟨[0, 3, 0, 0, 1, 2], by simp [cutTwo], 2, by simp, by simp [cutTwo], .inl rfl⟩
    · exact ⟨[1, 3, 0, 0, 2, 3], by simp [cutTwo], 3, by simp, by simp [cutTwo], .inl rfl⟩)
  refine ⟨neq, Kg, Mg, _, ms, h, ?_, fun v lam hv he => C176_mesh sqrtFn_real h (by norm_num) (fun el hel => ?_) hv he⟩
  · obtain ⟨bc, s, -⟩ := h.setups
    have := (free_entry s.eq (i := 1) (j := 0) ⟨by omega, 0, rfl, by norm_num, by norm_num⟩).2
    omega
  · simp only [cutTwo, List.mem_cons, List.not_mem_nil, or_false] at hel
    have hnu : |(1 / 4 : ℝ)| = 1 / 4 := abs_of_pos (by norm_num)
    rcases hel with rfl | rfl
    · refine ⟨0, 0, 10, 1 / 4, [], rfl, ⟨by simp [cutTwo], .inl rfl⟩, rfl, by norm_num, by norm_num [density], .inr ⟨rfl, by rw [hnu]; norm_num,
        !![0, 0; 2, 0; 2, 2], ⟨[0, 1, 2], .cons ⟨by simp [cutTwo], .inl rfl⟩ (.cons ⟨by simp [cutTwo], .inl rfl⟩ (.cons ⟨by simp [cutTwo], .inl rfl⟩ .nil)),
          rfl, fun a i => ?_⟩, ?_⟩⟩
      · fin_cases a <;> fin_cases i <;> rfl
      · rw [hnu]
        simp only [sidesSq, area2, density]
        simp
        norm_num
    · refine ⟨0, 0, 10, 1 / 4, [], rfl, ⟨by simp [cutTwo], .inl rfl⟩, rfl, by norm_num, by norm_num [density], .inr ⟨rfl, by rw [hnu]; norm_num,
        !![0, 0; 2, 2; 0, 2], ⟨[0, 2, 3], .cons ⟨by simp [cutTwo], .inl rfl⟩ (.cons ⟨by simp [cutTwo], .inl rfl⟩ (.cons ⟨by simp [cutTwo], .inl rfl⟩ .nil)),
          rfl, fun a i => ?_⟩, ?_⟩⟩
      · fin_cases a <;> fin_cases i <;> rfl
      · rw [hnu]
        simp only [sidesSq, area2, density]
        simp
        norm_num

/-- Case for C176: three bars in a row. -/
example : ∃ (neq : ℕ) (Kg Mg : Matrix (Fin neq) (Fin neq) ℝ) (ks ms : List (Member ℝ)) (w : Fin neq → ℝ) (φ : Fin neq → Fin neq → ℝ),
    Vibrating Real.sqrt (testBar 3 1 1 1 1) ks ms Kg Mg ∧ Modes Kg Mg w φ ∧ ∀ k, w k ≤ 12 := by
  obtain ⟨neq, Kg, Mg, ks, ms, w, φ, hv, hm⟩ := (testBar_uniform 3 1 1 1 1).vibrates sqrtFn_real one_pos one_pos one_pos
  refine ⟨neq, Kg, Mg, ks, ms, w, φ, hv, hm, fun k => ?_⟩
  obtain ⟨v, h0, he⟩ := (hm.eigen_iff (w k)).2 ⟨k, rfl⟩
  refine C176_mesh sqrtFn_real hv (by norm_num) (fun el hel => ?_) h0 he
  obtain ⟨e, he, rfl⟩ := List.mem_map.1 hel
  have he : e < 3 := List.mem_range.1 he
  refine ⟨0, 0, 1, 1, [1], rfl, ⟨by simp [testBar], .inl rfl⟩, rfl, by norm_num, by norm_num [density], .inl ⟨rfl, by norm_num,
    !![(e : ℝ), 0; (e : ℝ) + 1, 0], 1, ⟨[e, e + 1], ?_, rfl, fun a i => ?_⟩, ⟨by norm_num, by simp⟩, by norm_num [density]⟩⟩
  · exact .cons ⟨by simp [testBar]; omega, .inl rfl⟩ (.cons ⟨by simp [testBar]; omega, .inl (by push_cast; rfl)⟩ .nil)
  · rw [entry_some]
    fin_cases a
    · exact ⟨[(e : ℝ), e * 1, 0], by simp [testBar, show e < 4 by omega], by fin_cases i <;> simp⟩
    · exact ⟨[((e + 1 : ℕ) : ℝ), (e + 1 : ℕ) * 1, 0], by simp [testBar, List.getElem?_range (show e + 1 < 4 by omega)], by fin_cases i <;> simp⟩

/-- Case for C176: the frame of the test, with lengths 6 and 4. -/
example (sparse : Bool) : ∃ (neq : ℕ) (Kg Mg : Matrix (Fin neq) (Fin neq) ℝ) (ks ms : List (Member ℝ)) (w : Fin neq → ℝ) (φ : Fin neq → Fin neq → ℝ),
    BeamModel Real.sqrt testFrame.1 testFrame.2.2.1 testFrame.2.2.2.1 testFrame.2.1 ks ms Kg Mg ∧ Modes Kg Mg w φ ∧ ∀ k, w k ≤ 150000000000 := by
  have hp : BeamParams [(200000000000 : ℝ), 133 / 1000000, 1 / 25] 200000000000 (133 / 1000000) (1 / 25) (1 / 25) :=
    ⟨by norm_num, Or.inl ⟨rfl, rfl⟩⟩
  have hmat : ∀ id a b : ℤ, ∃ mi, ∃ q : ℕ, ∃ params, [id, 8, 0, a, b][2]? = some mi ∧ Resolves testFrame.2.2.1.length mi q ∧
      testFrame.2.2.1[q]? = some params ∧
      (([id, 8, 0, a, b][1]? = some 7 ∧ (8000000000 : ℝ) = 0 ∧ (1 / 25 : ℝ) = 0 ∧ ∃ E I, BeamUParams params E I (1 / 25) ∧ 26600000 = E * I) ∨
      ([id, 8, 0, a, b][1]? = some 8 ∧ (1 / 25 : ℝ) = 1 / 25 ∧ ∃ E I A, BeamParams params E I A (1 / 25) ∧ 26600000 = E * I ∧ 8000000000 = E * A)) :=
    fun id a b => ⟨0, 0, _, rfl, ⟨by simp [testFrame], .inl rfl⟩, rfl, .inr ⟨rfl, rfl, _, _, _, hp, by norm_num, by norm_num⟩⟩
  have b0 : IsBeam testFrame.2.2.1 testFrame.2.2.2.1 [0, 8, 0, 0, 1] 0 1 !![0, 0; 0, 6] 6 26600000 8000000000 (1 / 25) (1 / 25) :=
    ⟨.cons ⟨by simp [testFrame], .inl rfl⟩ (.cons ⟨by simp [testFrame], .inl rfl⟩ .nil), ⟨0, rfl⟩, ⟨1, rfl⟩, ⟨by norm_num, by norm_num⟩, hmat 0 0 1⟩
  have b1 : IsBeam testFrame.2.2.1 testFrame.2.2.2.1 [1, 8, 0, 1, 2] 1 2 !![0, 6; 4, 6] 4 26600000 8000000000 (1 / 25) (1 / 25) :=
    ⟨.cons ⟨by simp [testFrame], .inl rfl⟩ (.cons ⟨by simp [testFrame], .inl rfl⟩ .nil), ⟨1, rfl⟩, ⟨2, rfl⟩, ⟨by norm_num, by norm_num⟩, hmat 1 1 2⟩
  have hk : ∃ ks, List.Forall₂ (IsMember (Routine Real.sqrt) testFrame.2.2.1 testFrame.2.2.2.1) testFrame.2.1 ks := by
    obtain ⟨m0, h0⟩ := b0.exists_member sqrtFn_real
    obtain ⟨m1, h1⟩ := b1.exists_member sqrtFn_real
    exact ⟨[m0, m1], .cons h0 (.cons h1 .nil)⟩
  obtain ⟨ks, hk⟩ := hk
  obtain ⟨op, bc, neq, Kg, Mg, h1, h2⟩ := C117_assembled testFrame_frame hk sparse
  obtain ⟨ms, s⟩ := frame_mass_setup testFrame_frame h1 h2
  have hB : BeamModel Real.sqrt testFrame.1 testFrame.2.2.1 testFrame.2.2.2.1 testFrame.2.1 ks ms Kg Mg :=
    ⟨testFrame_frame, fun el hel => by
      obtain ⟨a, b, X, L, h⟩ := testFrame_beams el hel
      exact ⟨a, b, X, L, _, _, _, _, h, by norm_num⟩, hk, s.mem, op, bc, sparse, h1, h2⟩
  have hl : Laden testFrame.1 3 ms := (C122_laden_iff sqrtFn_real hB (by simp [testFrame])).2 fun p j hf => by
    obtain ⟨rfl, -⟩ := (testFrame_free p j).1 hf
    exact ⟨_, .head _, 1, by simp, by simp [testFrame], .inl rfl⟩
  obtain ⟨w, φ, hm, -⟩ := C122_modes sqrtFn_real hB hl
  refine ⟨neq, Kg, Mg, ks, ms, w, φ, hB, hm, fun k => ?_⟩
  obtain ⟨v, h0, he⟩ := (hm.eigen_iff (w k)).2 ⟨k, rfl⟩
  refine C176_frame sqrtFn_real hB hm (fun el hel => ?_) h0 he
  simp only [testFrame, List.mem_cons, List.not_mem_nil, or_false] at hel
  rcases hel with rfl | rfl
  · exact ⟨_, _, _, _, _, _, _, _, b0, by norm_num, by norm_num, by norm_num, by norm_num⟩
  · exact ⟨_, _, _, _, _, _, _, _, b1, by norm_num, by norm_num, by norm_num, by norm_num⟩

end SolidsPy
