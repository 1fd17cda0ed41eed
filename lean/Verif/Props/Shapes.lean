import Verif.Model.Fem
import Verif.Spec.Shape
import Verif.Proofs.Lits
import Mathlib.Tactic.FinCases
import Mathlib.Tactic.Ring
import Mathlib.Tactic.NormNum
import Mathlib.Tactic.FieldSimp
import Mathlib.Analysis.Calculus.Deriv.Pow
import Mathlib.Analysis.Calculus.Deriv.Add
import Mathlib.Analysis.Calculus.Deriv.Mul

/-! # C26 - C28: shape functions -/

set_option linter.unusedSectionVars false
set_option linter.unusedSimpArgs false
set_option linter.unreachableTactic false
set_option linter.unusedTactic false

namespace SolidsPy
open Spec Fem

section
variable {K : Type} [Field K] [LinearOrder K] [IsStrictOrderedRing K]

/-- C26. -/
theorem C26_tri3 (r s : K) : ∑ a, (shapeTri3 r s).1 a = 1 ∧ ∀ i, ∑ a, (shapeTri3 r s).2 i a = 0 := by
  refine ⟨?_, fun i => ?_⟩
  · simp [shapeTri3, Fin.sum_univ_succ]
  · fin_cases i <;> simp [shapeTri3, Fin.sum_univ_succ]

/-- C26. -/
theorem C26_tri6 (r s : K) : ∑ a, (shapeTri6 r s).1 a = 1 ∧ ∀ i, ∑ a, (shapeTri6 r s).2 i a = 0 := by
  refine ⟨?_, fun i => ?_⟩
  · simp [shapeTri6, Fin.sum_univ_succ]; ring
  · fin_cases i <;> simp [shapeTri6, Fin.sum_univ_succ] <;> ring

/-- C26. -/
theorem C26_quad4 (r s : K) : ∑ a, (shapeQuad4 r s).1 a = 1 ∧ ∀ i, ∑ a, (shapeQuad4 r s).2 i a = 0 := by
  refine ⟨?_, fun i => ?_⟩
  · simp [shapeQuad4, lit_quarter, lit_half, lit_eighth, lit_one, lit_two, Fin.sum_univ_succ]; ring
  · fin_cases i <;> simp [shapeQuad4, lit_quarter, lit_half, lit_eighth, lit_one, lit_two, Fin.sum_univ_succ] <;> ring

/-- C26. -/
theorem C26_quad8 (r s : K) : ∑ a, (shapeQuad8 r s).1 a = 1 ∧ ∀ i, ∑ a, (shapeQuad8 r s).2 i a = 0 := by
  refine ⟨?_, fun i => ?_⟩
  · simp [shapeQuad8, lit_quarter, lit_half, lit_eighth, lit_one, lit_two, Fin.sum_univ_succ]; ring
  · fin_cases i <;> simp [shapeQuad8, lit_quarter, lit_half, lit_eighth, lit_one, lit_two, Fin.sum_univ_succ] <;> ring

/-- C26. -/
theorem C26_quad9 (r s : K) : ∑ a, (shapeQuad9 r s).1 a = 1 ∧ ∀ i, ∑ a, (shapeQuad9 r s).2 i a = 0 := by
  refine ⟨?_, fun i => ?_⟩
  · simp [shapeQuad9, lit_quarter, lit_half, lit_eighth, lit_one, lit_two, Fin.sum_univ_succ]; ring
  · fin_cases i <;> simp [shapeQuad9, lit_quarter, lit_half, lit_eighth, lit_one, lit_two, Fin.sum_univ_succ] <;> ring

/-- C26. -/
theorem C26_tet4 (r s t : K) :
    ∑ a, (shapeTet4 r s t).1 a = 1 ∧ ∀ i, ∑ a, (shapeTet4 r s t).2 i a = 0 := by
  refine ⟨?_, fun i => ?_⟩
  · simp [shapeTet4, Fin.sum_univ_succ]; ring
  · fin_cases i <;> simp [shapeTet4, Fin.sum_univ_succ]

/-- C26. -/
theorem C26_hex8 (r s t : K) :
    ∑ a, (shapeHex8 r s t).1 a = 1 ∧ ∀ i, ∑ a, (shapeHex8 r s t).2 i a = 0 := by
  refine ⟨?_, fun i => ?_⟩
  · simp [shapeHex8, lit_quarter, lit_half, lit_eighth, lit_one, lit_two, Fin.sum_univ_succ]; ring
  · fin_cases i <;> simp [shapeHex8, lit_quarter, lit_half, lit_eighth, lit_one, lit_two, Fin.sum_univ_succ] <;> ring

/-- C27. -/
theorem C27_tri3 (c : ℕ → ℕ → K) (r s : K) :
    ∑ a, (shapeTri3 r s).1 a * poly2 P1 c (triNode (a.castLE (by omega))) = poly2 P1 c (r, s) := by
  simp [shapeTri3, poly2, P1, triNode, Fin.sum_univ_succ]; ring

/-- C27. -/
theorem C27_tri6 (c : ℕ → ℕ → K) (r s : K) :
    ∑ a, (shapeTri6 r s).1 a * poly2 P2 c (triNode a) = poly2 P2 c (r, s) := by
  simp [shapeTri6, poly2, P2, triNode, Fin.sum_univ_succ]; ring

/-- C27. -/
theorem C27_quad4 (c : ℕ → ℕ → K) (r s : K) :
    ∑ a, (shapeQuad4 r s).1 a * poly2 Q1 c (quadNode (a.castLE (by omega))) = poly2 Q1 c (r, s) := by
  simp [shapeQuad4, lit_quarter, lit_half, lit_eighth, lit_one, lit_two, poly2, Q1, quadNode, Fin.sum_univ_succ]; ring

/-- C27. -/
theorem C27_quad8 (c : ℕ → ℕ → K) (r s : K) :
    ∑ a, (shapeQuad8 r s).1 a * poly2 S2 c (quadNode (a.castLE (by omega))) = poly2 S2 c (r, s) := by
  simp [shapeQuad8, lit_quarter, lit_half, lit_eighth, lit_one, lit_two, poly2, S2, quadNode, Fin.sum_univ_succ]; ring

/-- C27. -/
theorem C27_quad9 (c : ℕ → ℕ → K) (r s : K) :
    ∑ a, (shapeQuad9 r s).1 a * poly2 Q2 c (quadNode a) = poly2 Q2 c (r, s) := by
  simp [shapeQuad9, lit_quarter, lit_half, lit_eighth, lit_one, lit_two, poly2, Q2, quadNode, Fin.sum_univ_succ]; ring

/-- C27. -/
theorem C27_tet4 (c : ℕ → ℕ → ℕ → K) (r s t : K) :
    ∑ a, (shapeTet4 r s t).1 a * poly3 P1₃ c (tetNode a) = poly3 P1₃ c (r, s, t) := by
  simp [shapeTet4, poly3, P1₃, tetNode, Fin.sum_univ_succ]; ring

/-- C27. -/
theorem C27_hex8 (c : ℕ → ℕ → ℕ → K) (r s t : K) :
    ∑ a, (shapeHex8 r s t).1 a * poly3 Q1₃ c (hexNode a) = poly3 Q1₃ c (r, s, t) := by
  simp [shapeHex8, lit_quarter, lit_half, lit_eighth, lit_one, lit_two, poly3, Q1₃, hexNode, Fin.sum_univ_succ]; ring

/-- C27. Every shape function is 1 at its own node and 0 at the others. -/
theorem C27_kronecker_tri3 (a b : Fin 3) :
    (shapeTri3 (triNode (b.castLE (by omega))).1 (triNode (b.castLE (by omega))).2).1 a =
      if a = b then (1 : K) else 0 := by
  fin_cases a <;> fin_cases b <;> simp [shapeTri3, triNode]

/-- C27. Every shape function is 1 at its own node and 0 at the others. -/
theorem C27_kronecker_tri6 (a b : Fin 6) :
    (shapeTri6 (triNode b).1 (triNode b).2).1 a =
      if a = b then (1 : K) else 0 := by
  fin_cases a <;> fin_cases b <;> simp [shapeTri6, triNode] <;> norm_num

/-- C27. Every shape function is 1 at its own node and 0 at the others. -/
theorem C27_kronecker_quad4 (a b : Fin 4) :
    (shapeQuad4 (quadNode (b.castLE (by omega))).1 (quadNode (b.castLE (by omega))).2).1 a =
      if a = b then (1 : K) else 0 := by
  fin_cases a <;> fin_cases b <;> simp [shapeQuad4, quadNode, lit_quarter, lit_half, lit_eighth, lit_one, lit_two] <;> norm_num

set_option maxHeartbeats 1000000 in
/-- C27. Every shape function is 1 at its own node and 0 at the others. -/
theorem C27_kronecker_quad8 (a b : Fin 8) :
    (shapeQuad8 (quadNode (b.castLE (by omega))).1 (quadNode (b.castLE (by omega))).2).1 a =
      if a = b then (1 : K) else 0 := by
  fin_cases a <;> fin_cases b <;> simp [shapeQuad8, quadNode, lit_quarter, lit_half, lit_eighth, lit_one, lit_two] <;> norm_num

set_option maxHeartbeats 1000000 in
/-- C27. Every shape function is 1 at its own node and 0 at the others. -/
theorem C27_kronecker_quad9 (a b : Fin 9) :
    (shapeQuad9 (quadNode b).1 (quadNode b).2).1 a =
      if a = b then (1 : K) else 0 := by
  fin_cases a <;> fin_cases b <;> simp [shapeQuad9, quadNode, lit_quarter, lit_half, lit_eighth, lit_one, lit_two] <;> norm_num

/-- C27. Every shape function is 1 at its own node and 0 at the others. -/
theorem C27_kronecker_tet4 (a b : Fin 4) :
    (shapeTet4 (tetNode b).1 (tetNode b).2.1 (tetNode b).2.2).1 a =
      if a = b then (1 : K) else 0 := by
  fin_cases a <;> fin_cases b <;> simp [shapeTet4, tetNode]

set_option maxHeartbeats 1000000 in
/-- C27. Every shape function is 1 at its own node and 0 at the others. -/
theorem C27_kronecker_hex8 (a b : Fin 8) :
    (shapeHex8 (hexNode b).1 (hexNode b).2.1 (hexNode b).2.2).1 a =
      if a = b then (1 : K) else 0 := by
  fin_cases a <;> fin_cases b <;> simp [shapeHex8, hexNode, lit_quarter, lit_half, lit_eighth, lit_one, lit_two] <;> norm_num

end

/-- A function with an exact second-order expansion is differentiable. -/
theorem hasDerivAt_of_expansion {f : ℝ → ℝ} {D E x : ℝ} (h : ∀ y, f y = f x + (y - x) * D + (y - x)^2 * E) :
    HasDerivAt f D x := by
  have h1 : f = fun y => f x + (y - x) * D + (y - x)^2 * E := funext h
  rw [h1]
  have h2 : HasDerivAt (fun y : ℝ => y - x) 1 x := (hasDerivAt_id x).sub_const x
  have h3 := HasDerivAt.fun_add ((h2.mul_const D).const_add (f x)) ((h2.fun_pow 2).mul_const E)
  have h4 : 1 * D + (2 : ℕ) * (x - x) ^ (2 - 1) * 1 * E = D := by simp
  rw [h4] at h3
  exact h3

/-- As above with the second-order coefficient read off the function. -/
theorem hasDerivAt_quadratic {f : ℝ → ℝ} {D x : ℝ}
    (h : ∀ y, f y = f x + (y - x) * D + (y - x)^2 * ((f 1 + f (-1)) / 2 - f 0)) : HasDerivAt f D x :=
  hasDerivAt_of_expansion h

/-- C28. -/
theorem C28_tri3 (r s : ℝ) (a : Fin 3) :
    HasDerivAt (fun x => (shapeTri3 x s).1 a) ((shapeTri3 r s).2 0 a) r ∧
    HasDerivAt (fun x => (shapeTri3 r x).1 a) ((shapeTri3 r s).2 1 a) s := by
  constructor <;> apply hasDerivAt_quadratic <;> intro y <;> fin_cases a <;> simp [shapeTri3] <;>
    first | ring1 | (right; ring1)

/-- C28. -/
theorem C28_tri6 (r s : ℝ) (a : Fin 6) :
    HasDerivAt (fun x => (shapeTri6 x s).1 a) ((shapeTri6 r s).2 0 a) r ∧
    HasDerivAt (fun x => (shapeTri6 r x).1 a) ((shapeTri6 r s).2 1 a) s := by
  constructor <;> apply hasDerivAt_quadratic <;> intro y <;> fin_cases a <;> simp [shapeTri6] <;>
    first | ring1 | (right; ring1)

/-- C28. -/
theorem C28_quad4 (r s : ℝ) (a : Fin 4) :
    HasDerivAt (fun x => (shapeQuad4 x s).1 a) ((shapeQuad4 r s).2 0 a) r ∧
    HasDerivAt (fun x => (shapeQuad4 r x).1 a) ((shapeQuad4 r s).2 1 a) s := by
  constructor <;> apply hasDerivAt_quadratic <;> intro y <;> fin_cases a <;> simp [shapeQuad4, lit_quarter, lit_half, lit_eighth, lit_one, lit_two] <;> ring

/-- C28. -/
theorem C28_quad8 (r s : ℝ) (a : Fin 8) :
    HasDerivAt (fun x => (shapeQuad8 x s).1 a) ((shapeQuad8 r s).2 0 a) r ∧
    HasDerivAt (fun x => (shapeQuad8 r x).1 a) ((shapeQuad8 r s).2 1 a) s := by
  constructor <;> apply hasDerivAt_quadratic <;> intro y <;> fin_cases a <;> simp [shapeQuad8, lit_quarter, lit_half, lit_eighth, lit_one, lit_two] <;> ring

/-- C28. -/
theorem C28_quad9 (r s : ℝ) (a : Fin 9) :
    HasDerivAt (fun x => (shapeQuad9 x s).1 a) ((shapeQuad9 r s).2 0 a) r ∧
    HasDerivAt (fun x => (shapeQuad9 r x).1 a) ((shapeQuad9 r s).2 1 a) s := by
  constructor <;> apply hasDerivAt_quadratic <;> intro y <;> fin_cases a <;> simp [shapeQuad9, lit_quarter, lit_half, lit_eighth, lit_one, lit_two] <;> ring

/-- C28. -/
theorem C28_tet4 (r s t : ℝ) (a : Fin 4) :
    HasDerivAt (fun x => (shapeTet4 x s t).1 a) ((shapeTet4 r s t).2 0 a) r ∧
    HasDerivAt (fun x => (shapeTet4 r x t).1 a) ((shapeTet4 r s t).2 1 a) s ∧
    HasDerivAt (fun x => (shapeTet4 r s x).1 a) ((shapeTet4 r s t).2 2 a) t := by
  refine ⟨?_, ?_, ?_⟩ <;> apply hasDerivAt_quadratic <;> intro y <;> fin_cases a <;> simp [shapeTet4] <;> ring

set_option maxHeartbeats 1000000 in
/-- C28. -/
theorem C28_hex8 (r s t : ℝ) (a : Fin 8) :
    HasDerivAt (fun x => (shapeHex8 x s t).1 a) ((shapeHex8 r s t).2 0 a) r ∧
    HasDerivAt (fun x => (shapeHex8 r x t).1 a) ((shapeHex8 r s t).2 1 a) s ∧
    HasDerivAt (fun x => (shapeHex8 r s x).1 a) ((shapeHex8 r s t).2 2 a) t := by
  refine ⟨?_, ?_, ?_⟩ <;> apply hasDerivAt_quadratic <;> intro y <;> fin_cases a <;> simp [shapeHex8, lit_quarter, lit_half, lit_eighth, lit_one, lit_two] <;> ring

/-- Case for C26 - C28: an interior point of the nine-node square. -/
example : (shapeQuad9 (1/2 : ℚ) (1/3)).1 8 = 2/3 ∧ (shapeQuad9 (1/2 : ℚ) (1/3)).2 0 8 = -8/9 := by
  decide +kernel

end SolidsPy
