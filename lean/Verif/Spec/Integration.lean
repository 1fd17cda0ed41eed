import Verif.Model.Gauss
import Mathlib.Algebra.MvPolynomial.Degrees
import Mathlib.Algebra.MvPolynomial.Eval
import Mathlib.Algebra.Polynomial.Eval.Defs
import Mathlib.Analysis.SpecialFunctions.Integrals.Basic

/-! Integrals of polynomials over the reference domains, and quadrature rules as sums. -/

namespace SolidsPy
namespace Spec
open MeasureTheory

/-- The rule with points `p` and weights `w` applied to `f`. -/
noncomputable def quad1 (p w : List ℚ) (f : ℝ → ℝ) : ℝ :=
  (List.zipWith (fun (x c : ℚ) => (c : ℝ) * f x) p w).sum

/-- The same over pairs. -/
noncomputable def quad2 (p : List (ℚ × ℚ)) (w : List ℚ) (f : ℝ → ℝ → ℝ) : ℝ :=
  (List.zipWith (fun (x : ℚ × ℚ) (c : ℚ) => (c : ℝ) * f x.1 x.2) p w).sum

/-- The same over triples. -/
noncomputable def quad3 (p : List (ℚ × ℚ × ℚ)) (w : List ℚ) (f : ℝ → ℝ → ℝ → ℝ) : ℝ :=
  (List.zipWith (fun (x : ℚ × ℚ × ℚ) (c : ℚ) => (c : ℝ) * f x.1 x.2.1 x.2.2) p w).sum

/-- The same over lists of coordinates. -/
noncomputable def quadN (p : List (List ℚ)) (w : List ℚ) (f : List ℝ → ℝ) : ℝ :=
  (List.zipWith (fun (x : List ℚ) (c : ℚ) => (c : ℝ) * f (x.map fun y : ℚ => (y : ℝ))) p w).sum

/-- Integral over the triangle with vertices (0,0), (1,0), (0,1). -/
noncomputable def intTri (f : ℝ → ℝ → ℝ) : ℝ := ∫ r in (0 : ℝ)..1, ∫ s in (0 : ℝ)..(1 - r), f r s

/-- Integral over the tetrahedron with vertices at the origin and the three unit points. -/
noncomputable def intTet (f : ℝ → ℝ → ℝ → ℝ) : ℝ :=
  ∫ r in (0 : ℝ)..1, ∫ s in (0 : ℝ)..(1 - r), ∫ t in (0 : ℝ)..(1 - r - s), f r s t

/-- Sum of the absolute values of the coefficients. -/
noncomputable def coefSum (P : Polynomial ℝ) : ℝ := ∑ i ∈ P.support, |P.coeff i|

/-- Sum of the absolute values of the coefficients. -/
noncomputable def mvCoefSum {n : ℕ} (P : MvPolynomial (Fin n) ℝ) : ℝ := ∑ i ∈ P.support, |P.coeff i|

end Spec
end SolidsPy
