import Mathlib.Algebra.Order.Field.Basic
import Mathlib.Algebra.BigOperators.Fin
import Mathlib.Data.Fin.VecNotation

/-! Reference elements: positions of the nodes and polynomial spaces, as given in the documentation of
the shape functions. -/

namespace SolidsPy
namespace Spec

section
variable {K : Type} [Field K]

/-- Nodes of the reference triangles: vertices, then midpoints of edges 12, 23, 31. -/
def triNode : Fin 6 → K × K :=
  ![(0, 0), (1, 0), (0, 1), (1/2, 0), (1/2, 1/2), (0, 1/2)]

/-- Nodes of the reference square: vertices counterclockwise from (-1, -1), midpoints of the edges in
the same order, centre. -/
def quadNode : Fin 9 → K × K :=
  ![(-1, -1), (1, -1), (1, 1), (-1, 1), (0, -1), (1, 0), (0, 1), (-1, 0), (0, 0)]

/-- Vertices of the reference tetrahedron. -/
def tetNode : Fin 4 → K × K × K := ![(0, 0, 0), (1, 0, 0), (0, 1, 0), (0, 0, 1)]

/-- Vertices of the reference cube: bottom face counterclockwise, then top face. -/
def hexNode : Fin 8 → K × K × K :=
  ![(-1, -1, -1), (1, -1, -1), (1, 1, -1), (-1, 1, -1),
    (-1, -1, 1), (1, -1, 1), (1, 1, 1), (-1, 1, 1)]

/-- The polynomial with the given exponents and coefficients. -/
def poly2 (exps : List (ℕ × ℕ)) (c : ℕ → ℕ → K) (x : K × K) : K :=
  (exps.map fun e => c e.1 e.2 * x.1 ^ e.1 * x.2 ^ e.2).sum

/-- The same in three variables. -/
def poly3 (exps : List (ℕ × ℕ × ℕ)) (c : ℕ → ℕ → ℕ → K) (x : K × K × K) : K :=
  (exps.map fun e => c e.1 e.2.1 e.2.2 * x.1 ^ e.1 * x.2.1 ^ e.2.1 * x.2.2 ^ e.2.2).sum

/-- Linear polynomials. -/
def P1 : List (ℕ × ℕ) := [(0, 0), (1, 0), (0, 1)]
/-- Quadratic polynomials. -/
def P2 : List (ℕ × ℕ) := [(0, 0), (1, 0), (0, 1), (2, 0), (1, 1), (0, 2)]
/-- Bilinear polynomials. -/
def Q1 : List (ℕ × ℕ) := [(0, 0), (1, 0), (0, 1), (1, 1)]
/-- Serendipity polynomials. -/
def S2 : List (ℕ × ℕ) := [(0, 0), (1, 0), (0, 1), (2, 0), (1, 1), (0, 2), (2, 1), (1, 2)]
/-- Biquadratic polynomials. -/
def Q2 : List (ℕ × ℕ) :=
  [(0, 0), (1, 0), (0, 1), (2, 0), (1, 1), (0, 2), (2, 1), (1, 2), (2, 2)]
/-- Linear polynomials in three variables. -/
def P1₃ : List (ℕ × ℕ × ℕ) := [(0, 0, 0), (1, 0, 0), (0, 1, 0), (0, 0, 1)]
/-- Trilinear polynomials. -/
def Q1₃ : List (ℕ × ℕ × ℕ) :=
  [(0, 0, 0), (1, 0, 0), (0, 1, 0), (0, 0, 1), (1, 1, 0), (1, 0, 1), (0, 1, 1), (1, 1, 1)]

end

end Spec
end SolidsPy
