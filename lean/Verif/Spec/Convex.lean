import Verif.Spec.Rules
import Verif.Spec.Shape

/-! Shapes of elements: areas of triangles and quadrilaterals, areas at the corners, straight sides, volumes of
tetrahedra. -/

namespace SolidsPy
namespace Spec

section
variable {K : Type} [Field K]

/-- Twice the signed area of a triangle: positive when its corners go counterclockwise. -/
def turnArea (x y z : Fin 2 → K) : K := (y 0 - x 0) * (z 1 - x 1) - (y 1 - x 1) * (z 0 - x 0)

/-- Twice the signed area of the triangle that corner `a` of a quadrilateral forms with its two neighbours: positive when
the boundary turns left at `a`. -/
def cornerArea (X : Matrix (Fin 4) (Fin 2) K) (a : Fin 4) : K := turnArea (X a) (X (a + 1)) (X (a - 1))

/-- The signed area of a quadrilateral: two triangles on a diagonal. -/
def quadArea (X : Matrix (Fin 4) (Fin 2) K) : K :=
  (turnArea (X 0) (X 1) (X 2) + turnArea (X 0) (X 2) (X 3)) / 2

/-- The place in a triangle with corners `Q` of the point `(r, s)` of the reference triangle. -/
def inTriangle (Q : Matrix (Fin 3) (Fin 2) K) (p : K × K) (i : Fin 2) : K :=
  Q 0 i + p.1 * (Q 1 i - Q 0 i) + p.2 * (Q 2 i - Q 0 i)

/-- The place in a quadrilateral with corners `Q` of the point `(r, s)` of the reference square: one goes along the lower
and the upper side in proportion to `r`, then from the one point to the other in proportion to `s`. -/
def inQuad (Q : Matrix (Fin 4) (Fin 2) K) (p : K × K) (i : Fin 2) : K :=
  (1 - p.2) / 2 * ((1 - p.1) / 2 * Q 0 i + (1 + p.1) / 2 * Q 1 i) +
    (1 + p.2) / 2 * ((1 - p.1) / 2 * Q 3 i + (1 + p.1) / 2 * Q 2 i)

/-- Six times the signed volume of a tetrahedron. -/
def sixVolume (X : Matrix (Fin 4) (Fin 3) K) : K := (Matrix.of fun p i => X p.succ i - X 0 i : Matrix (Fin 3) (Fin 3) K).det

end

end Spec
end SolidsPy
