import Verif.Spec.Numbering

/-! Specification vocabulary for meshes of quadrilaterals. -/

namespace SolidsPy
namespace Spec

section
variable {K : Type} [Field K]

/-- Twice the signed area swept from the origin along a chain of points. -/
def sweep : List (K × K) → K
  | p :: q :: l => (p.1 * q.2 - q.1 * p.2) + sweep (q :: l)
  | _ => 0

/-- Signed area of a polygon, positive for counter-clockwise vertices (shoelace formula). -/
def polyArea (l : List (K × K)) : K := sweep (l ++ l.take 1) / 2

/-- Corner points of an element row `[id, type, material, nodes...]`. -/
def corners (xs ys : List K) (row : List ℤ) : List (K × K) :=
  (row.drop 3).map fun v => (xs.getD v.toNat 0, ys.getD v.toNat 0)

end

/-- Directed sides of a cycle of nodes. -/
def sides (nodes : List ℤ) : List (ℤ × ℤ) := nodes.zip (nodes.drop 1 ++ nodes.take 1)

/-- All directed sides of the elements of a mesh. -/
def meshSides (els : List (List ℤ)) : List (ℤ × ℤ) := els.flatMap fun row => sides (row.drop 3)

/-- Both points lie on one common side of the rectangle `[x0, x1] x [y0, y1]`. -/
def OnSide {K : Type} (x0 x1 y0 y1 : K) (p q : K × K) : Prop :=
  (p.1 = x0 ∧ q.1 = x0) ∨ (p.1 = x1 ∧ q.1 = x1) ∨ (p.2 = y0 ∧ q.2 = y0) ∨ (p.2 = y1 ∧ q.2 = y1)

end Spec
end SolidsPy
