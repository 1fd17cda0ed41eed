import Verif.Spec.Grid
import Verif.Spec.Balance

/-! Uniform stress in a plane mesh: forces on sides, sides of the boundary. -/

namespace SolidsPy
namespace Spec

section
variable {K : Type} [Field K]

/-- Force of the uniform stress `s = (sx, sy, txy)` on the side from `p` to `q` of a body lying to the left
of it: traction on the outward normal times length. -/
def sideForce (s : Fin 3 → K) (p q : Fin 2 → K) : Fin 2 → K :=
  ![s 0 * (q 1 - p 1) - s 2 * (q 0 - p 0), s 2 * (q 1 - p 1) - s 1 * (q 0 - p 0)]

/-- Position of a node of the node table. -/
def posOf (nodes : List (List K)) (p : ℕ) : Fin 2 → K := fun i => coordOf nodes p i

/-- The strain `(exx, eyy, gxy)` of the displacement field with gradient `G`. -/
def strainOf (G : Matrix (Fin 2) (Fin 2) K) : Fin 3 → K := ![G 0 0, G 1 1, G 0 1 + G 1 0]

/-- What a side contributes to the forces on node `p`: half of its force at each end. -/
def endForce (nodes : List (List K)) (s : Fin 3 → K) (p : ℕ) (j : Fin 2) (e : ℕ × ℕ) : K :=
  (if e.1 = p then sideForce s (posOf nodes e.1) (posOf nodes e.2) j else 0) +
    (if e.2 = p then sideForce s (posOf nodes e.1) (posOf nodes e.2) j else 0)

/-- Directed sides of all elements. -/
def allSides (ms : List (Member K)) : List (ℕ × ℕ) := ms.flatMap fun m => m.nodes.zip (m.nodes.drop 1 ++ m.nodes.take 1)

/-- The sides that belong to one element only. -/
def outerSides (ms : List (Member K)) : List (ℕ × ℕ) :=
  (allSides ms).filter fun s => s.swap ∉ allSides ms

end

end Spec
end SolidsPy
