import Verif.Spec.Bodies
import Mathlib.Data.List.Cycle

/-! Uniform stress in a solid body: forces on faces, faces of the boundary. -/

namespace SolidsPy
namespace Spec

section
variable {K : Type} [Field K]

/-- Cross product. -/
def crossed (x y : Fin 3 → K) : Fin 3 → K := ![x 1 * y 2 - x 2 * y 1, x 2 * y 0 - x 0 * y 2, x 0 * y 1 - x 1 * y 0]

/-- Position of a node of the node table. -/
def placeOf (nodes : List (List K)) (p : ℕ) : Fin 3 → K := fun i => coordOf nodes p i

/-- Vector area of a polygon of nodes: its area along its normal, seen from which the nodes go counterclockwise.  It does not
depend on the node at which one begins. -/
def areaOf (nodes : List (List K)) (f : Cycle ℕ) (i : Fin 3) : K :=
  Quotient.liftOn' f (fun l => ((l.zip (l.rotate 1)).map fun e => crossed (placeOf nodes e.1) (placeOf nodes e.2) i).sum / 2) (by
    rintro l l' ⟨n, rfl⟩
    have h : (l.rotate n).zip ((l.rotate n).rotate 1) = (l.zip (l.rotate 1)).rotate n := by
      rw [List.rotate_rotate, Nat.add_comm, ← List.rotate_rotate]
      exact (List.zipWith_rotate_distrib _ _ _ _ (List.length_rotate _ _).symm).symm
    rw [h, ((List.rotate_perm _ n).map _).sum_eq])

/-- Force of the uniform stress `s = (sxx, syy, szz, syz, sxz, sxy)` on a face of the given vector area. -/
def faceForce (s : Fin 6 → K) (v : Fin 3 → K) : Fin 3 → K :=
  ![s 0 * v 0 + s 5 * v 1 + s 4 * v 2, s 5 * v 0 + s 1 * v 1 + s 3 * v 2, s 4 * v 0 + s 3 * v 1 + s 2 * v 2]

/-- What a face contributes to the forces on node `p`: an equal share at each of its nodes. -/
def cornerForce (nodes : List (List K)) (s : Fin 6 → K) (p : ℕ) (j : Fin 3) (f : Cycle ℕ) : K :=
  if p ∈ f then faceForce s (areaOf nodes f) j / f.length else 0

/-- The faces of a tetrahedron (three nodes each) or of a brick (four nodes each), seen from outside counterclockwise. -/
def facesOf : List ℕ → List (Cycle ℕ)
  | [a, b, c, d] => [([a, c, b] : List ℕ), ([a, b, d] : List ℕ), ([b, c, d] : List ℕ), ([a, d, c] : List ℕ)]
  | [a, b, c, d, e, f, g, h] => [([a, d, c, b] : List ℕ), ([e, f, g, h] : List ℕ), ([a, b, f, e] : List ℕ), ([b, c, g, f] : List ℕ),
      ([c, d, h, g] : List ℕ), ([d, a, e, h] : List ℕ)]
  | _ => []

/-- The faces of all elements. -/
def allFaces (ms : List (Member K)) : List (Cycle ℕ) := ms.flatMap fun m => facesOf m.nodes

/-- The faces that belong to one element only. -/
def outerFaces (ms : List (Member K)) : List (Cycle ℕ) := (allFaces ms).filter fun f => f.reverse ∉ allFaces ms

/-- The strain `(exx, eyy, ezz, gyz, gxz, gxy)` of the displacement field with gradient `G`. -/
def strainOf3 (G : Matrix (Fin 3) (Fin 3) K) : Fin 6 → K :=
  ![G 0 0, G 1 1, G 2 2, G 1 2 + G 2 1, G 0 2 + G 2 0, G 0 1 + G 1 0]

end

end Spec
end SolidsPy
