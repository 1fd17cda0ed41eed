import Verif.Spec.Balance
import Verif.Spec.Modes
import Mathlib.Logic.Relation

/-! Rigid motions of plane meshes, connected meshes, supports. -/

namespace SolidsPy
namespace Spec

/-- A small plane rigid motion: a translation and a rotation about the origin. -/
structure Motion (K : Type) where
  x : K
  y : K
  spin : K

section
variable {K : Type} [Field K]

/-- Displacement of node `p` in direction `j`. -/
def Motion.move (g : Motion K) (nodes : List (List K)) (p j : ℕ) : K :=
  if j = 0 then g.x - g.spin * coordOf nodes p 1 else g.y + g.spin * coordOf nodes p 0

/-- The two nodes are at different places. -/
def Apart (nodes : List (List K)) (p q : ℕ) : Prop :=
  coordOf nodes p 0 ≠ coordOf nodes q 0 ∨ coordOf nodes p 1 ≠ coordOf nodes q 1

/-- The two elements have two nodes at different places in common (as when they share a side). -/
def Shares (nodes : List (List K)) (m m' : Member K) : Prop :=
  ∃ p q, p ∈ m.nodes ∧ q ∈ m.nodes ∧ p ∈ m'.nodes ∧ q ∈ m'.nodes ∧ Apart nodes p q

/-- One can go from any element to any other across shared sides. -/
def Connected (nodes : List (List K)) (ms : List (Member K)) : Prop :=
  ∀ m ∈ ms, ∀ m' ∈ ms, Relation.ReflTransGen (fun a b => b ∈ ms ∧ Shares nodes a b) m m'

/-- The nodes of the element are the image of the reference nodes under an affine map. -/
def Straight {n : ℕ} (nodes : List (List K)) (ref : Fin n → K × K) (el : List ℤ) : Prop :=
  ∃ (ps : List ℕ) (c : Fin 2 → K) (A : Matrix (Fin 2) (Fin 2) K), List.Forall₂ (Resolves nodes.length) (el.drop 3) ps ∧
    ∀ (a : Fin n) (i : Fin 2), coordOf nodes (ps.getD a 0) i = c i + A i 0 * (ref a).1 + A i 1 * (ref a).2

/-- The element is a bilinear quadrilateral or linear triangle, or quadratic with straight sides and evenly
spaced nodes. -/
def Firm (nodes : List (List K)) (el : List ℤ) : Prop :=
  ∀ ty, el[1]? = some ty → ty = 1 ∨ ty = 3 ∨ (ty = 2 ∧ Straight nodes triNode el) ∨
    (ty = 4 ∧ Straight nodes quadNode el)

variable [LinearOrder K]

/-- The supports prevent every rigid motion. -/
def Supported (cons nodes : List (List K)) : Prop :=
  ∀ g : Motion K, Admissible cons 2 (g.move nodes) →
    ∀ p j, p < cons.length → j < 2 → g.move nodes p j = 0

end

end Spec
end SolidsPy
