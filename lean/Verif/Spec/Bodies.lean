import Verif.Spec.Motion

/-! Rigid motions, moments and supports of bodies in three dimensions. -/

namespace SolidsPy
namespace Spec

/-- A small rigid motion in space: a translation and a rotation about the origin. -/
structure Screw (K : Type) where
  shift : Fin 3 → K
  spin : Fin 3 → K

section
variable {K : Type} [Field K]

/-- Displacement of node `p` in direction `j`: the translation plus `spin × x`. -/
def Screw.move (g : Screw K) (nodes : List (List K)) (p j : ℕ) : K :=
  if j = 0 then g.shift 0 + g.spin 1 * coordOf nodes p 2 - g.spin 2 * coordOf nodes p 1
  else if j = 1 then g.shift 1 + g.spin 2 * coordOf nodes p 0 - g.spin 0 * coordOf nodes p 2
  else g.shift 2 + g.spin 0 * coordOf nodes p 1 - g.spin 1 * coordOf nodes p 0

/-- Moment of nodal forces about the axis normal to the coordinate directions `a` and `b`. -/
def moment3 (nodes : List (List K)) (f : ℕ → ℕ → K) (a b : ℕ) : K :=
  ∑ p ∈ Finset.range nodes.length, (coordOf nodes p a * f p b - coordOf nodes p b * f p a)

/-- Twice the area of the projection of the triangle `p q r` on the coordinate directions `a` and `b`. -/
def spread (nodes : List (List K)) (p q r a b : ℕ) : K :=
  (coordOf nodes q a - coordOf nodes p a) * (coordOf nodes r b - coordOf nodes p b) -
    (coordOf nodes q b - coordOf nodes p b) * (coordOf nodes r a - coordOf nodes p a)

/-- The three nodes are not on a line. -/
def Bent (nodes : List (List K)) (p q r : ℕ) : Prop :=
  spread nodes p q r 0 1 ≠ 0 ∨ spread nodes p q r 1 2 ≠ 0 ∨ spread nodes p q r 2 0 ≠ 0

/-- The two elements have three nodes that are not on a line in common (as when they share a face). -/
def SharesFace (nodes : List (List K)) (m m' : Member K) : Prop :=
  ∃ p q r, p ∈ m.nodes ∧ q ∈ m.nodes ∧ r ∈ m.nodes ∧ p ∈ m'.nodes ∧ q ∈ m'.nodes ∧ r ∈ m'.nodes ∧ Bent nodes p q r

/-- One can go from any element to any other across shared faces. -/
def OnePiece (nodes : List (List K)) (ms : List (Member K)) : Prop :=
  ∀ m ∈ ms, ∀ m' ∈ ms, Relation.ReflTransGen (fun a b => b ∈ ms ∧ SharesFace nodes a b) m m'

/-- The nodes of the element are the image of those of the reference cube under an affine map. -/
def Brick (nodes : List (List K)) (ref : Fin 8 → K × K × K) (m : Member K) : Prop :=
  ∃ (c : Fin 3 → K) (A : Matrix (Fin 3) (Fin 3) K), ∀ (a : Fin 8) (i : Fin 3),
    coordOf nodes (m.nodes.getD a 0) i = c i + A i 0 * (ref a).1 + A i 1 * (ref a).2.1 + A i 2 * (ref a).2.2

variable [LinearOrder K]

/-- The supports prevent every rigid motion. -/
def Held (cons nodes : List (List K)) : Prop :=
  ∀ g : Screw K, Admissible cons 3 (g.move nodes) → ∀ p j, p < cons.length → j < 3 → g.move nodes p j = 0

end

end Spec
end SolidsPy
