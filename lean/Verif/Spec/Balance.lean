import Verif.Spec.Equilibrium
import Verif.Spec.Bars

/-! Global balance of a plane structure and forces of bars on joints. -/

namespace SolidsPy
namespace Spec

section
variable {K : Type} [Field K]

/-- Coordinate `i` of node `p` (the columns after the id). -/
def coordOf (nodes : List (List K)) (p i : ℕ) : K := fieldOf nodes p (i + 1)

/-- Resultant of nodal forces in direction `j`. -/
def resultant (n : ℕ) (f : ℕ → ℕ → K) (j : ℕ) : K := ∑ p ∈ Finset.range n, f p j

/-- Moment of nodal forces about the origin. -/
def moment (nodes : List (List K)) (f : ℕ → ℕ → K) : K :=
  ∑ p ∈ Finset.range nodes.length, (coordOf nodes p 0 * f p 1 - coordOf nodes p 1 * f p 0)

/-- A bar of a truss: positions of its end nodes in the node table, end points, Young's modulus, area,
length. -/
structure Bar (K : Type) where
  ends : Fin 2 → ℕ
  X : Matrix (Fin 2) (Fin 2) K
  E : K
  A : K
  L : K

variable [LinearOrder K]

/-- The row `el` of the element table describes the bar `b`. -/
def IsBar (nodes mats : List (List K)) (el : List ℤ) (b : Bar K) : Prop :=
  ∃ (eid : ℤ) (mi : ℕ) (id : Fin 2 → K) (more : List K),
    el = [eid, 6, (mi : ℤ), (b.ends 0 : ℤ), (b.ends 1 : ℤ)] ∧ mats[mi]? = some (b.E :: b.A :: more) ∧
    (∀ a, nodes[b.ends a]? = some [id a, b.X a 0, b.X a 1]) ∧ IsLength b.X b.L

/-- Component `j` of the force the bars put on the joint `p` if bar `b` carries the tension `N`: the
reverse of the pull on the end of the bar. -/
def jointForce (bars : List (Bar K × K)) (p : ℕ) (j : Fin 2) : K :=
  -(bars.map fun b => ∑ a : Fin 2, if b.1.ends a = p then pull b.1.X b.1.L b.2 (a, j) else 0).sum

end

end Spec
end SolidsPy
