import Verif.Spec.Mesh

/-! Specification vocabulary for loads and displacements. -/

namespace SolidsPy
namespace Spec

/-- Degree of freedom `j` of node `p` is equation `i` (Python index resolution, -1 is "none"). -/
def DofEq (bc : List (List ℤ)) (neq p j i : ℕ) : Prop :=
  ∃ g, entry bc p j = some g ∧ g ≠ -1 ∧ Resolves neq g i

/-- Every constraint code is one of the two documented ones. -/
def ValidCons {K : Type} [Field K] (cons : List (List K)) (nd : ℕ) : Prop :=
  ∀ i j x, j < nd → entry cons i j = some x → x = 0 ∨ x = -1

/-- The load row names node `p` (of a table of `n` nodes): integer part of its first entry. -/
def Names {K : Type} [Field K] [LinearOrder K] (n : ℕ) (load : List K) (p : ℕ) : Prop :=
  ∃ (x : K) (z : ℤ), load[0]? = some x ∧ Resolves n z p ∧
    ((0 ≤ x ∧ (z : K) ≤ x ∧ x < z + 1) ∨ (x ≤ 0 ∧ (z : K) - 1 < x ∧ x ≤ z))

end Spec
end SolidsPy
