import Verif.Spec.Equilibrium

/-! Work and energy of a structure, at the level of nodes. -/

namespace SolidsPy
namespace Spec

section
variable {K : Type} [Field K]

/-- Work of the nodal forces `F` on the nodal displacements `V` of `n` nodes. -/
def work (n : ℕ) (F V : ℕ → ℕ → K) : K :=
  ∑ p ∈ Finset.range n, ∑ j ∈ Finset.range 2, V p j * F p j

/-- Elastic energy stored by the elements. -/
def strainEnergy (ms : List (Member K)) (V : ℕ → ℕ → K) : K :=
  1 / 2 * (ms.map fun m => m.form 2 V V).sum

/-- Potential energy: stored energy minus the work of the loads. -/
def potential (n : ℕ) (ms : List (Member K)) (F V : ℕ → ℕ → K) : K :=
  strainEnergy ms V - work n F V

end

end Spec
end SolidsPy
