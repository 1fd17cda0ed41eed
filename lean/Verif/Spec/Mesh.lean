import Verif.Spec.Numbering

/-! Specification vocabulary for meshes. -/

namespace SolidsPy
namespace Spec

/-- Number of degrees of freedom of the documented element types: nodes times unknowns per node. -/
def TypeDofs (ty : ℤ) (n : ℕ) : Prop :=
  (ty = 1 ∧ n = 4 * 2) ∨ (ty = 2 ∧ n = 6 * 2) ∨ (ty = 3 ∧ n = 3 * 2) ∨ (ty = 4 ∧ n = 9 * 2) ∨
  (ty = 5 ∧ n = 2 * 2) ∨ (ty = 6 ∧ n = 2 * 2) ∨ (ty = 7 ∧ n = 2 * 3) ∨ (ty = 8 ∧ n = 2 * 3)

/-- Python resolves index `i` on a sequence of length `n` to position `k`. -/
def Resolves (n : ℕ) (i : ℤ) (k : ℕ) : Prop := k < n ∧ (i = k ∨ i + n = k)

instance (n : ℕ) (i : ℤ) (k : ℕ) : Decidable (Resolves n i k) := by
  unfold Resolves
  infer_instance

end Spec
end SolidsPy
