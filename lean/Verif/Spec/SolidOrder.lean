import Mathlib.GroupTheory.Perm.Sign
import Mathlib.Data.Fin.VecNotation
import Mathlib.Data.Int.Order.Units

/-! The orders in which the corners of a tetrahedron or a brick may be listed. -/

namespace SolidsPy
namespace Spec
open Equiv

/-- The sides on which the corners of a brick lie, in each of its three directions. -/
def hexSide : Fin 8 → Fin 3 → ℤˣ :=
  ![![-1, -1, -1], ![1, -1, -1], ![1, 1, -1], ![-1, 1, -1], ![-1, -1, 1], ![1, -1, 1], ![1, 1, 1], ![-1, 1, 1]]

/-- `σ` is a symmetry of the cube: the direction `k` becomes the direction `π k`, with its sense if `c k = 1` and against it
if `c k = -1`.  The symmetry is a rotation if `ε = 1`, and it exchanges right and left if `ε = -1`. -/
def CubeSymmetry (ε : ℤˣ) (σ : Perm (Fin 8)) : Prop :=
  ∃ (π : Perm (Fin 3)) (c : Fin 3 → ℤˣ), (∀ a k, hexSide (σ a) (π k) = c k * hexSide a k) ∧ (∏ k, c k) * Perm.sign π = ε

/-- `σ` renumbers the corners of an element of `n` nodes (a tetrahedron or a brick), keeping right and left if `ε = 1`, exchanging
them if `ε = -1`. -/
def Reorders : (n : ℕ) → ℤˣ → Perm (Fin n) → Prop
  | 4, ε, σ => Perm.sign σ = ε
  | 8, ε, σ => CubeSymmetry ε σ
  | _, _, _ => False

end Spec
end SolidsPy
