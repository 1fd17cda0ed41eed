import Mathlib.Data.Int.Notation
import Mathlib.Data.List.Basic
import Mathlib.Data.Nat.Notation

/-! Specification vocabulary for mesh tables. -/

namespace SolidsPy
namespace Spec

/-- The cells of a block that carry the physical tag, in order. -/
def tagged {α : Type} (cells : List α) (phys : List ℤ) (tag : ℤ) : List α :=
  ((cells.zip phys).filter fun x => x.2 = tag).map Prod.fst

/-- Number of nodes of the cell kinds known to `ele_writer`. -/
inductive KindNodes : String → ℕ → Prop
  | triangle : KindNodes "triangle" 3
  | triangle6 : KindNodes "triangle6" 6
  | quad : KindNodes "quad" 4

/-- `s` enumerates a set: no repetitions, same members. -/
def Enumerates (s : List ℤ → List ℤ) : Prop := ∀ l, (s l).Nodup ∧ ∀ v, v ∈ s l ↔ v ∈ l

end Spec
end SolidsPy
