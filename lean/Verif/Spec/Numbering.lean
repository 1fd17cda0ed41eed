import Mathlib.Algebra.Order.Field.Basic
import Mathlib.Data.List.Basic

/-! Specification vocabulary for tables and equation numbers. -/

namespace SolidsPy
namespace Spec

/-- The entry of a table at row `i`, column `j`, if there is one. -/
def entry {α : Type} (t : List (List α)) (i j : ℕ) : Option α := t[i]?.bind fun row => row[j]?

/-- Degree of freedom `j` of node `i` is free: its constraint value has integer part 0. -/
def Free {K : Type} [Field K] [LinearOrder K] (cons : List (List K)) (nd i j : ℕ) : Prop :=
  j < nd ∧ ∃ x, entry cons i j = some x ∧ -1 < x ∧ x < 1

/-- Position `(i, j)` comes before `(i', j')` in row-major order. -/
def Before (i j i' j' : ℕ) : Prop := i < i' ∨ (i = i' ∧ j < j')

end Spec
end SolidsPy
