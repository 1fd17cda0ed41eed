import Verif.Spec.Mesh
import Verif.Basic
import Mathlib.Algebra.BigOperators.Ring.Finset

/-! Specification of assembly: the scatter-add double sum. -/

namespace SolidsPy
namespace Spec

/-- Local degree of freedom `r` of an element with operator row `op` is equation `i`. -/
def Hit (op : List ℤ) (neq r i : ℕ) : Prop :=
  ∃ g, op[r]? = some g ∧ g ≠ -1 ∧ Resolves neq g i

instance (op : List ℤ) (neq r i : ℕ) : Decidable (Hit op neq r i) := by
  unfold Hit Resolves
  cases h : op[r]? with
  | none => exact isFalse (by simp)
  | some g => exact decidable_of_iff (g ≠ -1 ∧ i < neq ∧ (g = i ∨ g + neq = i)) (by simp)

/-- Number of rows of a local array. -/
def rowsOf {K : Type} : NdArr K → ℕ
  | .vec n _ => n
  | .mat m _ _ => m

/-- Entry of a local matrix, 0 where there is none. -/
def cell {K : Type} [Zero K] : NdArr K → ℕ → ℕ → K
  | .vec _ _, _, _ => 0
  | .mat m n f, r, c => if h : r < m ∧ c < n then f ⟨r, h.1⟩ ⟨c, h.2⟩ else 0

/-- The local array has an entry `(r, c)`. -/
def HasCell {K : Type} : NdArr K → ℕ → ℕ → Prop
  | .vec _ _, _, _ => False
  | .mat m n _, r, c => r < m ∧ c < n

/-- Contribution of one element to entry `(i, j)`: the sum of the local entries `a r c`, for
`r, c < n`, whose operator entries are `i` and `j`. -/
def scatter {K : Type} [Field K] (op : List ℤ) (neq n : ℕ) (a : ℕ → ℕ → K) (i j : ℕ) : K :=
  ∑ r ∈ Finset.range n, ∑ c ∈ Finset.range n, if Hit op neq r i ∧ Hit op neq c j then a r c else 0

end Spec
end SolidsPy

namespace SolidsPy
namespace Spec

/-- `ue` holds the element values of the reduced vector `u`: component `r` is `u i` if the operator
sends `r` to equation `i`, and 0 if `r` has no equation. -/
def IsLocal {K : Type} [Field K] (op : List ℤ) {neq : ℕ} (u : Fin neq → K) (ue : ℕ → K) : Prop :=
  ∀ r, (∀ i : Fin neq, Hit op neq r i → ue r = u i) ∧ ((∀ i : Fin neq, ¬ Hit op neq r i) → ue r = 0)

/-- `v^T a u` on the first `n` indices. -/
def bilin {K : Type} [Field K] (n : ℕ) (a : ℕ → ℕ → K) (v u : ℕ → K) : K :=
  ∑ r ∈ Finset.range n, ∑ c ∈ Finset.range n, v r * a r c * u c

end Spec
end SolidsPy

namespace SolidsPy
namespace Spec

/-- A matrix as a list of rows (for the worked cases). -/
def matRows {K : Type} {m n : ℕ} (M : Matrix (Fin m) (Fin n) K) : List (List K) :=
  List.ofFn fun i => List.ofFn fun j => M i j

/-- A pair of matrices as lists of rows. -/
def accRows {K : Type} {m n : ℕ} (p : Matrix (Fin m) (Fin n) K × Matrix (Fin m) (Fin n) K) :
    List (List K) × List (List K) := (matRows p.1, matRows p.2)

end Spec
end SolidsPy
