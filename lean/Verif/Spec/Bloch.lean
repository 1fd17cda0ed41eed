import Verif.Spec.Mesh
import Mathlib.Analysis.Complex.Exponential

/-! # Vocabulary for the Bloch conditions -/

namespace SolidsPy
namespace Spec

/-- An image degree of freedom tied to a reference one, with the nodes they belong to. -/
structure Link where
  ima : ℤ
  ref : ℤ
  nodeIma : ℤ
  nodeRef : ℤ

/-- The ties described by the pairs of nodes and the degrees of freedom of the nodes. -/
def links (nodesIma nodesRef : List ℤ) (refDof imaDof : ℤ → Option (List ℤ)) : List Link :=
  (nodesIma.zip nodesRef).flatMap fun p =>
    (((refDof p.2).getD []).zip ((imaDof p.1).getD [])).map fun c => ⟨c.2, c.1, p.1, p.2⟩

/-- The ties tie every image degree of freedom once, to a degree of freedom that is not an image. -/
structure Pairing (ndofs : ℕ) (dofsIma : List ℤ) (L : List Link) : Prop where
  image : ∀ l ∈ L, l.ima ∈ dofsIma
  once : (L.map Link.ima).Nodup
  all : ∀ d : ℕ, d < ndofs → (d : ℤ) ∈ dofsIma → ∃ l ∈ L, l.ima = d
  source : ∀ l ∈ L, l.ref ∉ dofsIma ∧ 0 ≤ l.ref ∧ l.ref < ndofs

/-- `φ` is the product of the wave vector and the vector from node `r` to node `i`. -/
def Shift (wave : List ℝ) (coords : List (List ℝ)) (i r : ℤ) (φ : ℝ) : Prop :=
  ∃ ki kr xi xr, Resolves coords.length i ki ∧ Resolves coords.length r kr ∧ coords[ki]? = some xi ∧
    coords[kr]? = some xr ∧ wave.length = min xi.length xr.length ∧
    φ = ∑ t : Fin wave.length, wave.getD t 0 * (xi.getD t 0 - xr.getD t 0)

end Spec
end SolidsPy
