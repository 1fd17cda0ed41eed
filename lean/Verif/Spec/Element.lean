import Verif.Spec.Shape
import Verif.Spec.Scatter
import Verif.Model.Uel

/-! Vocabulary for statements about shape and element routines: which routines there are, and how an
element is given. The coordinate array of an element is `matRows X`, `X` having one row per node. -/

namespace SolidsPy
namespace Spec

section
variable {K : Type} [Field K] [LinearOrder K]

/-- The plane shape routines, with their number of nodes. -/
inductive PlaneShape : (n : ℕ) → (K → K → Fem.Shape K 2 n) → Prop
  | tri3 : PlaneShape 3 Fem.shapeTri3
  | tri6 : PlaneShape 6 Fem.shapeTri6
  | quad4 : PlaneShape 4 Fem.shapeQuad4
  | quad8 : PlaneShape 8 Fem.shapeQuad8
  | quad9 : PlaneShape 9 Fem.shapeQuad9

/-- The solid shape routines. -/
inductive SolidShape : (n : ℕ) → (K → K → K → Fem.Shape K 3 n) → Prop
  | tet4 : SolidShape 4 Fem.shapeTet4
  | hex8 : SolidShape 8 Fem.shapeHex8

/-- The plane continuum element routines, with their number of nodes. -/
inductive PlaneElement : ℕ → Uel K → Prop
  | tri3 : PlaneElement 3 Uel.elastTri3
  | tri6 : PlaneElement 6 Uel.elastTri6
  | quad4 : PlaneElement 4 Uel.elastQuad4
  | quad9 : PlaneElement 9 Uel.elastQuad9
  | quad8 : PlaneElement 8 Uel.elastQuad8

/-- The solid continuum element routines. -/
inductive SolidElement : ℕ → Uel K → Prop
  | tet4 : SolidElement 4 Uel.elastTet4
  | hex8 : SolidElement 8 Uel.elastHex8

end

section
variable {K : Type} [Field K]

/-- Position of the point with shape function values `N` in an element with node coordinates `X`. -/
def place {n d : ℕ} (N : Fin n → K) (X : Matrix (Fin n) (Fin d) K) (i : Fin d) : K :=
  ∑ a, N a * X a i

/-- The affine field `c + G x`. -/
def affine {d : ℕ} (c : Fin d → K) (G : Matrix (Fin d) (Fin d) K) (x : Fin d → K) (i : Fin d) : K :=
  c i + ∑ j, G i j * x j

/-- Nodal values of a field. -/
def sample {n d : ℕ} (X : Matrix (Fin n) (Fin d) K) (u : (Fin d → K) → Fin d → K) : Fin n × Fin d → K :=
  fun p => u (X p.1) p.2

end

end Spec
end SolidsPy
