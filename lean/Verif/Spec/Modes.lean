import Verif.Spec.Element

/-! Affine elements: images of the reference element under an affine map. -/

namespace SolidsPy
namespace Spec

section
variable {K : Type} [Field K] {n : ℕ}

/-- The reference nodes `ref` mapped by `x ↦ c + A x`. -/
def AffineShape (ref : Fin n → K × K) (c : Fin 2 → K) (A : Matrix (Fin 2) (Fin 2) K)
    (X : Matrix (Fin n) (Fin 2) K) : Prop :=
  ∀ a i, X a i = c i + A i 0 * (ref a).1 + A i 1 * (ref a).2

/-- The same in space. -/
def AffineSolid (ref : Fin n → K × K × K) (c : Fin 3 → K) (A : Matrix (Fin 3) (Fin 3) K)
    (X : Matrix (Fin n) (Fin 3) K) : Prop :=
  ∀ a i, X a i = c i + A i 0 * (ref a).1 + A i 1 * (ref a).2.1 + A i 2 * (ref a).2.2

/-- The first eight nodes of the reference square. -/
def quadNode8 (a : Fin 8) : K × K := quadNode a.castSucc

end

section
variable {K : Type} [Field K] [LinearOrder K]

/-- The quadratic plane routines with their reference nodes. -/
inductive Quadratic : (n : ℕ) → Uel K → (Fin n → K × K) → Prop
  | tri6 : Quadratic 6 Uel.elastTri6 triNode
  | quad9 : Quadratic 9 Uel.elastQuad9 quadNode
  | quad8 : Quadratic 8 Uel.elastQuad8 quadNode8

end

end Spec
end SolidsPy
