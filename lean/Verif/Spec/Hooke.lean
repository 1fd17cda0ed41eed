import Mathlib.LinearAlgebra.Matrix.Notation
import Mathlib.LinearAlgebra.Matrix.Trace
import Mathlib.Data.Matrix.Mul

/-! Isotropic linear elasticity, stated with stress and strain tensors and engineering constants. -/

namespace SolidsPy
namespace Spec

section
variable {K : Type} [Field K]

/-- Hooke's law: `E ε = (1 + ν) σ - ν (tr σ) I`. -/
def Hooke (E nu : K) (ε σ : Matrix (Fin 3) (Fin 3) K) : Prop :=
  E • ε = (1 + nu) • σ - (nu * σ.trace) • 1

/-- Tensor of the engineering strains xx, yy, zz, yz, xz, xy. -/
def strainTensor (e : Fin 6 → K) : Matrix (Fin 3) (Fin 3) K :=
  !![e 0, e 5 / 2, e 4 / 2;
     e 5 / 2, e 1, e 3 / 2;
     e 4 / 2, e 3 / 2, e 2]

/-- Tensor of the stresses xx, yy, zz, yz, xz, xy. -/
def stressTensor (s : Fin 6 → K) : Matrix (Fin 3) (Fin 3) K :=
  !![s 0, s 5, s 4;
     s 5, s 1, s 3;
     s 4, s 3, s 2]

/-- Positive definite quadratic form. -/
def PosForm [LT K] {m : ℕ} (C : Matrix (Fin m) (Fin m) K) : Prop :=
  ∀ e : Fin m → K, e ≠ 0 → 0 < dotProduct e (C.mulVec e)

end

end Spec
end SolidsPy
