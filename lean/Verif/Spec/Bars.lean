import Verif.Spec.Rules
import Mathlib.Algebra.Polynomial.Derivative

/-! Bars: two nodes in the plane, with the length as the positive root of the sum of squares. -/

namespace SolidsPy
namespace Spec

section
variable {K : Type} [Field K] [LinearOrder K] {d n : ℕ}

/-- `sq` is the square root on non-negative numbers. -/
def SqrtFn (sq : K → K) : Prop := ∀ x, 0 ≤ x → 0 ≤ sq x ∧ sq x * sq x = x

/-- The routine returns stiffness `k` and mass `m` on the coordinate array `coord`. -/
def Gives (f : Uel K) (coord : Table K) (params : List K)
    (k m : Matrix (Fin n × Fin d) (Fin n × Fin d) K) : Prop :=
  ∃ A B, f coord params = .ok (A, B) ∧ Holds A k ∧ Holds B m

/-- `L` is the (non-zero) length of the bar. -/
def IsLength (X : Matrix (Fin 2) (Fin 2) K) (L : K) : Prop :=
  0 < L ∧ L * L = (X 1 0 - X 0 0) ^ 2 + (X 1 1 - X 0 1) ^ 2

/-- Elongation of the bar in the displacement `u`, to first order: relative displacement of the ends
along the bar. -/
def elongation (X : Matrix (Fin 2) (Fin 2) K) (L : K) (u : Fin 2 × Fin 2 → K) : K :=
  ((X 1 0 - X 0 0) * (u (1, 0) - u (0, 0)) + (X 1 1 - X 0 1) * (u (1, 1) - u (0, 1))) / L

/-- A pull of magnitude `N` at both ends of the bar, outwards. -/
def pull (X : Matrix (Fin 2) (Fin 2) K) (L N : K) : Fin 2 × Fin 2 → K
  | (0, i) => -(N * ((X 1 i - X 0 i) / L))
  | (1, i) => N * ((X 1 i - X 0 i) / L)

/-- The other node. -/
def other : Fin 2 → Fin 2 := ![1, 0]

/-- Displacements and rotation of the ends of a beam moved as a rigid body: translation `c`, rotation
`w` about the origin. -/
def rigid (X : Matrix (Fin 2) (Fin 2) K) (c : Fin 2 → K) (w : K) : Fin 2 × Fin 3 → K
  | (a, 0) => c 0 - w * X a 1
  | (a, 1) => c 1 + w * X a 0
  | (_, 2) => w

end

end Spec
end SolidsPy

namespace SolidsPy
namespace Spec

/-- Element `e` of a truss joins nodes with coordinates `X`, has Young's modulus `E`, area `A`, and its
ends have displacements `u`. -/
def BarMember {K : Type} (nodes : Table K) (elements : List (List ℤ)) (mats disp : Table K) (e : ℕ)
    (X : Matrix (Fin 2) (Fin 2) K) (E A : K) (u : Fin 2 × Fin 2 → K) : Prop :=
  ∃ (el : List ℤ) (mi : ℕ) (nd : Fin 2 → ℕ) (id : Fin 2 → K) (cols : Fin 2 → List K) (more : List K),
    elements[e]? = some el ∧ el[2]? = some (mi : ℤ) ∧
    el[3]? = some (nd 0 : ℤ) ∧ el[4]? = some (nd 1 : ℤ) ∧ mats[mi]? = some (E :: A :: more) ∧
    ∀ a, nodes[nd a]? = some (id a :: X a 0 :: X a 1 :: cols a) ∧
      disp[nd a]? = some [u (a, 0), u (a, 1)]

end Spec
end SolidsPy

namespace SolidsPy
namespace Spec

section
variable {K : Type} [Field K]

/-- Parameters of `beam2DU`: Young's modulus, second moment of area, and mass per unit length (the product
of density and area, one when they are not given). -/
def BeamUParams (params : List K) (E I μ : K) : Prop :=
  (params = [E, I] ∧ μ = 1) ∨ ∃ ρ A, params = [E, I, ρ, A] ∧ μ = ρ * A

/-- Parameters of `beam2D`: Young's modulus, non-zero second moment of area, area, and mass per unit
length. -/
def BeamParams (params : List K) (E I A μ : K) : Prop :=
  I ≠ 0 ∧ ((params = [E, I, A] ∧ μ = A) ∨ ∃ ρ, params = [E, I, A, ρ] ∧ μ = ρ * A)

/-- The mirror image of a bar in the horizontal axis. -/
def mirror (X : Matrix (Fin 2) (Fin 2) K) : Matrix (Fin 2) (Fin 2) K :=
  Matrix.of fun a i => if i = 0 then X a 0 else -X a 1

/-- The deflection and slope of the ends of a horizontal beam bent to the curve `P`. -/
noncomputable def bent (P : Polynomial K) (L p0 p1 : K) : Fin 2 × Fin 3 → K := fun q =>
  (!![p0, P.eval 0, P.derivative.eval 0; p1, P.eval L, P.derivative.eval L] : Matrix (Fin 2) (Fin 3) K) q.1 q.2

/-- The end forces of a horizontal beam with axial force `N` bent to the curve `P`: shear is `E I` times
the third derivative, moment `E I` times the second. -/
noncomputable def endForces (P : Polynomial K) (L EI N : K) : Fin 2 × Fin 3 → K := fun q =>
  (!![-N, EI * P.derivative.derivative.derivative.eval 0, -(EI * P.derivative.derivative.eval 0);
    N, -(EI * P.derivative.derivative.derivative.eval L), EI * P.derivative.derivative.eval L] :
    Matrix (Fin 2) (Fin 3) K) q.1 q.2

end

end Spec
end SolidsPy
