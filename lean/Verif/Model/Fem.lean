import Verif.Basic
import Verif.Model.Gauss
import Mathlib.LinearAlgebra.Matrix.Notation
import Mathlib.LinearAlgebra.Matrix.Determinant.Basic
import Mathlib.LinearAlgebra.Matrix.Adjugate
import Mathlib.Algebra.Order.AbsoluteValue.Basic

/-!
# Model of `solidspy/femutil.py`

Degrees of freedom of an element are indexed by `Fin n × Fin d` (node, component).
-/

namespace SolidsPy
namespace Fem

section shapes
variable {K : Type} [Field K]

/-- Values and derivatives of `n` shape functions in dimension `d`. -/
abbrev Shape (K : Type) (d n : ℕ) := (Fin n → K) × Matrix (Fin d) (Fin n) K

/-- `shape_tri3(r, s)`.  `/repo/solidspy/femutil.py:73-118`. -/
def shapeTri3 (r s : K) : Shape K 2 3 :=
  (![1 - r - s, r, s],
   !![-1, 1, 0;
      -1, 0, 1])

/-- `shape_tri6(r, s)`.  `/repo/solidspy/femutil.py:121-150`. -/
def shapeTri6 (r s : K) : Shape K 2 6 :=
  (![(1 - r - s) - 2*r*(1 - r - s) - 2*s*(1 - r - s),
     r - 2*r*(1 - r - s) - 2*r*s,
     s - 2*r*s - 2*s*(1-r-s),
     4*r*(1 - r - s),
     4*r*s,
     4*s*(1 - r - s)],
   !![4*r + 4*s - 3, 4*r - 1, 0, -8*r - 4*s + 4, 4*s, -4*s;
      4*r + 4*s - 3, 0, 4*s - 1, -4*r, 4*r, -4*r - 8*s + 4])

/-- `shape_quad4(r, s)`.  `/repo/solidspy/femutil.py:153-202`. -/
def shapeQuad4 (r s : K) : Shape K 2 4 :=
  ((0.25 : K) • ![(1 - r)*(1 - s),
     (1 + r)*(1 - s),
     (1 + r)*(1 + s),
     (1 - r)*(1 + s)],
   (0.25 : K) • !![s - 1, -s + 1, s + 1, -s - 1;
      r - 1, -r - 1, r + 1, -r + 1])

/-- `shape_quad9(r, s)`.  `/repo/solidspy/femutil.py:205-253`. -/
def shapeQuad9 (r s : K) : Shape K 2 9 :=
  (![0.25*r*s*(r - 1.0)*(s - 1.0),
     0.25*r*s*(r + 1.0)*(s - 1.0),
     0.25*r*s*(r + 1.0)*(s + 1.0),
     0.25*r*s*(r - 1.0)*(s + 1.0),
     0.5*s*(-r^2 + 1.0)*(s - 1.0),
     0.5*r*(r + 1.0)*(-s^2 + 1.0),
     0.5*s*(-r^2 + 1.0)*(s + 1.0),
     0.5*r*(r - 1.0)*(-s^2 + 1.0),
     (-r^2 + 1.0)*(-s^2 + 1.0)],
   ![![0.25*s*(2.0*r - 1.0)*(s - 1.0),
       0.25*s*(2.0*r + 1.0)*(s - 1.0),
       0.25*s*(2.0*r + 1.0)*(s + 1.0),
       0.25*s*(2.0*r - 1.0)*(s + 1.0),
       r*s*(-s + 1.0),
       -0.5*(2.0*r + 1.0)*(s^2 - 1.0),
       -r*s*(s + 1.0),
       0.5*(-2.0*r + 1.0)*(s^2 - 1.0),
       2.0*r*(s^2 - 1.0)],
     ![0.25*r*(r - 1.0)*(2.0*s - 1.0),
       0.25*r*(r + 1.0)*(2.0*s - 1.0),
       0.25*r*(r + 1.0)*(2.0*s + 1.0),
       0.25*r*(r - 1.0)*(2.0*s + 1.0),
       0.5*(r^2 - 1.0)*(-2.0*s + 1.0),
       -r*s*(r + 1.0),
       -0.5*(r^2 - 1.0)*(2.0*s + 1.0),
       r*s*(-r + 1.0),
       2.0*s*(r^2 - 1.0)]])

/-- `shape_quad8(r, s)`.  `/repo/solidspy/femutil.py:257-302`. -/
def shapeQuad8 (r s : K) : Shape K 2 8 :=
  ((0.25 : K) • ![
     (1.0 - r)*(1.0 - s) - (1.0 - r)*(1.0 - s^2) - (1.0 - s)*(1.0 - r^2),
     (1.0 + r)*(1.0 - s) - (1.0 + r)*(1.0 - s^2) - (1.0 - s)*(1.0 - r^2),
     (1.0 + r)*(1.0 + s) - (1.0 + r)*(1.0 - s^2) - (1.0 + s)*(1.0 - r^2),
     (1.0 - r)*(1.0 + s) - (1.0 - r)*(1.0 - s^2) - (1.0 + s)*(1.0 - r^2),
     2.0*(1.0 - s)*(1.0 - r^2),
     2.0*(1.0 + r)*(1.0 - s^2),
     2.0*(1.0 + s)*(1.0 - r^2),
     2.0*(1.0 - r)*(1.0 - s^2)],
   (0.25 : K) • ![
     ![-2.0*r*(s - 1.0) - s^2 + s,
       -2.0*r*(s - 1.0) + s^2 - s,
       -2.0*r*(-s - 1.0) + s^2 + s,
       -2.0*r*(-s - 1.0) - s^2 - s,
       -2.0*r*(2.0 - 2.0*s),
       2.0 - 2.0*s^2,
       -2.0*r*(2.0*s + 2.0),
       2.0*s^2 - 2.0],
     ![-r^2 + r - 2.0*s*(r - 1.0),
       -r^2 - r - 2.0*s*(-r - 1.0),
       r^2 + r - 2.0*s*(-r - 1.0),
       r^2 - r - 2.0*s*(r - 1.0),
       2.0*r^2 - 2.0,
       -2.0*s*(2.0*r + 2.0),
       2.0 - 2.0*r^2,
       -2.0*s*(2.0 - 2.0*r)]])

/-- `shape_tet4(r, s, t)`.  `/repo/solidspy/femutil.py:306-332`. -/
def shapeTet4 (r s t : K) : Shape K 3 4 :=
  (![1 - r - s - t, r, s, t],
   !![-1, 1, 0, 0;
      -1, 0, 1, 0;
      -1, 0, 0, 1])

/-- `shape_hex8(r, s, t)`.  `/repo/solidspy/femutil.py:335-374`. -/
def shapeHex8 (r s t : K) : Shape K 3 8 :=
  ((0.125 : K) • ![
     (1 - r)*(1 - s)*(1 - t), (1 - s)*(1 - t)*(r + 1),
     (1 - t)*(r + 1)*(s + 1), (1 - r)*(1 - t)*(s + 1),
     (1 - r)*(1 - s)*(t + 1), (1 - s)*(r + 1)*(t + 1),
     (r + 1)*(s + 1)*(t + 1), (1 - r)*(s + 1)*(t + 1)],
   (0.125 : K) • ![
     ![(1 - t)*(s - 1), (1 - s)*(1 - t),
       (1 - t)*(s + 1), (1 - t)*(-s - 1),
       (1 - s)*(-t - 1), (1 - s)*(t + 1),
       (s + 1)*(t + 1), -(s + 1)*(t + 1)],
     ![(1 - t)*(r - 1), (1 - t)*(-r - 1),
       (1 - t)*(r + 1), (1 - r)*(1 - t),
       -(1 - r)*(t + 1), -(r + 1)*(t + 1),
       (r + 1)*(t + 1), (1 - r)*(t + 1)],
     ![-(1 - r)*(1 - s), -(1 - s)*(r + 1),
       -(r + 1)*(s + 1), -(1 - r)*(s + 1),
       (1 - r)*(1 - s), (1 - s)*(r + 1),
       (r + 1)*(s + 1), (1 - r)*(s + 1)]])

end shapes

section kinematics
variable {K : Type} [Field K] [LinearOrder K]

/-- `np.isclose(a, b)` with NumPy's default `rtol = 1e-5`, `atol = 1e-8`. -/
def isclose (a b : K) : Bool := decide (|a - b| ≤ 1e-8 + 1e-5 * |b|)

/-- `jacoper(dNdr, coord)`.  `/repo/solidspy/femutil.py:508-536`.
`np.linalg.inv` is `det⁻¹ • adjugate` (the determinant is not zero when it is reached). -/
def jacoper {d n : ℕ} (dNdr : Matrix (Fin d) (Fin n) K) (coord : Matrix (Fin n) (Fin d) K) :
    Py (K × Matrix (Fin d) (Fin d) K) :=
  let jaco := dNdr * coord
  let det := jaco.det
  if isclose |det| 0 then .error .valueError
  else
    let jacoInv := det⁻¹ • jaco.adjugate
    if det < 0 then .error .valueError
    else .ok (det, jacoInv)

/-- `H`, `B` and `det` at a point. -/
abbrev Diff (K : Type) (n d q : ℕ) :=
  Matrix (Fin d) (Fin n × Fin d) K × Matrix (Fin q) (Fin n × Fin d) K × K

/-- The `H` array of the plane and axisymmetric routines: `H[0, 0::2] = N`, `H[1, 1::2] = N`.
`/repo/solidspy/femutil.py:405-408`. -/
def hMat2 {n : ℕ} (N : Fin n → K) : Matrix (Fin 2) (Fin n × Fin 2) K :=
  Matrix.of fun i a => ![![N a.1, 0],
                         ![0, N a.1]] i a.2

/-- The `B` array of `elast_diff_2d` from `dNdx`.  `/repo/solidspy/femutil.py:406-412`. -/
def bMat2 {n : ℕ} (dNdx : Matrix (Fin 2) (Fin n) K) : Matrix (Fin 3) (Fin n × Fin 2) K :=
  Matrix.of fun i a => ![![dNdx 0 a.1, 0],
                         ![0, dNdx 1 a.1],
                         ![dNdx 1 a.1, dNdx 0 a.1]] i a.2

/-- `elast_diff_2d(r, s, coord, element)`; `sh` is `element(r, s)`.
`/repo/solidspy/femutil.py:378-413`. -/
def elastDiff2d {n : ℕ} (sh : Shape K 2 n) (coord : Matrix (Fin n) (Fin 2) K) :
    Py (Diff K n 2 3) := do
  let (det, jacoInv) ← jacoper sh.2 coord
  let dNdx := jacoInv * sh.2
  pure (hMat2 sh.1, bMat2 dNdx, det)

/-- The `B` array of `elast_diff_axi`.  `/repo/solidspy/femutil.py:447-455`. -/
def bMatAxi {n : ℕ} (N : Fin n → K) (x : K) (dNdx : Matrix (Fin 2) (Fin n) K) :
    Matrix (Fin 4) (Fin n × Fin 2) K :=
  Matrix.of fun i a => ![![dNdx 0 a.1, 0],
                         ![0, dNdx 1 a.1],
                         ![dNdx 1 a.1, dNdx 0 a.1],
                         ![N a.1 / x, 0]] i a.2

/-- `elast_diff_axi(r, s, coord, element)`.  `/repo/solidspy/femutil.py:416-456`.
`N/x` with `x = 0` gives infinities (`nonFinite`). -/
def elastDiffAxi {n : ℕ} (sh : Shape K 2 n) (coord : Matrix (Fin n) (Fin 2) K) :
    Py (Diff K n 2 4) := do
  let x := ∑ a, sh.1 a * coord a 0
  if x < 0 then throw .valueError
  let (det, jacoInv) ← jacoper sh.2 coord
  let dNdx := jacoInv * sh.2
  if x = 0 then throw .nonFinite
  pure (hMat2 sh.1, bMatAxi sh.1 x dNdx, det)

/-- The `H` array of `elast_diff_3d`.  `/repo/solidspy/femutil.py:490-494`. -/
def hMat3 {n : ℕ} (N : Fin n → K) : Matrix (Fin 3) (Fin n × Fin 3) K :=
  Matrix.of fun i a => ![![N a.1, 0, 0],
                         ![0, N a.1, 0],
                         ![0, 0, N a.1]] i a.2

/-- The `B` array of `elast_diff_3d`.  `/repo/solidspy/femutil.py:491-503`. -/
def bMat3 {n : ℕ} (dNdx : Matrix (Fin 3) (Fin n) K) : Matrix (Fin 6) (Fin n × Fin 3) K :=
  Matrix.of fun i a => ![![dNdx 0 a.1, 0, 0],
                         ![0, dNdx 1 a.1, 0],
                         ![0, 0, dNdx 2 a.1],
                         ![0, dNdx 2 a.1, dNdx 1 a.1],
                         ![dNdx 2 a.1, 0, dNdx 0 a.1],
                         ![dNdx 1 a.1, dNdx 0 a.1, 0]] i a.2

/-- `elast_diff_3d(r, s, t, coord, interp)`; `sh` is `interp(r, s, t)`.
`/repo/solidspy/femutil.py:460-504`. -/
def elastDiff3d {n : ℕ} (sh : Shape K 3 n) (coord : Matrix (Fin n) (Fin 3) K) :
    Py (Diff K n 3 6) := do
  let (det, jacoInv) ← jacoper sh.2 coord
  let dNdx := jacoInv * sh.2
  pure (hMat3 sh.1, bMat3 dNdx, det)

end kinematics

section materials
variable {K : Type} [Field K] [DecidableEq K]

/-- `umat(params)`.  `/repo/solidspy/femutil.py:540-583`.  Unpacking needs exactly two values. -/
def umat (params : List K) : Py (Matrix (Fin 3) (Fin 3) K) :=
  match params with
  | [E, nu] => do
    let enu ← pyDiv E (1 - nu^2)
    let mnu := (1 - nu)/2
    pure !![enu, nu*enu, 0;
            nu*enu, enu, 0;
            0, 0, enu*mnu]
  | _ => .error .valueError

/-- `E*nu/(1 + nu)/(1 - 2*nu)` and `0.5*E/(1 + nu)`.  `/repo/solidspy/femutil.py:608-609`. -/
def lame (E nu : K) : Py (K × K) := do
  let a ← pyDiv (E*nu) (1 + nu)
  let lamda ← pyDiv a (1 - 2*nu)
  let mu ← pyDiv (0.5*E) (1 + nu)
  pure (lamda, mu)

/-- `elast_mat_2d(params)`.  `/repo/solidspy/femutil.py:586-615`. -/
def elastMat2d (params : List K) : Py (Matrix (Fin 4) (Fin 4) K) :=
  match params with
  | [E, nu] => do
    let (lamda, mu) ← lame E nu
    pure !![2*mu + lamda, lamda, 0, 0;
            lamda, 2*mu + lamda, 0, 0;
            0, 0, mu, 0;
            0, 0, 0, 2*mu + lamda]
  | _ => .error .valueError

/-- `elast_mat_axi(params)`.  `/repo/solidspy/femutil.py:618-645`. -/
def elastMatAxi (params : List K) : Py (Matrix (Fin 4) (Fin 4) K) :=
  match params with
  | [E, nu] => do
    let (lamda, mu) ← lame E nu
    pure !![2*mu + lamda, lamda, 0, 0;
            lamda, 2*mu + lamda, 0, 0;
            0, 0, mu, 0;
            0, 0, 0, 2*mu + lamda]
  | _ => .error .valueError

/-- `elast_mat(params)`.  `/repo/solidspy/femutil.py:648-677`. -/
def elastMat (params : List K) : Py (Matrix (Fin 6) (Fin 6) K) :=
  match params with
  | [E, nu] => do
    let (lamda, mu) ← lame E nu
    pure !![2*mu + lamda, lamda, lamda, 0, 0, 0;
            lamda, 2*mu + lamda, lamda, 0, 0, 0;
            lamda, lamda, 2*mu + lamda, 0, 0, 0;
            0, 0, 0, mu, 0, 0;
            0, 0, 0, 0, mu, 0;
            0, 0, 0, 0, 0, mu]
  | _ => .error .valueError

end materials

section strains
variable {K : Type} [Field K] [LinearOrder K]

/-- One iteration of the loops of `str_el3`, `str_el6`, `str_el4`: the strain column `B @ ul` and the
row of `xl`.  Both components of `xl` are computed from `coord[:, 0]`, as in the source.
`/repo/solidspy/femutil.py:705-710` (same statements at 737-742 and 769-774). -/
def strPoint {n : ℕ} (sh : Shape K 2 n) (coord : Matrix (Fin n) (Fin 2) K)
    (ul : Fin n × Fin 2 → K) : Py ((Fin 3 → K) × (Fin 2 → K)) := do
  let (H, B, _) ← elastDiff2d sh coord
  pure (B.mulVec ul, ![∑ a, H 0 (a, 0) * coord a 0, ∑ a, H 0 (a, 0) * coord a 0])

/-- Pad the processed Gauss points with the zero rows of the preallocated `epsG.T`, `xl`
(`m` rows in total). -/
def padRows (m : ℕ) (l : List ((Fin 3 → K) × (Fin 2 → K))) : List (Fin 3 → K) × List (Fin 2 → K) :=
  (l.map Prod.fst ++ List.replicate (m - l.length) 0,
   l.map Prod.snd ++ List.replicate (m - l.length) 0)

/-- `str_el3(coord, ul)`: one Gauss point, three rows.  `/repo/solidspy/femutil.py:682-711`. -/
def strEl3 (coord : Matrix (Fin 3) (Fin 2) K) (ul : Fin 3 × Fin 2 → K) :
    Py (List (Fin 3 → K) × List (Fin 2 → K)) := do
  let (gpts, _) ← Gauss.gaussTri 1
  let l ← gpts.mapM fun p => strPoint (shapeTri3 (p.1 : K) (p.2 : K)) coord ul
  pure (padRows 3 l)

/-- `str_el6(coord, ul)`: seven Gauss points, seven rows.  `/repo/solidspy/femutil.py:714-743`. -/
def strEl6 (coord : Matrix (Fin 6) (Fin 2) K) (ul : Fin 6 × Fin 2 → K) :
    Py (List (Fin 3 → K) × List (Fin 2 → K)) := do
  let (gpts, _) ← Gauss.gaussTri 3
  let l ← gpts.mapM fun p => strPoint (shapeTri6 (p.1 : K) (p.2 : K)) coord ul
  pure (padRows 7 l)

/-- `str_el4(coord, ul)`: four Gauss points, four rows.  `/repo/solidspy/femutil.py:746-775`. -/
def strEl4 (coord : Matrix (Fin 4) (Fin 2) K) (ul : Fin 4 × Fin 2 → K) :
    Py (List (Fin 3 → K) × List (Fin 2 → K)) := do
  let (gpts, _) ← Gauss.gaussNd 2
  let l ← gpts.mapM fun p => match p with
    | [r, s] => strPoint (shapeQuad4 (r : K) (s : K)) coord ul
    | _ => .error .valueError
  pure (padRows 4 l)

end strains

end Fem
end SolidsPy
