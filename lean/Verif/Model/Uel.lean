import Verif.Model.Fem

/-!
# Model of `solidspy/uelutil.py` and of `ele_fun` in `solidspy/assemutil.py`
-/

namespace SolidsPy
namespace Uel

open Fem Gauss

section continuum
variable {K : Type} [Field K] [LinearOrder K]

/-- View the coordinate table as an `n x d` array, with the exceptions of `dNdr @ coord` followed by
`np.linalg.det`: a wrong number of rows is a `ValueError` (matrix product), a wrong number of columns
gives a non-square Jacobian (`LinAlgError`).  (For the axisymmetric routine with a wrong number of
columns the sign test on the radius comes first; that ordering is not modelled.)
`/repo/solidspy/femutil.py:526-527`. -/
def toMat (n d : ℕ) (coord : Table K) : Py (Matrix (Fin n) (Fin d) K) :=
  if coord.length ≠ n then .error .valueError
  else if coord.all (fun row => row.length = d) then
    .ok (Matrix.of fun i j => (coord.getD i []).getD j 0)
  else .error .linAlg

/-- The Gauss loop shared by the continuum routines: for each point, `H, B, det = diff(point)`,
`stiff += sc(det, w) * (B.T @ C @ B)`, `mass += mc(det, w) * (H.T @ H)`.  The coefficient functions
`sc`, `mc` are written out in each routine below.  A missing weight is an `IndexError`.
`/repo/solidspy/uelutil.py:70-76` and the corresponding lines of the other routines. -/
def gaussLoop {P : Type} {n d q : ℕ} (diff : P → Py (Diff K n d q)) (C : Matrix (Fin q) (Fin q) K)
    (sc mc : K → K → K) : List P → List ℚ →
    Matrix (Fin n × Fin d) (Fin n × Fin d) K → Matrix (Fin n × Fin d) (Fin n × Fin d) K →
    Py (Matrix (Fin n × Fin d) (Fin n × Fin d) K × Matrix (Fin n × Fin d) (Fin n × Fin d) K)
  | [], _, stiff, mass => .ok (stiff, mass)
  | _ :: _, [], _, _ => .error .indexError
  | p :: ps, w :: ws, stiff, mass => do
    let (H, B, det) ← diff p
    gaussLoop diff C sc mc ps ws
      (stiff + sc det (w : K) • (B.transpose * C * B))
      (mass + mc det (w : K) • (H.transpose * H))

/-- `dens = 1 if len(params) == 2 else params[-1]`.  `/repo/solidspy/uelutil.py:65-68`
(also 134-137, 206-209, 245-248). -/
def densOf (params : List K) : Py K :=
  if params.length = 2 then .ok 1 else pyGet params (-1)

/-- `elast_tri3(coord, params)`.  `/repo/solidspy/uelutil.py:19-77`. -/
def elastTri3M (coord : Matrix (Fin 3) (Fin 2) K) (C : Matrix (Fin 3) (Fin 3) K) (dens : K) :
    Py (Matrix (Fin 3 × Fin 2) (Fin 3 × Fin 2) K × Matrix (Fin 3 × Fin 2) (Fin 3 × Fin 2) K) := do
  let (gpts, gwts) ← gaussTri 2
  gaussLoop (fun p => elastDiff2d (shapeTri3 (p.1 : K) (p.2 : K)) coord) C
    (fun det w => 0.5 * (det * w)) (fun det w => 0.5 * dens * (det * w)) gpts gwts 0 0

/-- `elast_tri6(coord, params)`.  `/repo/solidspy/uelutil.py:80-147`. -/
def elastTri6M (coord : Matrix (Fin 6) (Fin 2) K) (C : Matrix (Fin 3) (Fin 3) K) (dens : K) :
    Py (Matrix (Fin 6 × Fin 2) (Fin 6 × Fin 2) K × Matrix (Fin 6 × Fin 2) (Fin 6 × Fin 2) K) := do
  let (gpts, gwts) ← gaussTri 3
  gaussLoop (fun p => elastDiff2d (shapeTri6 (p.1 : K) (p.2 : K)) coord) C
    (fun det w => 0.5 * (w * det)) (fun det w => 0.5 * dens * (w * det)) gpts gwts 0 0

/-- `r, s = gpts[cont, :]`, then `elast_diff_2d`.  `/repo/solidspy/uelutil.py:212-213`. -/
def diffQuad {n : ℕ} (shape : K → K → Shape K 2 n) (coord : Matrix (Fin n) (Fin 2) K)
    (p : List ℚ) : Py (Diff K n 2 3) :=
  match p with
  | [r, s] => elastDiff2d (shape (r : K) (s : K)) coord
  | _ => .error .valueError

/-- `elast_quad4(coord, params)`.  `/repo/solidspy/uelutil.py:151-219`. -/
def elastQuad4M (coord : Matrix (Fin 4) (Fin 2) K) (C : Matrix (Fin 3) (Fin 3) K) (dens : K) :
    Py (Matrix (Fin 4 × Fin 2) (Fin 4 × Fin 2) K × Matrix (Fin 4 × Fin 2) (Fin 4 × Fin 2) K) := do
  let (gpts, gwts) ← gaussNd 2
  gaussLoop (diffQuad shapeQuad4 coord) C
    (fun det w => det * w) (fun det w => dens * (det * w)) gpts gwts 0 0

/-- `elast_quad9(coord, params)`.  `/repo/solidspy/uelutil.py:222-256`. -/
def elastQuad9M (coord : Matrix (Fin 9) (Fin 2) K) (C : Matrix (Fin 3) (Fin 3) K) (dens : K) :
    Py (Matrix (Fin 9 × Fin 2) (Fin 9 × Fin 2) K × Matrix (Fin 9 × Fin 2) (Fin 9 × Fin 2) K) := do
  let (gpts, gwts) ← gaussNd 3 2
  gaussLoop (diffQuad shapeQuad9 coord) C
    (fun det w => det * w) (fun det w => dens * (det * w)) gpts gwts 0 0

/-- `elast_quad8(coord, params)`.  `/repo/solidspy/uelutil.py:259-291`. -/
def elastQuad8M (coord : Matrix (Fin 8) (Fin 2) K) (C : Matrix (Fin 3) (Fin 3) K) (rho : K) :
    Py (Matrix (Fin 8 × Fin 2) (Fin 8 × Fin 2) K × Matrix (Fin 8 × Fin 2) (Fin 8 × Fin 2) K) := do
  let (gpts, gwts) ← gaussNd 3 2
  gaussLoop (diffQuad shapeQuad8 coord) C
    (fun det w => det * w) (fun det w => rho * (det * w)) gpts gwts 0 0

/-- Point of the loop of `elast_axi_quad9`.  `/repo/solidspy/uelutil.py:322-324`. -/
def diffAxi {n : ℕ} (shape : K → K → Shape K 2 n) (coord : Matrix (Fin n) (Fin 2) K)
    (p : List ℚ) : Py (Diff K n 2 4) :=
  match p with
  | [r, s] => elastDiffAxi (shape (r : K) (s : K)) coord
  | _ => .error .valueError

/-- `elast_axi_quad9(coord, params)`.  `/repo/solidspy/uelutil.py:295-328`. -/
def elastAxiQuad9M (coord : Matrix (Fin 9) (Fin 2) K) (C : Matrix (Fin 4) (Fin 4) K) (rho : K) :
    Py (Matrix (Fin 9 × Fin 2) (Fin 9 × Fin 2) K × Matrix (Fin 9 × Fin 2) (Fin 9 × Fin 2) K) := do
  let (gpts, gwts) ← gaussNd 3 2
  gaussLoop (diffAxi shapeQuad9 coord) C
    (fun det w => det * w) (fun det w => rho * (det * w)) gpts gwts 0 0

/-- `elast_tet4(coord, params)`.  `/repo/solidspy/uelutil.py:331-362`. -/
def elastTet4M (coord : Matrix (Fin 4) (Fin 3) K) (C : Matrix (Fin 6) (Fin 6) K) (rho : K) :
    Py (Matrix (Fin 4 × Fin 3) (Fin 4 × Fin 3) K × Matrix (Fin 4 × Fin 3) (Fin 4 × Fin 3) K) := do
  let (gpts, gwts) ← gaussTet 3
  gaussLoop (fun p => elastDiff3d (shapeTet4 (p.1 : K) (p.2.1 : K) (p.2.2 : K)) coord) C
    (fun det w => det * w / 6) (fun det w => rho * (det * w / 6)) gpts gwts 0 0

/-- Point of the loop of `elast_hex8`.  `/repo/solidspy/uelutil.py:388-392`. -/
def diffHex (coord : Matrix (Fin 8) (Fin 3) K) (p : List ℚ) : Py (Diff K 8 3 6) :=
  match p with
  | [r, s, t] => elastDiff3d (shapeHex8 (r : K) (s : K) (t : K)) coord
  | _ => .error .valueError

/-- `elast_hex8(coord, params)`.  `/repo/solidspy/uelutil.py:365-396`. -/
def elastHex8M (coord : Matrix (Fin 8) (Fin 3) K) (C : Matrix (Fin 6) (Fin 6) K) (rho : K) :
    Py (Matrix (Fin 8 × Fin 3) (Fin 8 × Fin 3) K × Matrix (Fin 8 × Fin 3) (Fin 8 × Fin 3) K) := do
  let (gpts, gwts) ← gaussNd 2 3
  gaussLoop (diffHex coord) C
    (fun det w => det * w) (fun det w => rho * (det * w)) gpts gwts 0 0

/-- Wrapper of `elast_tri3`, `elast_tri6`, `elast_quad4`, `elast_quad9`: plane stress law from
`params[:2]`, optional density, coordinates from the table.
`/repo/solidspy/uelutil.py:64-68,133-137,205-209,244-248`. -/
def planeUel {n : ℕ} (body : Matrix (Fin n) (Fin 2) K → Matrix (Fin 3) (Fin 3) K → K →
    Py (Matrix (Fin n × Fin 2) (Fin n × Fin 2) K × Matrix (Fin n × Fin 2) (Fin n × Fin 2) K)) :
    Uel K := fun coord params => do
  let C ← umat (params.take 2)
  let dens ← densOf params
  let x ← toMat n 2 coord
  let (k, m) ← body x C dens
  pure (NdArr.ofBlocks k, NdArr.ofBlocks m)

/-- Wrapper of `elast_quad8`, `elast_axi_quad9`, `elast_tet4`, `elast_hex8`: `E, nu, rho = params`
(exactly three values), constitutive matrix `mat`.
`/repo/solidspy/uelutil.py:278-279,315-316,349-350,383-384`. -/
def strictUel {n d q : ℕ} (mat : List K → Py (Matrix (Fin q) (Fin q) K))
    (body : Matrix (Fin n) (Fin d) K → Matrix (Fin q) (Fin q) K → K →
    Py (Matrix (Fin n × Fin d) (Fin n × Fin d) K × Matrix (Fin n × Fin d) (Fin n × Fin d) K)) :
    Uel K := fun coord params =>
  match params with
  | [E, nu, rho] => do
    let C ← mat [E, nu]
    let x ← toMat n d coord
    let (k, m) ← body x C rho
    pure (NdArr.ofBlocks k, NdArr.ofBlocks m)
  | _ => .error .valueError

/-- `elast_tri3`.  `/repo/solidspy/uelutil.py:19-77`. -/
def elastTri3 : Uel K := planeUel elastTri3M
/-- `elast_tri6`.  `/repo/solidspy/uelutil.py:80-147`. -/
def elastTri6 : Uel K := planeUel elastTri6M
/-- `elast_quad4`.  `/repo/solidspy/uelutil.py:151-219`. -/
def elastQuad4 : Uel K := planeUel elastQuad4M
/-- `elast_quad9`.  `/repo/solidspy/uelutil.py:222-256`. -/
def elastQuad9 : Uel K := planeUel elastQuad9M
/-- `elast_quad8`.  `/repo/solidspy/uelutil.py:259-291`. -/
def elastQuad8 : Uel K := strictUel umat elastQuad8M
/-- `elast_axi_quad9`.  `/repo/solidspy/uelutil.py:295-328`. -/
def elastAxiQuad9 : Uel K := strictUel elastMatAxi elastAxiQuad9M
/-- `elast_tet4`.  `/repo/solidspy/uelutil.py:331-362`. -/
def elastTet4 : Uel K := strictUel elastMat elastTet4M
/-- `elast_hex8`.  `/repo/solidspy/uelutil.py:365-396`. -/
def elastHex8 : Uel K := strictUel elastMat elastHex8M

end continuum

section structural
variable {K : Type} [Field K] [DecidableEq K]

/-- `np.linalg.norm(vec)`; the square root is a parameter. -/
def norm (sq : K → K) (v : List K) : K := sq ((v.map fun x => x * x).sum)

/-- `vec = coord[1, :] - coord[0, :]`.  `/repo/solidspy/uelutil.py:434,487,543,601`. -/
def barVec (coord : Table K) : Py (List K) := do
  let b ← pyGet coord 1
  let a ← pyGet coord 0
  pure (List.zipWith (· - ·) b a)

/-- The first lines of the bar routines: direction `nx`, `ny` and length.  The norm runs over **all**
columns of `coord`.  `/repo/solidspy/uelutil.py:434-436,487-490,543-546,601-604`. -/
def barGeom (sq : K → K) (coord : Table K) : Py (K × K × K) := do
  let vec ← barVec coord
  let length := norm sq vec
  let v0 ← pyGet vec 0
  let nx ← pyDiv v0 length
  let v1 ← pyGet vec 1
  let ny ← pyDiv v1 length
  pure (nx, ny, length)

/-- The `2 x 4` array `Q` of `spring` and `truss2D`.
`/repo/solidspy/uelutil.py:437-439,491-493`. -/
def barQ (nx ny : K) : Matrix (Fin 2) (Fin 4) K :=
  !![nx, ny, 0, 0;
     0, 0, nx, ny]

/-- `stiff * np.array([[1, -1], [-1, 1]])` with `stiff` a 1-D array (the material row): one value
scales, two values scale the columns (broadcasting), any other length is a `ValueError`.
`/repo/solidspy/uelutil.py:440-442`. -/
def springCore (stiff : List K) : Py (Matrix (Fin 2) (Fin 2) K) :=
  match stiff with
  | [k] => .ok !![k * 1, k * (-1); k * (-1), k * 1]
  | [k, l] => .ok !![k * 1, l * (-1); k * (-1), l * 1]
  | _ => .error .valueError

/-- `spring(coord, stiff)`.  `/repo/solidspy/uelutil.py:400-445`.  The mass is the **1-D** array
`np.zeros(4)`. -/
def spring (sq : K → K) : Uel K := fun coord stiff => do
  let (nx, ny, _) ← barGeom sq coord
  let S ← springCore stiff
  let Q := barQ nx ny
  pure (NdArr.mat 4 4 (Q.transpose * S * Q), NdArr.vec 4 (fun _ => 0))

/-- Stiffness of `truss2D` in matrix form.  `/repo/solidspy/uelutil.py:495-499`. -/
def trussStiff (nx ny stiff : K) : Matrix (Fin 4) (Fin 4) K :=
  (barQ nx ny).transpose * (stiff • (!![1, -1; -1, 1] : Matrix (Fin 2) (Fin 2) K)) * barQ nx ny

/-- Mass of `truss2D`.  `/repo/solidspy/uelutil.py:504-509`. -/
def trussMass (mass : K) : Matrix (Fin 4) (Fin 4) K :=
  (mass/6) • !![2, 0, 1, 0;
                0, 2, 0, 1;
                1, 0, 2, 0;
                0, 1, 0, 2]

/-- `truss2D(coord, params)`.  `/repo/solidspy/uelutil.py:448-512`. -/
def truss2D (sq : K → K) : Uel K := fun coord params => do
  let (nx, ny, length) ← barGeom sq coord
  match params.take 2 with
  | [young, area] => do
    let stiff ← pyDiv (area*young) length
    let dens ← if params.length = 2 then pure 1.0 else pyGet params (-1)
    let mass := area * length * dens
    pure (NdArr.mat 4 4 (trussStiff nx ny stiff), NdArr.mat 4 4 (trussMass mass))
  | _ => .error .valueError

/-- The `4 x 6` array `Q` of `beam2DU`.  `/repo/solidspy/uelutil.py:547-551`. -/
def beamUQ (nx ny : K) : Matrix (Fin 4) (Fin 6) K :=
  !![ny, nx, 0, 0, 0, 0;
     0, 0, 1, 0, 0, 0;
     0, 0, 0, ny, nx, 0;
     0, 0, 0, 0, 0, 1]

/-- Local bending stiffness.  `/repo/solidspy/uelutil.py:554-558`. -/
def beamUCore (b L : K) : Matrix (Fin 4) (Fin 4) K :=
  b • !![12, 6*L, -12, 6*L;
         6*L, 4*L^2, -6*L, 2*L^2;
         -12, -6*L, 12, -6*L;
         6*L, 2*L^2, -6*L, 4*L^2]

/-- Local bending mass.  `/repo/solidspy/uelutil.py:564-568`. -/
def beamUMassCore (mass L : K) : Matrix (Fin 4) (Fin 4) K :=
  (mass/420) • !![156, 22*L, 54, -13*L;
                  22*L, 4*L^2, 13*L, -3*L^2;
                  54, 13*L, 156, -22*L;
                  -13*L, -3*L^2, -22*L, 4*L^2]

/-- `beam2DU(coord, params)`.  `/repo/solidspy/uelutil.py:515-570`. -/
def beam2DU (sq : K → K) : Uel K := fun coord params => do
  let (nx, ny, L) ← barGeom sq coord
  match params.take 2 with
  | [young, areaMoment] => do
    let bending ← pyDiv (areaMoment*young) (L^3)
    let (dens, area) ← (if params.length = 2 then pure (1.0, 1.0) else
      match params.drop 2 with
      | [dens, area] => pure (dens, area)
      | _ => .error .valueError : Py (K × K))
    let mass := area * L * dens
    let Q := beamUQ nx ny
    pure (NdArr.mat 6 6 (Q.transpose * beamUCore bending L * Q),
          NdArr.mat 6 6 (Q.transpose * beamUMassCore mass L * Q))
  | _ => .error .valueError

/-- The `6 x 6` array `Q` of `beam2D`.  `/repo/solidspy/uelutil.py:605-611`. -/
def beamQ (nx ny : K) : Matrix (Fin 6) (Fin 6) K :=
  !![nx, -ny, 0, 0, 0, 0;
     ny, nx, 0, 0, 0, 0;
     0, 0, 1, 0, 0, 0;
     0, 0, 0, nx, -ny, 0;
     0, 0, 0, ny, nx, 0;
     0, 0, 0, 0, 0, 1]

/-- Local stiffness with axial terms.  `/repo/solidspy/uelutil.py:615-621`. -/
def beamCore (b ratio L : K) : Matrix (Fin 6) (Fin 6) K :=
  b • !![ratio*L^2, 0, 0, -ratio*L^2, 0, 0;
         0, 12, 6*L, 0, -12, 6*L;
         0, 6*L, 4*L^2, 0, -6*L, 2*L^2;
         -ratio*L^2, 0, 0, ratio*L^2, 0, 0;
         0, -12, -6*L, 0, 12, -6*L;
         0, 6*L, 2*L^2, 0, -6*L, 4*L^2]

/-- The array multiplied by `mass/420`.  `/repo/solidspy/uelutil.py:628-633`. -/
def beamMassArr (L : K) : Matrix (Fin 6) (Fin 6) K :=
  !![140, 0, 0, 70, 0, 0;
     0, 156, 22*L, 0, 54, -13*L;
     0, 22*L, 4*L^2, 0, 13*L, -3*L^2;
     70, 0, 0, 140, 0, 0;
     0, 54, 13*L, 0, 156, -22*L;
     0, -13*L, -3*L^2, 0, -22*L, 4*L^2]

/-- `mass/420 * array` where `mass = area * L * dens` and `dens` is `1.0` or the **array**
`params[3:]`: a single value scales, six values scale the columns, other lengths do not broadcast.
`/repo/solidspy/uelutil.py:623-633`. -/
def beamMassCore (area L : K) (dens : List K) : Py (Matrix (Fin 6) (Fin 6) K) :=
  match dens with
  | [d] => .ok ((area * L * d / 420) • beamMassArr L)
  | [d0, d1, d2, d3, d4, d5] =>
    .ok (Matrix.of fun i j => (area * L * ![d0, d1, d2, d3, d4, d5] j / 420) * beamMassArr L i j)
  | _ => .error .valueError

/-- `beam2D(coord, params)`.  `/repo/solidspy/uelutil.py:573-635`. -/
def beam2D (sq : K → K) : Uel K := fun coord params => do
  let (nx, ny, L) ← barGeom sq coord
  match params.take 3 with
  | [young, areaMoment, area] => do
    let bending := areaMoment * young
    let ratio ← pyDiv area areaMoment
    let b ← pyDiv bending (L^3)
    let M ← beamMassCore area L (if params.length = 3 then [1.0] else params.drop 3)
    let Q := beamQ nx ny
    pure (NdArr.mat 6 6 (Q.transpose * beamCore b ratio L * Q),
          NdArr.mat 6 6 (Q.transpose * M * Q))
  | _ => .error .valueError

end structural

/-- `ele_fun(eletype)`.  `/repo/solidspy/assemutil.py:91-116`. -/
def eleFun {K : Type} [Field K] [LinearOrder K] (sq : K → K) (ty : ℤ) : Py (Uel K) :=
  match ty with
  | 1 => .ok elastQuad4
  | 2 => .ok elastTri6
  | 3 => .ok elastTri3
  | 4 => .ok elastQuad9
  | 5 => .ok (spring sq)
  | 6 => .ok (truss2D sq)
  | 7 => .ok (beam2DU sq)
  | 8 => .ok (beam2D sq)
  | _ => .error .valueError

end Uel
end SolidsPy
