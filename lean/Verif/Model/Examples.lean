import Verif.Model.Gui
import Verif.Model.Pre

/-!
# Model of `examples/beam_convergence/beam_convergence.ipynb`

The function `beam_sln` of the notebook and the tables its loop builds.  Code cells are counted from 1.
Simplification: the tests `x==L/2` and `x==-L/2` are made on exact coordinates.
-/

namespace SolidsPy
namespace Examples
open Pre

section
variable {K : Type} [Field K]

/-- `beam_sln(x, y, nu, P, E, I, L, h)`.  `/repo/examples/beam_convergence/beam_convergence.ipynb`, code cell 3.
Returns `(u, v, exx, eyy, gammaxy)`. -/
def beamSln (x y nu P E I L h : K) : K × K × K × K × K :=
  let G := E / (2 * (1 + nu))
  let c := h / 2
  let C1 := -P / (2 * E * I)
  let C2 := -(nu * P) / (6 * E * I)
  let C3 := P / (2 * I * G)
  let C4 := (P * L ^ 2) / (2 * E * I)
  let C5 := -(P * c ^ 2) / (2 * I * G)
  let C6 := C4 + C5
  let C7 := (nu * P) / (2 * E * I)
  let C8 := P / (6 * E * I)
  let C9 := -(P * L ^ 2) / (2 * E * I)
  let C10 := (P * L ^ 3) / (3 * E * I)
  let B1 := -P / (E * I)
  let B2 := (nu * P) / (E * I)
  let B3 := P / (2 * I * G)
  let u := C1 * y * x ^ 2 + C2 * y ^ 3 + C3 * y ^ 3 + (C5 + C6) * y
  let v := C7 * x * y ^ 2 + C8 * x ^ 3 + C9 * x + C10
  let exx := B1 * x * y
  let eyy := B2 * x * y
  let gammaxy := B3 * (y ^ 2 - c ^ 2)
  (u, v, exx, eyy, gammaxy)

variable [LinearOrder K]

/-- `nodes` before the supports: number, `x`, `y` and two zeros.
`/repo/examples/beam_convergence/beam_convergence.ipynb`, code cell 8. -/
def beamNodes (L h : K) (nx ny : ℕ) : Table K :=
  let g := rectGrid L h nx ny
  ((g.1.zip g.2.1).zipIdx).map fun (p : (K × K) × ℕ) => [(p.2 : K), p.1.1, p.1.2, 0, 0]

/-- `nodes[x==L/2, 3] = -1` and `nodes[nx*(ny//2 + 1) - 1, 4] = -1`.
`/repo/examples/beam_convergence/beam_convergence.ipynb`, code cell 8. -/
def beamSupports (L : K) (nx ny : ℕ) (nodes : Table K) : Py (Table K) :=
  let t := nodes.map fun row => if row[1]? = some (L / 2) then row.set 3 (-1) else row
  setCell 4 (-1) t ((nx : ℤ) * ((ny : ℤ) / 2 + 1) - 1)

/-- `loads`: on the nodes with `x==-L/2` a vertical force `P/ny`.  The assignment of the node numbers to the `ny + 1` rows
of `loads` fails if there are not as many nodes (or one).
`/repo/examples/beam_convergence/beam_convergence.ipynb`, code cell 8. -/
def beamLoads (P L : K) (ny : ℕ) (nodes : Table K) : Py (Table K) :=
  let ids := (nodes.filter fun row => row[1]? = some (-L / 2)).map fun row => row.getD 0 0
  if ny = 0 then .error .zeroDivision
  else if ids.length = ny + 1 then .ok (ids.map fun i => [i, 0, P / (ny : K)])
  else match ids with
    | [i] => .ok (List.replicate (ny + 1) [i, 0, P / (ny : K)])
    | _ => .error .valueError

/-- The tables of one pass of the loop: `(nodes, els, mats, loads)`.
`/repo/examples/beam_convergence/beam_convergence.ipynb`, code cells 7 and 8. -/
def beamTables (L h E nu P : K) (nx ny : ℕ) : Py (Table K × List (List ℤ) × Table K × Table K) := do
  let nodes ← beamSupports L nx ny (beamNodes L h nx ny)
  let loads ← beamLoads P L ny nodes
  pure (nodes, (rectGrid L h nx ny).2.2, [[E, nu]], loads)

/-- The same tables as `solids_auto` takes them: coordinates and supports apart. -/
def beamData (L h E nu P : K) (nx ny : ℕ) : Py (Gui.Data K) := do
  let (nodes, els, mats, loads) ← beamTables L h E nu P nx ny
  pure { nodes := nodes.map (List.take 3), cons := nodes.map (List.drop 3), elements := els, mats := mats, loads := loads }

end

end Examples
end SolidsPy
