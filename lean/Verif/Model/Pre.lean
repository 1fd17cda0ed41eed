import Verif.Basic

/-!
# Model of `solidspy/preprocesor.py` (mesh tables and the structured grid)

`meshio` dictionaries are partial functions from the cell kind to the table stored there.
The order in which Python enumerates a `set` is the parameter `setList`.
`readin` and `echomod` are in `Model/Files.lean`; the dialog of `initial_params` is not modelled.
-/

namespace SolidsPy
namespace Pre

/-- `d[key]` on a dictionary. -/
def dictGet {α β : Type} (d : α → Option β) (key : α) : Py β :=
  match d key with
  | some v => .ok v
  | none => .error .keyError

/-- `[cont for cont, _ in enumerate(phys) if phys[cont] == tag]`.
`/repo/solidspy/preprocesor.py:102-103,162-163,198-199`. -/
def tagIds (phys : List ℤ) (tag : ℤ) : List ℕ :=
  (List.range phys.length).filter fun cont => phys[cont]? = some tag

/-- `dict_nnode`.  `/repo/solidspy/preprocesor.py:97-99`. -/
def dictNnode (tag : String) : Option ℕ :=
  if tag = "triangle" then some 3
  else if tag = "triangle6" then some 6
  else if tag = "quad" then some 4
  else none

/-- `ele_writer(cells, cell_data, ele_tag, phy_sur, ele_type, mat_tag, nini)`.
`/repo/solidspy/preprocesor.py:61-111`.  Returns `(nf, els_array)`.  Simplification: the width test of
the block assignment is made row by row (rows of `cells[ele_tag]` all have one width in Python). -/
def eleWriter (cells : String → Option (List (List ℤ))) (cellData : String → Option (List ℤ))
    (eleTag : String) (phySur eleType matTag nini : ℤ) : Py (ℤ × List (List ℤ)) := do
  let eles ← dictGet cells eleTag
  let nnode ← dictGet dictNnode eleTag
  let phys ← dictGet cellData eleTag
  let eleId := tagIds phys phySur
  let rows ← eleId.mapM fun (i : ℕ) => pyGet eles i
  let els ← rows.zipIdx.mapM fun (rk : List ℤ × ℕ) =>
    if rk.1.length = nnode then pure ((nini + rk.2) :: eleType :: matTag :: rk.1)
    else .error .valueError
  pure (nini + eleId.length, els)

section tables
variable {K : Type} [Field K]

/-- `node_writer(points, point_data)`.  `/repo/solidspy/preprocesor.py:114-133`.
A one-column point array would be broadcast to both coordinates. -/
def nodeWriter (points : Table K) : Py (Table K) :=
  points.zipIdx.mapM fun (pk : List K × ℕ) => match pk.1.take 2 with
    | [x, y] => pure [(pk.2 : K), x, y, 0, 0]
    | [x] => pure [(pk.2 : K), x, x, 0, 0]
    | _ => .error .valueError

/-- `table[row, col] = v` for a fixed non-negative column. -/
def setCell (col : ℕ) (v : K) (tab : Table K) (row : ℤ) : Py (Table K) := do
  let r ← pyFin tab.length row
  if col < (tab.get r).length then pure (tab.set r ((tab.get r).set col v))
  else .error .indexError

/-- `table[idx, col] = v` with a list of row indices.  `/repo/solidspy/preprocesor.py:168-169`.
Simplification: the column is checked against the rows written to, so an empty `idx` never raises. -/
def setCol (tab : Table K) (idx : List ℤ) (col : ℕ) (v : K) : Py (Table K) :=
  idx.foldlM (setCell col v) tab

/-- `lines[ids].flatten()` for the lines carrying the physical tag.
`/repo/solidspy/preprocesor.py:159-165,195-201`. -/
def taggedNodes (cells : String → Option (List (List ℤ))) (cellData : String → Option (List ℤ))
    (phyLin : ℤ) : Py (List ℤ) := do
  let lines ← dictGet cells "line"
  let phyLine ← dictGet cellData "line"
  let rows ← (tagIds phyLine phyLin).mapM fun (i : ℕ) => pyGet lines i
  pure rows.flatten

/-- `boundary_conditions(cells, cell_data, phy_lin, nodes_array, bc_x, bc_y)`.
`/repo/solidspy/preprocesor.py:136-171`.  `setList` is `list(set(...))`.  (Python also mutates the
argument in place; the model returns the new table.) -/
def boundaryConditions (setList : List ℤ → List ℤ) (cells : String → Option (List (List ℤ)))
    (cellData : String → Option (List ℤ)) (phyLin : ℤ) (nodes : Table K) (bcX bcY : K) :
    Py (Table K) := do
  let flat ← taggedNodes cells cellData phyLin
  let ids := setList flat
  let t ← setCol nodes ids 3 bcX
  setCol t ids 4 bcY

/-- `loading(cells, cell_data, phy_lin, P_x, P_y)`.  `/repo/solidspy/preprocesor.py:174-210`.
With no tagged line, `P_x/ncargas` is a `ZeroDivisionError` for Python numbers. -/
def loading (setList : List ℤ → List ℤ) (cells : String → Option (List (List ℤ)))
    (cellData : String → Option (List ℤ)) (phyLin : ℤ) (Px Py_ : K) : Py (Table K) := do
  let flat ← taggedNodes cells cellData phyLin
  let ids := setList flat
  let n := ids.length
  if n = 0 then .error .zeroDivision
  else pure (ids.map fun (i : ℤ) => [(i : K), Px / (n : K), Py_ / (n : K)])

/-- One coordinate axis of `np.mgrid[a:b:n*1j]`: `n` points from `a` to `b`. -/
def mgridAxis (a b : K) (n : ℕ) : List K :=
  (List.range n).map fun (i : ℕ) => (i : K) * ((b - a) / ((n : K) - 1)) + a

/-- Element rows of `rect_grid`.  `/repo/solidspy/preprocesor.py:254-263`.  (The zero array filled
by the double loop is written as the list of its rows; row `cont` is written exactly once.) -/
def gridEls (nx ny : ℕ) : List (List ℤ) :=
  (List.range ny).flatMap fun (row : ℕ) => (List.range nx).map fun (col : ℕ) =>
    let cont : ℤ := (row : ℤ) * nx + col
    [cont, 1, 0, cont + row, cont + row + 1, cont + row + nx + 2, cont + row + nx + 1]

/-- `rect_grid(length, height, nx, ny)`.  `/repo/solidspy/preprocesor.py:213-266`.
Returns `x.flatten()`, `y.flatten()`, `els`. -/
def rectGrid (length height : K) (nx ny : ℕ) : List K × List K × List (List ℤ) :=
  let xs := mgridAxis (-length/2) (length/2) (nx + 1)
  let ys := mgridAxis (-height/2) (height/2) (ny + 1)
  (ys.flatMap (fun _ => xs), ys.flatMap (fun y => xs.map fun _ => y), gridEls nx ny)

end tables

end Pre
end SolidsPy
