import Verif.Model.Pre
import Verif.Model.Files

/-!
# Model of `docs/tutorials/template_input.py`

The script that turns a mesh of triangles with tagged lines into the four input files.  What `meshio.read` returns
(`points`, `cells`, and the `gmsh:physical` arrays of `cell_data`) is the input; the order in which Python enumerates a
`set` is the parameter `setList`.  The file system is that of `Model/Files.lean`.

Simplification: `-2.0/ncargas` is the exact quotient.
-/

namespace SolidsPy
namespace Template
open Pre Files

/-- `els_array[:, 3::] = eles`, row by row: three columns, or one that is broadcast.
`/repo/docs/tutorials/template_input.py:31`. -/
def threeCols : List ℤ → Py (List ℤ)
  | [a, b, c] => .ok [a, b, c]
  | [a] => .ok [a, a, a]
  | _ => .error .valueError

/-- `0 if mater == 100 else 1`.  `/repo/docs/tutorials/template_input.py:37`. -/
def profile (mater : ℤ) : ℤ := if mater = 100 then 0 else 1

/-- `els_array[:, 2] = col` for an array of `n` rows: a list of length one is broadcast.
`/repo/docs/tutorials/template_input.py:37`. -/
def column (n : ℕ) (col : List ℤ) : Py (List ℤ) :=
  if col.length = n then .ok col
  else match col with
    | [t] => .ok (List.replicate n t)
    | _ => .error .valueError

/-- `els_array`.  `/repo/docs/tutorials/template_input.py:24-37`. -/
def elements (cells : String → Option (List (List ℤ))) (cellData : String → Option (List ℤ)) :
    Py (List (List ℤ)) := do
  let eles ← dictGet cells "triangle"
  let conn ← eles.mapM threeCols
  let maters ← dictGet cellData "triangle"
  let col ← column eles.length (maters.map profile)
  pure ((conn.zip col).zipIdx.map fun (x : (List ℤ × ℤ) × ℕ) => [(x.2 : ℤ), 3, x.1.2] ++ x.1.1)

section
variable {K : Type} [Field K]

/-- `nodes_array`.  `/repo/docs/tutorials/template_input.py:39-61`. -/
def nodes (setList : List ℤ → List ℤ) (points : Table K) (cells : String → Option (List (List ℤ)))
    (cellData : String → Option (List ℤ)) : Py (Table K) := do
  let t ← nodeWriter points
  let lat ← taggedNodes cells cellData 300
  let t ← setCol t (setList lat) 3 (-1)
  let abajo ← taggedNodes cells cellData 400
  setCol t (setList abajo) 4 (-1)

/-- `cargas`.  `/repo/docs/tutorials/template_input.py:62-71`.  With no loaded line `carga_total/ncargas` is a
`ZeroDivisionError`. -/
def cargas (setList : List ℤ → List ℤ) (cells : String → Option (List (List ℤ)))
    (cellData : String → Option (List ℤ)) : Py (Table K) := do
  let flat ← taggedNodes cells cellData 500
  let ids := setList flat
  if ids.length = 0 then .error .zeroDivision
  else pure (ids.map fun (i : ℤ) => [(i : K), 0, -2 / (ids.length : K)])

/-- `mater_array`.  `/repo/docs/tutorials/template_input.py:34-35`. -/
def materArray : Table K := [[1, 3 / 10], [5, 3 / 10]]

variable [LinearOrder K] [FloorRing K]

/-- `k` decimal digits of `m`, most significant first. -/
def fracDigits (m : ℕ) : ℕ → Text
  | 0 => []
  | k + 1 => fracDigits (m / 10) k ++ [Char.ofNat (48 + m % 10)]

/-- `'%.kf' % x`. -/
def fixed (k : ℕ) (x : K) : Text :=
  let n := roundEven (|x| * 10 ^ k)
  (if x < 0 then ['-'] else []) ++ natText (n / 10 ^ k) ++ '.' :: fracDigits n k

/-- `'%d' % x` for a float: the part after the point is dropped. -/
def fmtDF (x : K) : Text := fmtD (if 0 ≤ x then ⌊x⌋ else ⌈x⌉)

/-- `np.savetxt(name, table, fmt=(...))` with one format per column. -/
def savetxtCols {α : Type} (fmts : List (α → Text)) (t : List (List α)) : Text :=
  t.flatMap fun row => [' '].intercalate (List.zipWith (fun f x => f x) fmts row) ++ ['\n']

/-- The script.  `/repo/docs/tutorials/template_input.py:15-77`. -/
def script (setList : List ℤ → List ℤ) (points : Table K) (cells : String → Option (List (List ℤ)))
    (cellData : String → Option (List ℤ)) (fs : Fs) : Py Fs := do
  let els ← elements cells cellData
  let nds ← nodes setList points cells cellData
  let loads ← cargas (K := K) setList cells cellData
  let fs := write fs "eles.txt".toList (savetxt fmtD els)
  let fs := write fs "loads.txt".toList (savetxtCols [fmtDF, fixed 6, fixed 6] loads)
  let fs := write fs "nodes.txt".toList (savetxtCols [fmtDF, fixed 4, fixed 4, fmtDF, fmtDF] nds)
  pure (write fs "mater.txt".toList (savetxt (fixed 6) (materArray (K := K))))

end

end Template
end SolidsPy
