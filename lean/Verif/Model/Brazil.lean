import Verif.Model.Template

/-!
# Model of the script of `docs/tutorials/brazilian_test.rst`

The script that turns the mesh of a quarter of a disc into the four input files.  Inputs and file system as in
`Model/Template.lean`.  The numbers `-10e8`, `70e9` and `0.35` are exact.
-/

namespace SolidsPy
namespace Brazil
open Pre Files Template

/-- `loads_array[:, 0] = id_cargas`, an array of one column assigned to one column of the table: `numpy` drops leading
dimensions of length one only, so more than one row is an error.  `/repo/docs/tutorials/brazilian_test.rst:236-240`. -/
def loadNode : List (List ℤ) → Py ℤ
  | [[z]] => .ok z
  | _ => .error .valueError

section
variable {K : Type} [Field K]

/-- `mater_array`.  `/repo/docs/tutorials/brazilian_test.rst:255-256`. -/
def materArray : Table K := [[70000000000, 35 / 100], [70000000000, 35 / 100]]

variable [LinearOrder K] [FloorRing K]

/-- The script.  `/repo/docs/tutorials/brazilian_test.rst:209-265`.  The list of `1`s which becomes the column of materials
is only as long as there are triangles of the surface 4. -/
def script (points : Table K) (cells : String → Option (List (List ℤ))) (cellData : String → Option (List ℤ)) (fs : Fs) :
    Py Fs := do
  let eles ← dictGet cells "triangle"
  let conn ← eles.mapM threeCols
  let t ← nodeWriter points
  let _ ← dictGet cells "line"
  let _ ← dictGet cellData "line"
  let vertices ← dictGet cells "vertex"
  let z ← loadNode vertices
  let izq ← taggedNodes cells cellData 1
  let inf ← taggedNodes cells cellData 2
  let t ← setCol t izq 3 (-1)
  let t ← setCol t inf 4 (-1)
  let maters ← dictGet cellData "triangle"
  let col ← column eles.length ((maters.filter fun m => m = 4).map fun _ => 1)
  let els := (conn.zip col).zipIdx.map fun (x : (List ℤ × ℤ) × ℕ) => [(x.2 : ℤ), 3, x.1.2] ++ x.1.1
  let fs := write fs "eles.txt".toList (savetxt fmtD els)
  let fs := write fs "nodes.txt".toList (savetxtCols [fmtDF, fixed 4, fixed 4, fmtDF, fmtDF] t)
  let fs := write fs "loads.txt".toList (savetxtCols [fmtDF, fixed 6, fixed 6] [[(z : K), 0, -1000000000]])
  pure (write fs "mater.txt".toList (savetxt (fixed 6) (materArray (K := K))))

end

end Brazil
end SolidsPy
