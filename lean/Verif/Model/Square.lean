import Verif.Model.Files

/-!
# The first tutorial

`/repo/docs/tutorials/square_example.rst`: the folder `/repo/examples/square-4_elements` and the lines that print the
magnitude of the displacements.
-/

namespace SolidsPy
namespace Square
open Files

/-- The four files of `/repo/examples/square-4_elements`, byte for byte. -/
def files : Fs := fun name =>
  if name = "nodes.txt".toList then some
    ("0  0.00  0.00   0  -1\n1  2.00  0.00   0  -1\n2  2.00  2.00   0   0\n3  0.00  2.00   0   0\n" ++
    "4  1.00  0.00  -1  -1\n5  2.00  1.00   0   0\n6  1.00  2.00   0   0\n7  0.00  1.00   0   0\n" ++
    "8  1.00  1.00   0   0\n").toList
  else if name = "mater.txt".toList then some "1.0  0.3\n\n".toList
  else if name = "eles.txt".toList then some
    ("0   1   0   0   4   8   7\n1   1   0   4   1   5   8\n2   1   0   7   8   6   3\n" ++
    "3   1   0   8   5   2   6\n").toList
  else if name = "loads.txt".toList then some "3  0.0   1.0\n6  0.0   2.0\n2  0.0   1.0\n".toList
  else none

/-- `a[0::2]`. -/
def everyOther {α : Type} : List α → List α
  | [] => []
  | [a] => [a]
  | a :: _ :: t => a :: everyOther t

/-- `np.sqrt(UC[0::2]**2 + UC[1::2]**2)`, where `f` is what it does to two entries along the first axis (two numbers
if `UC` is a vector, two rows if it is a table); along that axis a length 1 stretches, other different lengths give a
`ValueError`.  (In the text the second name is `UG`, which does not exist there.)
`/repo/docs/tutorials/square_example.rst:194`. -/
def magnitude {α β : Type} (f : α → α → β) (uc : List α) : Py (List β) :=
  let a := everyOther uc
  let b := everyOther (uc.drop 1)
  if a.length = b.length then .ok (List.zipWith f a b)
  else match a, b with
    | a, [y] => .ok (a.map fun x => f x y)
    | [x], b => .ok (b.map fun y => f x y)
    | _, _ => .error .valueError

section
variable {K : Type} [Field K]

/-- For a vector. -/
def magVector (sq : K → K) (uc : List K) : Py (List K) := magnitude (fun x y => sq (x ^ 2 + y ^ 2)) uc

/-- For a table: row by row, entry by entry. -/
def magTable (sq : K → K) (uc : Table K) : Py (Table K) :=
  magnitude (fun r s => List.zipWith (fun x y => sq (x ^ 2 + y ^ 2)) r s) uc

end

end Square
end SolidsPy
