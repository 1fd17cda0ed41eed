import Verif.Model.Assem
import Verif.Model.Uel

/-!
# Model of `solidspy/postprocesor.py`

Drawing itself (matplotlib) is not modelled; what is modelled are the numbers handed to it.
-/

namespace SolidsPy
namespace Post

section disp
variable {K : Type} [Field K]

/-- One row of `complete_disp`.  `/repo/solidspy/postprocesor.py:315-321`. -/
def completeRow {neq : ℕ} (sol : Fin neq → K) (ndofNode : ℕ) (bcRow : List ℤ) : Py (List K) :=
  (List.range ndofNode).mapM fun (col : ℕ) => do
    let cons ← pyGet bcRow col
    if cons = -1 then pure 0
    else do
      let k ← pyFin neq cons
      pure (sol k)

/-- `complete_disp(bc_array, nodes, sol, ndof_node)`; only the number of rows of `nodes` is used.
`/repo/solidspy/postprocesor.py:293-322`. -/
def completeDisp {neq : ℕ} (bc : List (List ℤ)) (nnodes : ℕ) (sol : Fin neq → K)
    (ndofNode : ℕ := 2) : Py (Table K) :=
  (List.range nnodes).mapM fun (row : ℕ) => do
    let bcRow ← pyGet bc row
    completeRow sol ndofNode bcRow

/-- `energy(disp, stiff)`.  `/repo/solidspy/postprocesor.py:659-678`. -/
def energy {n : ℕ} (disp : Fin n → K) (stiff : Matrix (Fin n) (Fin n) K) : K :=
  let force := stiff.mulVec disp;
  (-0.5) * (dotProduct force disp)

end disp

section strains
variable {K : Type} [Field K] [LinearOrder K]

/-- Accumulators of `strain_nodes`: `E_nodes`, `S_nodes`, `el_nodes`. -/
structure NodeAcc (K : Type) (nn : ℕ) where
  E : Fin nn → Fin 3 → K
  S : Fin nn → Fin 3 → K
  cnt : Fin nn → ℕ

/-- The inner loop of `strain_nodes` over `enumerate(IELCON[el, :])`.
`/repo/solidspy/postprocesor.py:386-393`. -/
def strainScatter {nn : ℕ} (fact1 fact2 shear : K) (epsG : List (Fin 3 → K)) :
    List (ℤ × ℕ) → NodeAcc K nn → Py (NodeAcc K nn)
  | [], acc => .ok acc
  | (node, cont) :: rest, acc => do
    let i ← pyFin nn node
    let e ← pyGet epsG cont
    let s : Fin 3 → K := ![fact1*e 0 + fact2*e 1, fact2*e 0 + fact1*e 1, shear*e 2]
    strainScatter fact1 fact2 shear epsG rest
      { E := fun k => if k = i then acc.E k + e else acc.E k
        S := fun k => if k = i then acc.S k + s else acc.S k
        cnt := fun k => if k = i then acc.cnt k + 1 else acc.cnt k }

/-- Strains of one element by type code (`epsG` stays unbound for other types).
`/repo/solidspy/postprocesor.py:379-384`. -/
def elemStrains (iet : ℤ) (elcoor ul : Table K) : Py (List (Fin 3 → K)) :=
  let u (n : ℕ) : Fin n × Fin 2 → K := fun a => (ul.getD a.1 []).getD a.2 0
  match iet with
  | 1 => do
    let x ← Uel.toMat 4 2 elcoor
    let r ← Fem.strEl4 x (u 4)
    pure r.1
  | 2 => do
    let x ← Uel.toMat 6 2 elcoor
    let r ← Fem.strEl6 x (u 6)
    pure r.1
  | 3 => do
    let x ← Uel.toMat 3 2 elcoor
    let r ← Fem.strEl3 x (u 3)
    pure r.1
  | _ => .error .unboundLocal

/-- Body of the element loop of `strain_nodes`.  `/repo/solidspy/postprocesor.py:370-393`.
`iet`, `ndof`, `nne` come from the **first** element.  (A row with a single node would be broadcast
by NumPy; it is a `ValueError` here.) -/
def strainElem {nn : ℕ} (iet : ℤ) (ndof nne : ℕ) (nodes : Table K) (mats : Table K)
    (sol : Table K) (acc : NodeAcc K nn) (el : List ℤ) : Py (NodeAcc K nn) := do
  let mi ← pyGet el 2
  let row ← pyGet mats mi
  match row with
  | [young, poisson] => do
    let shear ← pyDiv young (2*(1 + poisson))
    let fact1 ← pyDiv young (1 - poisson^2)
    let fact2 ← pyDiv (poisson*young) (1 - poisson^2)
    let ielcon := el.drop 3
    if ielcon.length ≠ nne then throw .valueError
    let elcoor ← ielcon.mapM fun i => do
      let nd ← pyGet nodes i
      let x ← pyGet nd 1
      let y ← pyGet nd 2
      pure [x, y]
    if ndof ≠ 2 * nne then throw .valueError
    let ul ← ielcon.mapM fun i => do
      let u ← pyGet sol i
      let ux ← pyGet u 0
      let uy ← pyGet u 1
      pure [ux, uy]
    let epsG ← elemStrains iet elcoor ul
    strainScatter fact1 fact2 shear epsG ielcon.zipIdx acc
  | _ => .error .valueError

/-- `strain_nodes(nodes, elements, mats, sol_complete)`.
`/repo/solidspy/postprocesor.py:325-401`.  A node in no element is `0/0`, a NaN: `none`. -/
def strainNodes (nodes : Table K) (elements : List (List ℤ)) (mats sol : Table K) :
    Py ((Fin nodes.length → Fin 3 → Option K) × (Fin nodes.length → Fin 3 → Option K)) := do
  let el0 ← pyGet elements 0
  let iet ← pyGet el0 1
  let (ndof, nne, _) ← Assem.eletype iet
  let acc ← elements.foldlM (strainElem iet ndof nne nodes mats sol)
    (⟨fun _ _ => 0, fun _ _ => 0, fun _ => 0⟩ : NodeAcc K nodes.length)
  let avg (f : Fin nodes.length → Fin 3 → K) : Fin nodes.length → Fin 3 → Option K := fun k c =>
    if acc.cnt k = 0 then none else some (f k c / (acc.cnt k : K))
  pure (avg acc.E, avg acc.S)

end strains

section truss
variable {K : Type} [Field K] [DecidableEq K]

/-- `a.dot(v)` for a 2-D array and a 1-D array. -/
def ndDot (a : NdArr K) (v : List K) : Py (List K) :=
  match a with
  | .mat m n f =>
    if v.length = n then .ok (List.ofFn fun i : Fin m => ∑ j : Fin n, f i j * v.getD j 0)
    else .error .valueError
  | .vec n f =>
    if v.length = n then .ok [∑ j : Fin n, f j * v.getD j 0] else .error .valueError

/-- `u.dot(v)` for 1-D arrays. -/
def listDot (u v : List K) : Py K :=
  if u.length = v.length then .ok (List.zipWith (· * ·) u v).sum else .error .valueError

/-- Body of the loop of `stress_truss`.  `/repo/solidspy/postprocesor.py:544-555`. -/
def stressTruss1 (sq : K → K) (nodes mats disp : Table K) (el : List ℤ) : Py K := do
  let ini ← pyGet el 3
  let end_ ← pyGet el 4
  let a ← pyGet nodes ini
  let b ← pyGet nodes end_
  let ca := (a.drop 1).take 2
  let cb := (b.drop 1).take 2
  let tan := List.zipWith (· - ·) cb ca
  let length := Uel.norm sq tan
  let mi ← pyGet el 2
  let mrow ← pyGet mats mi
  let (stiff, _) ← Uel.truss2D sq [ca, cb] mrow
  let ua ← pyGet disp ini
  let ub ← pyGet disp end_
  let forces ← ndDot stiff (ua ++ ub)
  let num ← listDot (forces.drop 2) tan
  let area ← pyGet mrow 1
  pyDiv num (length * area)

/-- `stress_truss(nodes, elements, mats, disp)`.  `/repo/solidspy/postprocesor.py:404-556`. -/
def stressTruss (sq : K → K) (nodes : Table K) (elements : List (List ℤ)) (mats disp : Table K) :
    Py (List K) :=
  elements.mapM (stressTruss1 sq nodes mats disp)

end truss

section eig
variable {K : Type} [Field K] [LinearOrder K]

/-- Result of `eigvals`; a NaN vector is `none`. -/
structure Eig (K : Type) where
  eig1 : K
  eig2 : K
  vec1 : Option (K × K)
  vec2 : Option (K × K)

/-- The final swap of `eigvals`.  `/repo/solidspy/postprocesor.py:614-616`. -/
def eigSwap (e : Eig K) : Eig K :=
  if |e.eig2| > |e.eig1| then ⟨e.eig2, e.eig1, e.vec2, e.vec1⟩ else e

/-- `eigvals(mat, tol)` for `mat = [[a, b], [c, d]]`.  `/repo/solidspy/postprocesor.py:559-617`.
A division `0/0` in the diagonal test makes the comparison false; a zero vector normalises to NaN. -/
def eigvals (sq : K → K) (a b c d : K) (tol : K) : Eig K :=
  let mx := max (max |a| |b|) (max |c| |d|)
  eigSwap <|
    if mx < tol then ⟨0, 0, none, none⟩
    else if mx ≠ 0 ∧ |b| / mx < tol then ⟨a, d, some (1, 0), some (0, 1)⟩
    else
      let trace := a + d
      let det := a*d - b^2
      let eig1 := 0.5*(trace - sq (trace^2 - 4*det))
      let eig2 := 0.5*(trace + sq (trace^2 - 4*det))
      let v0 := a - eig2
      let v1 := b
      let n := sq (v0^2 + v1^2)
      if n = 0 then ⟨eig1, eig2, none, none⟩
      else ⟨eig1, eig2, some (v0/n, v1/n), some (-(v1/n), v0/n)⟩

/-- One row of `principal_dirs`: `mat[1, 0]` keeps its initial 0.
`/repo/solidspy/postprocesor.py:647-655`. -/
def principalRow (sq : K → K) (tensor : List K) : Py (Eig K) := do
  let t0 ← pyGet tensor 0
  let t1 ← pyGet tensor 1
  let t2 ← pyGet tensor 2
  pure (eigvals sq t0 t2 0 t1 1e-6)

/-- `principal_dirs(field)`.  `/repo/solidspy/postprocesor.py:620-656`. -/
def principalDirs (sq : K → K) (field : Table K) : Py (List (Eig K)) :=
  field.mapM (principalRow sq)

end eig

section plots
variable {K : Type} [Field K] [LinearOrder K]

/-- `arr.min()` (a `ValueError` on an empty array). -/
def listMin : List K → Py K
  | [] => .error .valueError
  | x :: xs => .ok (xs.foldl min x)

/-- `arr.max()`. -/
def listMax : List K → Py K
  | [] => .error .valueError
  | x :: xs => .ok (xs.foldl max x)

/-- `scaled_stress` of `plot_truss`.  `/repo/solidspy/postprocesor.py:214-218`. -/
def scaledStress (nels : ℕ) (stresses : Option (List K)) : Py (List K) :=
  match stresses with
  | none => .ok (List.replicate nels 1)
  | some s => do
    let mn ← listMin s
    let mx ← listMax s
    let top := max (-mn) mx
    s.mapM fun x => pyDiv (0.5*(x + top)) top

/-- `widths` of `plot_truss`.  `/repo/solidspy/postprocesor.py:211-213,219-223`. -/
def trussWidths (areas : List K) (maxVal minVal : K) : Py (List K) := do
  let mn ← listMin areas
  let mx ← listMax areas
  if mx - mn > 1e-6 then
    pure (areas.map fun a => (maxVal - minVal)*(a - mn)/(mx - mn) + minVal)
  else pure (areas.map fun _ => 3*1)

end plots

/-- `elem[[i, j, k]]`. -/
def pick (el : List ℤ) (idx : List ℤ) : Py (List ℤ) := pyGetMany el idx

/-- Triangles appended for one element by `mesh2tri`.
`/repo/solidspy/postprocesor.py:267-286`. -/
def elemTris (el : List ℤ) : Py (List (List ℤ)) := do
  let ty ← pyGet el 1
  match ty with
  | 1 => [[3, 4, 5], [5, 6, 3]].mapM (pick el)
  | 2 => [[3, 6, 8], [6, 7, 8], [6, 4, 7], [7, 5, 8]].mapM (pick el)
  | 3 => pure [el.drop 3]
  | 4 => [[3, 7, 11], [7, 4, 8], [3, 11, 10], [7, 8, 11], [10, 11, 9], [11, 8, 5],
          [10, 9, 6], [11, 5, 9]].mapM (pick el)
  | _ => pure []

/-- The validation made by `matplotlib.tri.Triangulation`: a non-empty `(n, 3)` integer array with
indices in range. -/
def triangulation (npts : ℕ) (tris : List (List ℤ)) : Py (List (List ℤ)) :=
  if tris = [] then .error .valueError
  else if tris.all (fun t => t.length = 3 && t.all (fun i => decide (0 ≤ i ∧ i < npts))) then .ok tris
  else .error .valueError

/-- `mesh2tri(nodes, elements)` (coordinates are passed through).
`/repo/solidspy/postprocesor.py:245-289`. -/
def mesh2tri (nnodes : ℕ) (elements : List (List ℤ)) : Py (List (List ℤ)) := do
  let ts ← elements.mapM elemTris
  triangulation nnodes ts.flatten

/-- What `fields_plot` does. -/
inductive PlotAction
  | printDisp
  | plotDisp (tris : List (List ℤ))
  | plotStrain (tris : List (List ℤ))
  | plotStress (tris : List (List ℤ))
  deriving DecidableEq, Repr

/-- `k in elements[:, 1]`. -/
def hasType (elements : List (List ℤ)) (k : ℤ) : Bool := elements.any fun el => el[1]? = some k

/-- `fields_plot(elements, nodes, disp, E_nodes, S_nodes)`; the flags say whether strains and
stresses are given.  `/repo/solidspy/postprocesor.py:30-77`. -/
def fieldsPlot (elements : List (List ℤ)) (nnodes : ℕ) (withE withS : Bool) :
    Py (List PlotAction) :=
  if hasType elements 5 || hasType elements 6 || hasType elements 7 then .ok [.printDisp]
  else do
    let t ← mesh2tri nnodes elements
    pure ([.plotDisp t] ++ (if withE then [.plotStrain t] else []) ++
      (if withS then [.plotStress t] else []))

end Post
end SolidsPy
