import Verif.Model.Post

/-!
# Model of the drawing routines of `solidspy/postprocesor.py`

What is drawn where: `plot_truss`, `plot_node_field`, `tri_plot` and the windows that `fields_plot` opens.  Windows
are those of `matplotlib.pyplot`: each has a number and a label, `plt.figure` looks one up or opens it, drawing goes to the
current one.  Colours, axes and fonts are left out.
-/

namespace SolidsPy
namespace Plot

section truss
variable {K : Type} [Field K] [LinearOrder K]

/-- Argument of a colormap: a float in `[0, 1]`, or an integer, which is a position in the colour table. -/
inductive Color (K : Type)
  | scaled (x : K)
  | entry (n : ℤ)
  deriving DecidableEq, Repr

/-- One call of `plt.plot` in `plot_truss`. -/
structure Segment (K : Type) where
  xs : K × K
  ys : K × K
  color : Color K
  width : K
  deriving DecidableEq, Repr

/-- Colours of `plot_truss`: without stresses the **integer** array `np.ones_like(elements[:, 0])`.
`/repo/solidspy/postprocesor.py:214-218`. -/
def trussColors (nels : ℕ) (stresses : Option (List K)) : Py (List (Color K)) :=
  match stresses with
  | none => .ok (List.replicate nels (.entry 1))
  | some s => do
    let c ← Post.scaledStress nels (some s)
    pure (c.map .scaled)

/-- Body of the loop of `plot_truss`.  The colour is looked up with the **number** `elem[0]` of the element.
`/repo/solidspy/postprocesor.py:225-230`. -/
def plotMember (nodes : Table K) (colors : List (Color K)) (widths : List K) (el : List ℤ) : Py (Segment K) :=
  match el.drop 3 with
  | [ini, end_] => do
    let num ← pyGet el 0
    let c ← pyGet colors num
    let a ← pyGet nodes ini
    let b ← pyGet nodes end_
    let xa ← pyGet a 1
    let xb ← pyGet b 1
    let ya ← pyGet a 2
    let yb ← pyGet b 2
    let mi ← pyGet el 2
    let w ← pyGet widths mi
    pure ⟨(xa, xb), (ya, yb), c, w⟩
  | _ => .error .valueError

/-- `plot_truss(nodes, elements, mats, stresses, max_val, min_val)`.  `/repo/solidspy/postprocesor.py:175-241`. -/
def plotTruss (nodes : Table K) (elements : List (List ℤ)) (mats : Table K) (stresses : Option (List K))
    (maxVal : K := 4) (minVal : K := 1 / 2) : Py (List (Segment K)) := do
  let areas ← mats.mapM fun r => pyGet r 1
  let colors ← trussColors elements.length stresses
  let widths ← Post.trussWidths areas maxVal minVal
  elements.mapM (plotMember nodes colors widths)

end truss

section windows
variable {K : Type}

/-- What names a window: a number or a label. -/
inductive Key
  | num (n : ℤ)
  | label (s : String)
  deriving DecidableEq, Repr

/-- Values at the nodes with a title, as drawn by `tri_plot` over a triangulation. -/
structure Drawing (K : Type) where
  tris : List (List ℤ)
  values : List K
  title : String
  deriving DecidableEq, Repr

/-- A window. -/
structure Fig (K : Type) where
  num : ℤ
  label : String
  drawn : List (Drawing K)
  deriving DecidableEq, Repr

/-- `pyplot`: the open windows by increasing number, the current one, and the files saved (name, contents). -/
structure State (K : Type) where
  figs : List (Fig K)
  current : ℤ
  files : List (String × List (Drawing K))
  deriving DecidableEq, Repr

/-- Insert a window by its number. -/
def insertFig (f : Fig K) : List (Fig K) → List (Fig K)
  | [] => [f]
  | g :: gs => if f.num < g.num then f :: g :: gs else g :: insertFig f gs

/-- `max(plt.get_fignums()) + 1`, or 1 when no window is open. -/
def nextNum (figs : List (Fig K)) : ℤ :=
  match figs.getLast? with
  | none => 1
  | some f => f.num + 1

/-- `plt.figure(key)`: an open window with this number (or label) becomes the current one, else a new one is opened;
a labelled new window gets the next number. -/
def figure (st : State K) (key : Key) : State K :=
  match key with
  | .num n =>
    if n ∈ st.figs.map (·.num) then { st with current := n }
    else { st with figs := insertFig ⟨n, "", []⟩ st.figs, current := n }
  | .label s =>
    match st.figs.find? (fun f => f.label = s) with
    | some f => { st with current := f.num }
    | none => { st with figs := st.figs ++ [⟨nextNum st.figs, s, []⟩], current := nextNum st.figs }

/-- Something is drawn in the current window. -/
def draw (st : State K) (d : Drawing K) : State K :=
  { st with figs := st.figs.map fun f => if f.num = st.current then { f with drawn := f.drawn ++ [d] } else f }

/-- `plt.savefig(name)`: the current window is written to a file. -/
def savefig (st : State K) (name : String) : State K :=
  { st with files := st.files ++ [(name, ((st.figs.find? fun f => f.num = st.current).map (·.drawn)).getD [])] }

/-- The array handed to `plot_node_field`: 1-D, or 2-D with `n` rows and `c` columns. -/
inductive NodeField (K : Type)
  | vec (v : List K)
  | mat (n c : ℕ) (f : Fin n → Fin c → K)

/-- `tri_plot(tri, field, title, levels, savefigs, plt_type, filename)`.  `values` is `none` for a 2-D array, which
`tricontourf` and `tripcolor` refuse, as they do an array whose length is not the number of points.  An unknown `plt_type` leaves
`disp_plot` unbound.  `/repo/solidspy/postprocesor.py:80-112`. -/
def triPlot (st : State K) (npts : ℕ) (tris : List (List ℤ)) (values : Option (List K)) (title : String)
    (savefigs : Bool) (pltType filename : String) : Py (State K) := do
  if pltType ≠ "pcolor" ∧ pltType ≠ "contourf" then throw .unboundLocal
  match values with
  | none => throw .valueError
  | some v => do
    if v.length ≠ npts then throw .valueError
    let st := draw st ⟨tris, v, title⟩
    pure (if savefigs then savefig st filename else st)

/-- `field.shape[1]`, or 1 for a 1-D array.  `/repo/solidspy/postprocesor.py:148-151`. -/
def nfields : NodeField K → ℕ
  | .vec _ => 1
  | .mat _ c _ => c

/-- `current_field`: with a single field the array itself, else a column.  `/repo/solidspy/postprocesor.py:161-164`. -/
def column (field : NodeField K) (cont : ℕ) : Option (List K) :=
  match field with
  | .vec v => some v
  | .mat n c f => if c = 1 then none else if h : cont < c then some (List.ofFn fun i : Fin n => f i ⟨cont, h⟩) else none

/-- Body of the loop of `plot_node_field`.  `/repo/solidspy/postprocesor.py:160-171`. -/
def plotColumn (field : NodeField K) (npts : ℕ) (tris : List (List ℤ)) (pltType : String) (savefigs : Bool)
    (title : List String) (figtitle : List Key) (filename : List String) (st : State K) (cont : ℕ) : Py (State K) := do
  let key ← pyGet figtitle cont
  let st := figure st key
  let t ← pyGet title cont
  let name ← pyGet filename cont
  let st ← triPlot st npts tris (column field cont) t savefigs pltType name
  pure (if savefigs then savefig st name else st)

/-- `plot_node_field(field, nodes, elements, plt_type, levels, savefigs, title, figtitle, filename)`.
`/repo/solidspy/postprocesor.py:115-172`. -/
def plotNodeField (st : State K) (field : NodeField K) (nnodes : ℕ) (elements : List (List ℤ))
    (pltType : String := "contourf") (savefigs : Bool := false) (title : Option (List String) := none)
    (figtitle : Option (List Key) := none) (filename : Option (List String) := none) : Py (State K) := do
  let tris ← Post.mesh2tri nnodes elements
  let n := nfields field
  let title := title.getD (List.replicate n "")
  let figtitle := figtitle.getD ((List.range n).map fun (cont : ℕ) => .num ((st.figs.length : ℤ) + cont + 1))
  let filename := filename.getD ((List.range n).map fun (cont : ℕ) => "output" ++ toString cont ++ ".pdf")
  (List.range n).foldlM (plotColumn field nnodes tris pltType savefigs title figtitle filename) st

/-- The labels of the windows of `fields_plot`.  `/repo/solidspy/postprocesor.py:57-76`. -/
def dispLabels : List String := ["Horizontal displacement", "Vertical displacement"]
def strainLabels : List String := ["Strain epsilon-xx", "Strain epsilon-yy", "Strain gamma-xy"]
def stressLabels : List String := ["Stress sigma-xx", "Stress sigma-yy", "Stress tau-xy"]

/-- A field drawn by `fields_plot`, if given, in windows with the given titles and labels. -/
def plotIn {n c : ℕ} (elements : List (List ℤ)) (title labels : List String) (field : Option (Fin n → Fin c → K))
    (st : State K) : Py (State K) :=
  match field with
  | none => .ok st
  | some f => plotNodeField st (.mat n c f) n elements "contourf" false (some title) (some (labels.map .label)) none

/-- `fields_plot(elements, nodes, disp, E_nodes, S_nodes)` with the windows it draws in.
`/repo/solidspy/postprocesor.py:30-77`. -/
def fieldsPlot (st : State K) (elements : List (List ℤ)) (nnodes : ℕ) (disp : Fin nnodes → Fin 2 → K)
    (strains stresses : Option (Fin nnodes → Fin 3 → K)) : Py (State K) :=
  if Post.hasType elements 5 || Post.hasType elements 6 || Post.hasType elements 7 then .ok st
  else do
    let st ← plotIn elements ["$u_x$", "$u_y$"] dispLabels (some disp) st
    let st ← plotIn elements ["$\\epsilon_{xx}$", "$\\epsilon_{yy}$", "$\\gamma_{xy}$"] strainLabels strains st
    plotIn elements ["$\\sigma_{xx}$", "$\\sigma_{yy}$", "$\\tau_{xy}$"] stressLabels stresses st

end windows

end Plot
end SolidsPy
