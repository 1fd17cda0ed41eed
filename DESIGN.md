# Formal model of SolidsPy

SolidsPy (source read as text from `/repo`) is a small 2D finite element code.
This directory holds a Lean 4 model of it and proofs of the properties listed in
`properties.jsonl`.

## Layout

| Path | Content |
|---|---|
| `lean/Verif/Basic.lean` | Python values that matter: errors, indexing, slices, arrays |
| `lean/Verif/Model/*.lean` | the model, one definition per Python function, each citing file and lines |
| `lean/Verif/Spec/*.lean` | specifications written without the model's helpers |
| `lean/Verif/Proofs/*.lean` | lemmas |
| `lean/Verif/Props/*.lean` | the property theorems `Cnn_...`, each with a concrete case beside it |
| `lean/Verif/Check/Upstream.lean` | the numeric assertions of `/repo/tests`, evaluated on the model (no property rests on them) |
| `seeded/LOG.jsonl` | mutation testing record |
| `tools/` | scripts: manifest, duplicate names, axioms, mutation testing |
| `MANIFEST.json` | property -> theorems |

## Conventions of the model

* **Numbers.** Python floats are modelled by an arbitrary linearly ordered field `K`
  (`ℚ` to run examples, `ℝ` for derivatives, integrals and square roots, `ℂ` for Bloch phases).
  Decimal literals in the source are exact rationals (`0.333333333333` is *not* 1/3).
  Rounding, overflow and NaN propagation are **not** modelled (rounding only in `Model/Rounded.lean`, for trusses); the one place where the code
  tests floats approximately (`np.isclose`, `np.allclose`) is modelled with NumPy's formula and
  default tolerances.
* **Errors.** A Python function is a Lean function into `Except PyErr`. The constructors
  of `PyErr` are Python exception classes. A division by zero, which in NumPy gives `inf`/`nan`
  with a warning, is the pseudo-exception `nonFinite`.
* **Indexing.** `pyIdx` is Python/NumPy indexing: negative indices count from the end, anything
  else out of range is `IndexError`.
* **Square roots** (`np.linalg.norm`, `eigvals`): the functions take the square root as a parameter
  `sq`; theorems assume `0 ≤ sq x` and `sq x * sq x = x` for `0 ≤ x`, which `Real.sqrt` satisfies.
* **Loops** are folds or structural recursions over the same lists, in the same order.
* **Arrays.** Input tables are lists of rows. Element matrices are functions on
  `Fin n × Fin d` (node, component) and are flattened with `finProdFinEquiv`, i.e. index `d*node+component`,
  which is the interleaving produced by the strided slices `B[0, 0::2]` and so on.
* **`np.linalg.inv`** of a Jacobian is `det⁻¹ • adjugate`, only reached after the determinant guard.
* **Linear solvers** (`numpy.linalg.solve`, `scipy spsolve`), iteration order of Python `set`, and
  `exp(1j x)` are parameters or Mathlib functions; assumptions on them are hypotheses of the theorems.

## Trusted base

* **Lean's kernel** (4.33.0) and the Mathlib definitions that appear in statements (`Matrix`, `Real.sqrt`,
  `HasDerivAt`, `intervalIntegral`, `Complex.exp`, `Matrix.PosSemidef`, ...).
* **Axioms.** No axiom is declared here, and there is no `sorry`, `native_decide` or `bv_decide`. `tools/axioms.py` prints
  the axioms of every theorem of the manifest. All are among `propext`, `Classical.choice` and `Quot.sound`. Almost
  all use the three. The exceptions use fewer: `C17_other_solver_unused` none; `C17_solver_dispatch` only `propext`;
  `C35_returns_iff`, `C68_unknown`, `C69_nodes`, `C82_prints_iff`, `C82_plots`, `C84_counterexample` only `propext` and
  `Quot.sound`. `decide +kernel` is used on the finite quadrature tables; it is evaluation by the kernel itself.
* **The reading of the source.** Nothing here runs the Python code. That `Verif/Model` says what `/repo/solidspy` does
  is checked by reading; each definition cites the lines it transcribes. As a further check, `Check/Upstream.lean`
  evaluates on the model, in rational arithmetic, the assertions of the project's own tests that compare numbers
  (elements, shape functions, Jacobian errors, assembly, two plane models, a frame, nodal strains, grids, quadrature).
  The expected values were copied from the tests by a script and all of them hold.
* **The statements**: the definitions in `Verif/Spec` and at the head of the files of `Verif/Props`.

## What is modelled

| Source | Model | Not modelled |
|---|---|---|
| `assemutil.py` | `Model/Assem.lean`, `Uel.eleFun` | `ele_fun` names only, no printing |
| `solutil.py` | `Gui.lean: staticSol` | the solvers are parameters |
| `femutil.py` | `Model/Fem.lean`, `Assem.eletype` | nothing |
| `uelutil.py` | `Model/Uel.lean` | nothing |
| `gaussutil.py` | `Model/Gauss.lean` | nothing (tables copied by a script) |
| `preprocesor.py` | `Model/Pre.lean`, `Model/Files.lean`, `Run.lean: initialParams` | the dialog itself (its outcome is an argument) |
| `postprocesor.py` | `Model/Post.lean`, `Model/Plot.lean` | colour maps, axes and fonts (the numbers, titles and windows are modelled) |
| `blochutil.py` | `Model/Bloch.lean` | nothing |
| `docs/tutorials/template_input.py` | `Model/Template.lean` | `meshio.read` (its result is the input) |
| `docs/tutorials/brazilian_test.rst` lines 209-265 | `Model/Brazil.lean` | `meshio.read`; the geometry file of lines 1-208 |
| `docs/tutorials/square_example.rst` line 194, `examples/square-4_elements/*.txt` | `Model/Square.lean` | the printing itself (rounding to three decimals) |
| `examples/beam_convergence/beam_convergence.ipynb` | `Model/Examples.lean` | interpolation between meshes, error and plots |
| `solids_GUI.py` | `Model/Gui.lean`, `Model/Run.lean`, `Model/Heap.lean` | clocks, messages other than the equilibrium one |

Simplifications, each noted at its definition:

* rounding of floats (see Numbers above), so no claim is made about accuracy, except that C161 and C162 bound the effect of inexact data and of an inexact linear solver, and that C165 treats trusses with operations that round (`Model/Rounded.lean`: relative errors within a unit, without overflow or underflow);
* `inf`/`nan` are the pseudo-exception `nonFinite` (or `none` in `strain_nodes` and `eigvals`, where the source lets them pass
  on purpose or where later code depends on them);
* in-place mutation: functions return new tables; `Model/Heap.lean` puts arrays into a memory with references and views and is proved to agree
  (C163);
* NumPy raggedness: tables are lists of lists, so rows of unequal length can be written down; the source can only be
  called with rectangular arrays. Theorems hold for both;
* element indices and type codes are integers (`elements` is read with `dtype=int`);
* the axisymmetric routine with a wrong number of columns: order of two exceptions;
* `setCol` with an empty index list does not check the column; `loadasem` with `ndof_node = 0` reads a row the source does not;
* file names are compared as text (`a/b` and `a//b` are two names); a line of a text file ends with `\n`; `inf` and `nan` are not numerals; a numeral is the rational it denotes; the conversion to
  `int` is the one of NumPy before 1.23 (truncation), later versions do the same with a deprecation warning;
* a material row of `strain_nodes` of one node per element would be broadcast; here it is an error.

## Not modelled

The inside of the `easygui` dialog, timing and printing
(except the equilibrium warning), the inside of matplotlib (windows are a list with a current one), floating point rounding,
performance, memory.

## Where the code disagrees with its documentation or with mechanics

Found while proving; each is a theorem (negation or exact characterisation), named in brackets.

* `eqcounter` takes any non-zero code as a constraint but every consumer tests for `-1` only: code `1` aliases
  equation 1, code `-2` wraps to the last equation but one (dense) or raises (sparse) [C03, C08, C13].
* `DME` pads rows with 0, so a mesh with smaller elements before larger ones is rejected, a single value is broadcast, and with
  `ndof_node = 2` on three constraint columns rotations alias equation 0 [C05, C06].
* `template_input.py` writes the shares of the load with six decimals: the file carries the intended total only if the number of
  loaded nodes divides 2000000; coordinates are cut to four decimals; without a loaded line it stops [C130].
* `beam_convergence.ipynb`: the displacements of `beam_sln` do not have the shear strain it returns (the term `C5` enters twice and
  the cubic term should be a third) [C131]; its first plot uses `h = 4` with the `I` of `h = 8` [C131]; the loads add up to
  `P + P/ny`, the vertical support is not on the clamped edge, and the call of `DME` raises at this commit [C132].
* The equilibrium check of `solids_auto` divides by the largest stiffness and compares with an absolute tolerance of 1e-8: it is blind to loads
  below 1e-8 times that entry (2000 N for steel in SI units and unit thickness) [C162].
* `boundary_conditions` writes into its argument, so conditions for two load cases made from one array accumulate [C163].
* `loadasem` overwrites: two loads on one node do not add [C14].
* `spring` returns a 1-D mass, which assembly cannot index; a two-value material row gives an asymmetric matrix [C55].
* `beam2DU` and `beam2D` use a rotation with a wrong sign or transposed: a rigid rotation gives nodal forces unless the beam is
  horizontal [C56]. Beams cannot run through `solids_auto`, which fixes two degrees of freedom per node.
* `beam2D` takes `params[3:]` as density array; six values give an asymmetric mass [C57, C58].
* Extra node columns enter the bar length [C54].
* `jacoper` has an absolute threshold of 1e-8: small valid elements are rejected [C29, C30].
* `elast_mat_axi` and `elast_mat_2d` lack the coupling between the out-of-plane and in-plane normal strains [C37].
* `elast_axi_quad9` integrates without the factor `r` [C50].
* `str_el3` fills one of three rows, so nodal strains of linear triangles are wrong [C75]; `str_el*` report the abscissa twice
  [C78]; `str_el4` lists Gauss points in an order that is not the node order, which
  spoils the strains at the border of a mesh, with a wrong sign at some corners [C146].
* `strain_nodes` takes the type from the first element, needs exactly two material columns, has no 9-node element, and
  leaves NaN at nodes in no element [C77].
* `reassign_dof_bloch` does not reproduce the numbering of its own docstring mesh [C84].
* `echomod` writes two decimals, so the echo of small areas, moments of inertia or densities is zero [C103].
* `initial_params` adds a slash to a folder chosen in the dialog but not to a typed one: `job` makes it look for `jobnodes.txt` [C111].
* `loading` divides by zero for a tag without lines [C71].
* `fields_plot` treats type 8 as a continuum and fails [C82].
* `plot_truss` divides by zero for zero stresses and ignores the width limits for equal areas [C81].
* `plot_truss` looks up colours by element number and widths by row of the material: trusses numbered from one fail [C106].
* `plot_node_field` rejects a 2-D array with one column, may draw over an open window when no names are given, and saves every
  file twice [C107].
* `tri3` and `tri6` use weights that add up to 0.999999999999 and 0.9999999999999 [C43, C63].

## Plan per property

Each line: what is modelled, and how it is proved. `†` marks a property that the code violates as
intended; there the negation is proved with a witness and the true part is proved under the suffix `_partial`.

* **C01** Equation numbering is a bijection: `eqcounter`; structural recursion over rows; invariant: the free entries read off in order are `neq0, neq0+1, ...`.
* **C02** Constrained entries survive numbering: same recursion; shape and untouched entries by induction; error branch characterised.
* **C03** A constrained degree of freedom never receives an equation: † from C01/C02: negative codes never equal a number; witness with code 1.
* **C04** Assembly operator rows: `DME` as a loop; row content by induction over elements.
* **C05** DME rejects inconsistent meshes: `DME`/`eletype`; success implies width equation for every row; padding rejected.
* **C06** Wrong ndof_node silently aliases rotations: `DME` with `ndof_node = 2` on 3 columns; entry 2 untouched hence 0.
* **C07** Dense assembly is scatter-add: `dense_assem` double loop; invariant: accumulated matrix = sum of processed triplets; spec is a double sum.
* **C08** Sparse and dense assembly agree: `sparse_assem` collects triplets, COO sum; both equal the same scatter spec, success conditions compared.
* **C09** Assembly does not depend on element order: from C07: sum over a permuted list.
* **C10** Assembled matrices are symmetric: from C07, swapping the local indices.
* **C11** Energy equivalence: from C07: exchange of sums with gather of completed displacements.
* **C12** Assembled matrix is positive semidefinite: from C11.
* **C13** Load vector contents: `loadasem` as a fold of overwrites; last matching row.
* **C14** Load superposition: † witness with a repeated node; disjoint lists add.
* **C15** Displacement completion round trip: `complete_disp` + C01.
* **C16** Element data retrieval: `retriever`: congruence in the looked-up rows; error branches.
* **C17** Solver dispatch: `static_sol` with a tag for the matrix class.
* **C18** Nodal equilibrium of the computed solution: composition `solids_auto`; C11 bilinear form with unit vectors plus C01 and C13.
* **C19** The solution is the only equilibrium configuration: converse of C18 and nonsingularity.
* **C20** Element order does not change the answer: C09 and uniqueness.
* **C21** Node numbering does not change the answer: C18/C19 on the renumbered model.
* **C22** Linear response: C19 uniqueness.
* **C23** Reciprocity and positive work: symmetry (C10) and C12.
* **C24** Energy output: `energy`; quadratic form algebra.
* **C25** Silence means a small residual: `np.allclose` formula.
* **C26** Partition of unity: `ring` on each component.
* **C27** Interpolation is exact on the element's polynomial space: polynomial spaces given by coefficients; `ring`.
* **C28** Reported derivatives are the derivatives: `HasDerivAt` over the reals for each component.
* **C29** Jacobian guard: `jacoper` in dimension 2 and 3; adjugate identities.
* **C30** Inverted elements are rejected: determinant changes sign under reflection; every routine has a Gauss point.
* **C31** Strain recovery is exact for linear fields (plane): chain rule algebra: `inv(jac) @ jac = 1`, general in the derivative array with zero row sums.
* **C32** Strain recovery is exact for linear fields (3D): same in 3D.
* **C33** Axisymmetric kinematics: same with the hoop row.
* **C34** Plane stress law is the condensation of 3D Hooke: field algebra.
* **C35** Plane stress matrix is symmetric positive definite: sum of squares.
* **C36** 3D elasticity matrix: sum of squares; matrix inverse by `field_simp`.
* **C37** Axisymmetric law agrees with 3D Hooke: † agreement iff `λ = 0`; witness.
* **C38** Local matrices are symmetric: invariant of the Gauss loop.
* **C39** Local stiffness and mass are positive semidefinite: invariant of the Gauss loop with sum of squares; structural elements separately.
* **C40** Rigid body motions produce no nodal force (continuum): from C31/C32: strain of a rigid motion is zero.
* **C41** Zero energy implies zero strain: from positive definiteness of the material matrix.
* **C42** Element patch property: from C31.
* **C43** Element mass: translation vectors in `H`; sum of quadrature weights; explicit for quad4 (bilinear determinant), tri3, tet4.
* **C44** Element matrices do not depend on position: rows of the derivative arrays sum to zero.
* **C45** Rotating an element rotates its stiffness: `jac` gets multiplied by the rotation; isotropy of `umat`.
* **C46** Scaling laws: `jac` scales; loop linearity.
* **C47** Cyclic renumbering of an element: symmetry of shape functions and of the 2x2 rule under `(r,s) -> (-s,r)`.
* **C48** Constant strain triangle closed form: unfold the one point rule.
* **C49** Density parameter handling: case analysis on the parameter list.
* **C50** Axisymmetric element volume weighting: † total mass of the model equals the plane quadrature; witness by translation along r.
* **C51** Truss force law: `truss2D`: rank one form.
* **C52** Truss orientation independence: direct.
* **C53** Truss axial stress: `stress_truss` reduces to the axial elongation.
* **C54** Extra node columns contaminate bar lengths: norm over all columns; iff condition.
* **C55** Spring law and spring assembly: † spring law direct; assembly raises `IndexError` by unfolding the loop.
* **C56** Beam rigid body invariance: † translations direct; rotation iff horizontal.
* **C57** Beam matrices: sum of squares; `ring`.
* **C58** Beam mass: `ring`.
* **C59** 1D Gauss rules: tables as rationals, kernel evaluation on the finite table, case split on the order.
* **C60** 1D Gauss exactness: monomial error by kernel evaluation, extended to all polynomials by linearity; integral is Mathlib's.
* **C61** Tensor rules: `itertools.product` as recursion; induction over the dimension.
* **C62** Tensor rule exactness: C60, C61 and an induction on products.
* **C63** Triangle rules: as C60 with iterated integrals.
* **C64** Tetrahedron rules: as C60 with iterated integrals.
* **C65** Structured mesh connectivity: `rect_grid` loops as list comprehension; index arithmetic.
* **C66** Structured mesh geometry: index arithmetic and field algebra.
* **C67** Structured mesh is conforming: index arithmetic; edge characterisation.
* **C68** Element extraction from a mesh: filter and enumerate.
* **C69** Node table: map with index.
* **C70** Boundary conditions touch exactly the tagged nodes: fold over an arbitrary enumeration of the node set.
* **C71** Line loads add up: sum over an arbitrary enumeration.
* **C72** Line loads reach the right hand side: C13 + C71.
* **C73** Plotting triangulation covers the element: per type list of triangles; `ring`.
* **C74** Nodal strains are exact for linear fields: `strain_nodes` accumulation loop; C31.
* **C75** Nodal strains for linear triangles: † same loop with one Gauss point.
* **C76** Nodal stress is Hooke of nodal strain: accumulated stress is linear image of accumulated strain.
* **C77** Strain recovery support: error branches.
* **C78** Gauss point positions reported by str_el*: † both columns equal.
* **C79** 2x2 eigen-decomposition: algebra with an abstract square root.
* **C80** Principal values field: row-wise map.
* **C81** Truss plot scaling: order algebra.
* **C82** Field plotting dispatch: membership analysis.
* **C83** Reduced numbering of Bloch degrees of freedom: recursion over degrees of freedom.
* **C84** Image degrees of freedom share their reference number: † recursion; docstring mesh as witness.
* **C85** Bloch transformation imposes the phase condition: matrix with one non-zero per row.
* **C86** Bloch transformation columns are orthogonal: sum over rows grouped by column.
* **C87** Wavevector symmetries: properties of `exp`.
* **C88** Bloch reduction keeps Hermitian semidefinite form: congruence transform.
* **C89** The two drivers agree: unfolding; the strain recovery ignores the restriction columns.
* **C90** Element tables agree with the element routines: case analysis on the type; shape of each routine's output.
* **C91** Global balance of forces and moments: symmetry of the element matrices and rigid body null vectors as virtual displacements.
* **C92** Method of joints: C18 with the bar force written through C51 and C79.
* **C93** A well posed plane model is solved silently: every step of the pipeline shown to succeed; Cauchy-Schwarz for the mechanisms.
* **C94** Zero energy modes of the elements: polynomial identities at the points of each rule force the strain to vanish identically.
* **C95** Supports that suffice for a connected mesh: C94 per element, rigid motions agree across two shared nodes, induction along the path.
* **C96** Patch test: the rules integrate the gradients exactly; forces on a common side cancel by the involution that swaps its ends.
* **C97** Plates meshed by rect_grid: C65-C67 give C95 and C96; the linear field is in equilibrium and C19 makes it the result.
* **C98** Minimum potential energy: the gap to the minimum is the energy of the difference; C93 makes it definite.
* **C99** Stiffening reduces the response: comparison of potential energies (C98); element forms are proportional to Young's modulus (C46, C51).
* **C100** Asking for strains never breaks a run that works, and a plate in tension gets its exact uniform strain and stress: strain routines evaluate a subset of the stiffness points, then C97 and C74
* **C101** The layout of an input file does not matter: inductive layout relation against a character-by-character splitter; both directions by induction on the text
* **C102** Numbers in input files are read exactly, and only numerals are numbers: parser against a grammar with positional value; both directions
* **C103** What an echo file keeps of a table: formatter composed with the parser of C102 and the layout of C101; rounding analysed with the floor
* **C104** Echoing a model touches only the four echo files: function update; names end in S.txt or not
* **C105** A run on a folder solves the model written in its files: C101 and C102 for each file, then C89 and C18
* **C106** plot_truss draws each member in the colour of the stress stored under its number: reduce the loop body to a colour look-up, then C81 for the scales and C53 for the stress
* **C107** Each nodal field is drawn in its own window: induction over the columns with an invariant on the list of windows
* **C108** Models that can move: null vectors of a connected mesh are rigid motions (C95); a symmetric system is solvable exactly for right hand sides orthogonal to its null vectors
* **C109** Turning and shifting the whole model: elements turn by C44/C45; equilibrium in weak form is carried over by the turned fields, and C19 makes it the result
* **C110** Size of the model does not change displacements under given forces: stiffness independent of size (C46), equilibrium carried over, C19
* **C111** Which files solids_GUI reads: case analysis of `initial_params`; the four names are not below the typed folder; C89 and C105 for the run
* **C112** Refining a mesh of triangles never makes the model stiffer: closed form of the triangle's energy on linear fields; regrouping of the sum over fine triangles by parent; principle of virtual work on both meshes (Props/Refinement.lean)
* **C113** Element mass matrices are positive definite: the values of the shape functions at the integration points of each rule have full column rank; the form is a sum of positive multiples of squares
* **C114** The assembled mass matrix: the scatter description of assembly applied to the mass arrays, then C113 element by element
* **C115** Waves in a periodic mesh: zero energy means both the real and the imaginary part of the wave are rigid motions (C95); a rotation with a phase across a pair must be about the midpoint of the pair; the mass is positive definite (C114) and the transformation injective (C86).
* **C116** Natural frequencies and modes of a uniform bar: forces at an inner node of the line of bars give tridiagonal recurrences; sines diagonalise them; a count of independent eigenvectors excludes any other frequency; trigonometric inequalities give the bounds and the limit
* **C117** Static analysis of frames: rotations and couples balance: operator rows from C04 give the steps of the assembly; equilibrium_iff and det_ne_zero_of_stable with three degrees of freedom per node; exact solution of the frame of the test as the example
* **C118** A cantilever of beams is exact at the nodes: energy of the beams gives stability; the exact curve advances over one element by the recursions that its end forces satisfy; uniqueness from C117; derivatives of Macaulay brackets for the curve
* **C119** Vibration modes of an assembled model: `Verif.Proofs.Pencil` diagonalises a symmetric pencil with positive definite mass; `Verif.Props.Vibration` transports it through the assembler by the refinement of forms (C18, C114).
* **C120** How the frequencies depend on supports, materials, place and size: `Verif.Props.Compare`, from the min-max value of C119 and the energies of related elements (C98, C109, C110).
* **C121** Beam matrices are the energies of cubic curves: coefficients of the cubic from its end values; both integrals by the fundamental theorem of calculus; least energy by integrating the cross term by parts (Props/BeamEnergy).
* **C122** How frames of beams vibrate: curves of C121 for the forms; sum of squares for the square of a cubic; the scatter lemma with the mass array; simultaneous diagonalisation as in C119 (Props/FrameModes).
* **C123** Bounds for the frequencies of a cantilever, whatever its division: induction over the beams for a Cauchy-Schwarz bound of deflection and slope by the bending energy, integrated and summed; trial field 3Lx^2-x^3 for the upper bound (Props/CantModes).
* **C124** Dividing a beam changes no static displacement and raises no frequency: Props/FrameSplit.lean: bending energy by parts, so that a cubic is resisted through its ends only; polynomials seen from a point; the new node's values as interpolation; equilibrium transfer, stability both ways, C117 for the runs, the minimum-maximum principle of C122 for frequencies. Case shown: the frame of test_beams with its column divided.
* **C125** Which supports hold a frame of beams: Props/FrameSupports.lean: vanishing of the two integrals of a beam determines its ends from one another; propagation along a path of beams; comparison of mirrored and true motions under axis-parallel supports by a change of sign; the minimum-maximum principle of C122 at zero. Cases shown: the frame of test_beams held by one clamp, and its energy under a rotation.
* **C126** Dividing a bar by a node on it: a mechanism unless the node is held across the bar, otherwise no change: Prove that the element lists of the two models differ in the bar only; express the work of the parts by the displacements along the bar; solve for the force on the new node; exhibit the mechanism; compare Rayleigh quotients through the field on the line.
* **C127** Nodal strains and stresses turn with the model and shrink with its size: chain rule for the displacement gradient at each point, invariance of the plane stress law under the tensor rotation, linearity of the nodal mean, then C109 and C110 for the displacements
* **C128** Turning, mirroring or enlarging a frame of beams: the cubic and the linear function of a moved beam have the coefficients of the old ones times powers of s and the sign of det Q, so the energy forms scale; weak forms of equilibrium and stability for any number of degrees of freedom carry this to the analysis, and the min-max principle to the frequencies.
* **C129** Work and energy in frames of beams: weak form of equilibrium for three degrees of freedom per node; quadratic forms; min-max values
* **C130** The tutorial script writes the mesh, its supports and a total load of -2 into the input files: formats with k decimals proved to be numerals of the nearest multiple of 10^-k; tables read back column by column; share of the load summed exactly
* **C131** The closed-form cantilever of the convergence notebook: its stresses are right, its displacements are not: the displacements are cubic in each coordinate; derivatives of cubics, the law of umat inverted on the strains, integral of the parabolic shear stress
* **C132** The finite element models of the convergence notebook: total load, supports, solution and stale call: node numbers of the grid as row and column; two supports in x at different heights and one in y exclude rigid motions; C97 for the solution, C22 for the scaling; counting the entries a five-column table puts into a row of the assembly operator
* **C133** Halving the cells of a rect_grid plate never makes it stiffer, beyond the rounding of the Gauss points: closed form of the energy of a rectangle: centre strain plus g^2 times the variation; the four quarters computed; sums over cells regrouped by parents; completion of the square against the fine solution; induction over the halvings
* **C134** The tutorial works from the mesh to the displacements: The rows read back are characterised by C130; triangles above the tolerance after rounding form a SolidMesh; C95 gives stability from the supports, C105 carries the run from files to memory, C91 and C130 give the reactions.
* **C135** A static analysis with the user's own element routine is correct: The generic equilibrium theorem of C18 with the routine as a variable; rows of the assembly operator from C04; success of the local arrays for every element
* **C136** Solid bodies of tetrahedra or bricks stand exactly when their supports prevent rigid motions, and their reactions balance the loads: Virtual work of rigid motions (C40) over the mesh; null spaces of the elements (C94) joined across shared faces; energy criterion for stability; C135 for the solution
* **C137** Mirror images of plane elements: with the nodes read in the other sense the element gives the mirrored matrices, in the old order it is refused: The reversal as a permutation of the nodes with a linear map of the reference element carrying the rule into itself; change of variables in the sums over Gauss points; sign of the determinant for the refusal
* **C138** The mirror image of a model is solved by the mirror image of its displacements: C137 for each element gives equality of the virtual works; the general transport of equilibria between two models (as for C109); uniqueness from C19
* **C139** Half of a symmetric model: rollers on the axis and half of the loads there give the displacements of the whole: Virtual work of the whole as that of the half with the field and with its mirror image; folding and unfolding of fields; weak forms of equilibrium and stability
* **C140** The tutorial on the Brazilian test computes the disc from its quarter: the script is evaluated on an arbitrary mesh and its files are read back with the lemmas of C105 and C130; the analysis is supported because two points on the second axis and the centre are held; the whole is built by C139_exists twice and its equilibrium comes from C139_unfolds and C139_folds (Props/Brazil.lean, Props/Doubling.lean, Model/Brazil.lean).
* **C141** Bodies of revolution made of nine-node axisymmetric elements stand exactly when held along the axis: The axisymmetric matrix of elasticity is positive definite, so zero energy means zero strain at the nine Gauss points; the hoop strain gives the radial displacement zero, the other strains the gradient of the axial displacement zero, and nine Gauss points determine the biquadratic interpolant. The global part follows the chain of common nodes and uses the theorems on user elements (C135).
* **C142** Separate structures in one model do not influence each other: Internal forces split over the two lists of elements, and the second list is a renumbered copy; uniqueness of the equilibrium (C19) identifies the displacements.
* **C143** The assembled matrices couple only nodes of a common element, so their band follows from the numbering: A column of the matrix is the internal force of a unit displacement, which is zero at nodes without a common element; equation numbers increase with the place of the degree of freedom, so their difference is bounded by the difference of the places.
* **C144** The Bloch analysis of a periodic rod gives the dispersion curve in closed form, whatever the number of bars in the cell: Node p has equation p; the assembled matrices act as three-term stencils, extended to complex vectors; the reduced matrices are diagonal on the powers exp(i t p), which form a Vandermonde basis (roots of unity); bounds and limit from the estimates of C116.
* **C145** The patch test through the whole program, and the first tutorial: C96 gives the internal forces of an affine field and C19 the uniqueness of the solution; the tutorial plate is shown to be an instance, its files are read by the model of readin; the pairing criterion follows from the row-major bijection of C01
* **C146** Nodal strains where the strain varies: exact at interior nodes of a grid, taken elsewhere at its border: The strain of a rectangle at a Gauss point is that of the field; sums over the occurrences of a node become sums over the at most four cells around it; the strain is affine in the point, so the mean is the strain at the mean point
* **C147** Statics of trusses: least work, unit loads, Maxwell's count, statically determinate trusses: virtual work of tensions on elongations as an identity of finite sums (`bars_work`); least work from the square of the difference; Maxwell by injectivity of the elongation map on the free displacements and dimension count; the example through C93 and the balance equations of its two free joints (`Props/TrussStatics.lean`).
* **C148** A strip in pure bending: too stiff by an exact factor with four-node elements, exact with nine-node elements: bilinear form of the stiffness of a rectangle (four and nine nodes) evaluated on the bending field; the forces of neighbouring cells cancel; uniqueness of equilibrium C19 (`Props/PureBending.lean`).
* **C149** Natural frequencies and modes of a simply supported beam, in closed form: Props/BeamModes.lean: end forces and inertia forces of a beam give two stencils; sines reduce them to a 2 x 2 pencil; its quadratic is decreasing in c, which orders the roots; a count of independent eigenvectors excludes other modes. Proofs/BeamRoots.lean: partial sums of the cosine series bound the cosine, and two polynomials are positive up to pi^2 by their Bernstein coefficients. Case shown: nine elements on the span pi.
* **C150** Waves in a plate of four-node elements have the closed-form dispersion relation of the discrete medium: the assembled forms are sums over the cells; the range of the Bloch transformation is characterised as the fields carried from side to side by the phases; testing with waves and the discrete Fourier transform in two directions reduce the problem to a symmetric problem with two unknowns for every wave, whose entries are computed from the quadrature of the code; the limit through the continuity of sinc
* **C151** The patch test in space: bodies of tetrahedra or bricks are exact in uniform states: The force on a corner is the stress applied to the quadrature of cofactors times shape derivatives; for tetrahedra and parallelepipeds this is a sum of vector areas of faces. Faces are Cycle ℕ, so shared faces cancel by an involution (reverse). Exactness by uniqueness (C135) and stability (C136). Spec/SolidPatch.lean, Props/SolidPatch.lean.
* **C152** Which elements are accepted, in terms of their shape: the determinant of the four-node map written by the corner areas, acceptance at each point of the rule, and the mean value identity of bilinear maps for injectivity
* **C153** The corners of tetrahedra and bricks may be listed in any order that keeps right and left: Verif/Props/SolidOrder.lean: the rule with the points permuted by a symmetry of the reference element is a permutation of the rule; forms of the stiffness and mass quadratures
* **C154** Solid bodies turned, mirrored, shifted, enlarged and renumbered give the turned displacements: Verif/Props/SolidMoves.lean: stiffness form of each element in the turned fields is s times the old one (C153, C44, C46); virtual work with unit fields gives the forces; C135 for the runs
* **C155** Work and energy in models made of the user's own elements: weak form of equilibrium (virtual work) for any number of degrees of freedom per node, then bilinear algebra; symmetry and semidefiniteness of the routines from C38 and C39
* **C156** A finer mesh of tetrahedra is never stiffer: Linear interpolation on each tetrahedron gives one gradient; the element form is computed from the volume and the strain; sums over the children of a parent; virtual work on both meshes (Props/SolidRefine.lean).
* **C157** Free vibration of models made of the user's own elements and of the library's solid and axisymmetric elements: mass set-up from the assembly refinement, spectral theorem for the pencil, minimax over admissible fields; null spaces of C136 and C141 for the zero frequencies
* **C158** Changes to a model that leave its displacements alone: the displacements of one model are shown to be an equilibrium of the other, which has only one (C19, C135); success by C93; for labels, the routines are rewritten as functions of the tables without their first column.
* **C159** The Bloch analysis of a periodic beam gives the two branches of bending waves in closed form, with the gap between them: explicit numbering 2p + j, forces of a line of beams as an action on waves, Vandermonde of the distinct phase factors, two-by-two determinant = 4 times the quadratic of C149, bounds of its roots
* **C160** Exactly which plane models solids_auto solves: success of a fold is success of every step; sufficiency from C93, necessity from the assembly refinement and C05; shapes from C152 (Props/Runs.lean).
* **C161** The displacements depend continuously on coordinates, materials and loads: element stiffnesses as continuous functions on the open set of accepted data, entries of the assembled matrix as nodal forces, Cramer's rule (Props/Wellposed.lean).
* **C162** What an inexact linear solver does to the displacements, and what the equilibrium check is worth: bound of the inverse by the adjugate, perturbation bound for systems with changed coefficients, residual as unbalanced nodal force (Props/Inexact.lean).
* **C163** Which arrays a call changes: refinement of the functional model by a model with a memory (Model/Heap.lean): loop invariants for the in-place numbering, a frame rule for computations, induction over sessions (Props/Memory.lean).
* **C164** Sensitivities of the computed displacements: exchange identity between two equilibrium states by virtual work, elements linear in the modulus, continuity of the solution (C161), then the limit of the slope; unit load method from the bar forces of C51 and C53.
* **C165** Trusses computed with rounding arithmetic: Relative factors between (1-u)^n and its inverse compose through products, quotients, roots and same-sign sums; the loops of the assembly are run in lockstep; a perturbation bound for the reduced system gives the displacements.
* **C166** What an inexact linear solver does to the displacements of frames and of the user's own elements: Sparse and dense assembly give the same matrix because the matrix is determined by the nodal forces of the members; bound of the inverse by the adjugate and of the effect of changed coefficients, for any number of degrees of freedom per node.
* **C167** Frames and models of the user's own elements depend continuously on their data: limits of the quadrature sums and of the beam products entry by entry, then of the assembled matrix and right hand side through nodal forces, Cramer's rule for the solution; the precision by contradiction with a sequence
* **C168** The natural frequencies depend continuously on coordinates and materials: Courant and Fischer's principle (Modes.minmax) for both pairs gives the bound; forms are bounded by the mass through the expansion in modes; continuity of the element matrices (C167, here also the bar) gives convergence of the assembled matrices; positivity of masses is an open condition.
* **C169** Order of elements, numbers of nodes and band for frames, user elements and vibration: mapM over a permuted list and commutativity of scattering for the order; nodal forces of members with renamed nodes for equilibrium; the assembled matrix is determined by nodal forces, hence the permuted matrices; the band by the row-major numbering.
* **C170** The rates at which natural frequencies change with materials and sections: Compare the Rayleigh quotient of the old mode with the new frequencies: the defect of the old mode is of first order, so by the gap the error of the quotient is of second order; the forms of the changed elements are linear in t.
* **C171** The rates at which displacements of frames and of user's elements change with stiffness: Principle of virtual work for both models with the response to G as virtual displacement, and the reverse; the difference is the change of the forms on the changed displacements, which converge by C167.
* **C172** Nodal strains and stresses depend linearly, and only locally, on the displacements: the strains of an element are a fixed matrix times its nodal displacements; averaging over occurrences gives coefficients at nodes, from which combination, locality, bounds and the statements about solids_auto follow (with C20/C166).
* **C173** Separate frames, bodies and other structures in one model: displacements, matrices and frequencies: the specification of C142 with any number of degrees of freedom per node; the joint matrices act on a completed field as those of each structure on its part, which gives the blocks; determinant of block matrices.
* **C174** Bar stresses are linear, local and independent of the frame of reference: closed form of the stress from C53, superposition from C22, turned and mirrored models from C109 and C138, error bound of C162; proved for every ordered field with square roots
* **C175** Principal values are the extreme normal components, within the tolerance of the shortcuts, and strains are not a fit input: extreme values characterised by trace and determinant, compared by the components that attain them; error bound of C172; proved for every ordered field with square roots
* **C176** The highest frequency of a model is bounded by its elements: quotient of energies through the eigenvectors of C119, C122 and C157, sum over the elements, explicit bounds of the element forms
* **C177** Bounds from both sides for the displacement under a load: Cauchy's inequality for the sum of the element forms, virtual work of C18, C117 and C135, completion of squares bar by bar
* **C178** Frequencies estimated from static analyses: expand the static answers in the modes; Cauchy-Schwarz twice for the iteration; positivity of the frequencies from stability (C119, C122, C157).
* **C179** The bands of a periodic mesh lie between the frequencies of the floating and of the clamped cell: min-max principle for Hermitian pencils with a positive mass; the reduction by T is an injective substitution, so it interlaces from below, and the clamped cell embeds in the reduced one, so it interlaces from above (Props/Bands.lean).
* **C180** The branches of the dispersion diagram are continuous, even and periodic functions of the wave vector: the transformation is entrywise continuous in the wave vector (one phase in each image row); values of Hermitian pairs change by at most 2 eps (1 + |l|) when both forms change by eps of the kinetic energy (complex min-max); intermediate value theorem; conjugation and phases for the symmetries (Props/Branches.lean).
* **C181** How the branches of the dispersion diagram depend on materials and on the size of the cell: element energies compare element by element, so the assembled forms do; complex min-max principle for the reduced pairs; equal phases for scaled coordinates and wave vectors (Props/BandScale.lean).
* **C182** Slope of a dispersion branch is the power through the border of the cell: the values of a Hermitian pair that depends on a real parameter: expand the mode at t in the modes at 0, show that the other parts vanish by the gap, and divide the identity (l_t - l_0) c_k = sum_j c_j phi_k* D_t phi_j by t; rows of the transformation from bloch_rows; flatness from evenness and periodicity (Props/GroupVelocity.lean).
* **C183** Two acoustic branches and a finite speed of sound: the translations are the null vectors of the reduced stiffness (C115), so min-max bounds the first two values by the energy of the difference between a Bloch vector and the translation, which is at most the phase; independence of three modes excludes a third zero; continuity (C180) gives the gap (Props/Acoustic.lean). Motions without forces of other cells, trusses and supported cells among them, are in Props/Mechanisms.lean.
* **C184** Branches have bounded steepness, so samples bound them: the phase factors of two wave vectors differ by at most the distance times the offset and keep lengths, so the two reduced forms of one vector differ by a multiple of the distance; min-max carries this to the values, which are bounded (Props/Steepness.lean).
* **C185** No group velocity is above a constant of the cell: the roots of the two forms obey the triangle inequality, so between two wave vectors they change by at most a multiple of the distance times the length of the vector; min-max carries this to the roots of the values (Props/WaveSpeed.lean).
* **C186** The first branch of a strip is a bending branch: the wave of a bent beam, sections turned by the slope, has exactly the phases of the ties and differs from a translation plus a rotation by the square of the phase; both cost no energy (C95), so its energy is of the fourth order, and min-max bounds the first value; for frames the same with the mirrored motions of C125 (Props/Bending.lean).
