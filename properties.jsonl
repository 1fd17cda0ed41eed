{"id": "C01", "title": "Equation numbering is a bijection", "statement": "For a constraint array, eqcounter gives every free degree of freedom (entry whose integer part is 0) exactly one equation number, and every number 0..neq-1 is given to exactly one free degree of freedom; numbers increase in row-major order and neq is the number of free entries.", "quantifier": "every constraint array, of any number of nodes, columns and ndof_node", "why_tests_cant": "the numbering must be collision-free for every pattern of constraints and every size; tests fix one pattern", "anchors": ["solidspy/assemutil.py:eqcounter"]}
{"id": "C02", "title": "Constrained entries survive numbering", "statement": "eqcounter never changes an entry whose integer part is non-zero, nor any column past ndof_node, and keeps the shape of the array; an array with fewer than ndof_node columns (and at least one row) is rejected with IndexError.", "quantifier": "every constraint array and ndof_node", "why_tests_cant": "needs all arrays, including ones with extra columns", "anchors": ["solidspy/assemutil.py:eqcounter"]}
{"id": "C03", "title": "A constrained degree of freedom never receives an equation", "statement": "After numbering, the entry of a degree of freedom that was marked constrained is not the equation number of any free one. (True for code -1 and every negative code; FALSE for positive codes, which silently alias an equation: the counterexample is proved.)", "quantifier": "every constraint array", "why_tests_cant": "aliasing only appears for particular codes and counts of free degrees of freedom", "anchors": ["solidspy/assemutil.py:eqcounter"]}
{"id": "C04", "title": "Assembly operator rows", "statement": "Row e of the operator returned by DME holds, for each node of element e in order, that node's entries of the boundary condition array, followed by zeros up to ndof_el_max; there is one row per element.", "quantifier": "every mesh, ndof_node, ndof_el_max and ndof_el callback for which DME returns", "why_tests_cant": "all meshes, all connectivity widths", "anchors": ["solidspy/assemutil.py:DME"]}
{"id": "C05", "title": "DME rejects inconsistent meshes", "statement": "DME returns only if every element has a known type (or the callback accepts it) and its node list supplies exactly the number of degrees of freedom of its type; otherwise it raises and no operator is produced. In particular rows padded to the width of a bigger element in a mixed mesh are rejected.", "quantifier": "every mesh", "why_tests_cant": "rejection must hold for every malformed row at any position", "anchors": ["solidspy/assemutil.py:DME", "solidspy/femutil.py:eletype"]}
{"id": "C06", "title": "Wrong ndof_node silently aliases rotations", "statement": "Calling DME with ndof_node=2 on a 3-column constraint array (what solids_auto does with a beam model) is not rejected: every unconstrained third degree of freedom is mapped to equation 0.", "quantifier": "every 3-column constraint array", "why_tests_cant": "the aliasing must be shown for all arrays, a test sees one", "anchors": ["solidspy/assemutil.py:DME", "solidspy/assemutil.py:eqcounter", "solidspy/solids_GUI.py:solids_auto"]}
{"id": "C07", "title": "Dense assembly is scatter-add", "statement": "Entry (i,j) of the dense global matrix is the sum, over elements and over local pairs (r,c) whose operator entries are i and j, of the local entry (r,c); nothing else contributes; same for the mass matrix.", "quantifier": "every element list, operator and element routine (including user elements) for which dense_assem returns", "why_tests_cant": "all meshes and all user element callbacks", "anchors": ["solidspy/assemutil.py:dense_assem"]}
{"id": "C08", "title": "Sparse and dense assembly agree", "statement": "sparse_assem and dense_assem return the same global matrices whenever the operator holds no negative entry other than -1, and one succeeds exactly when the other does.", "quantifier": "every mesh, operator and element routine", "why_tests_cant": "the two code paths have to agree on all inputs; tests compare one 2x2 mesh with a literal", "anchors": ["solidspy/assemutil.py:sparse_assem", "solidspy/assemutil.py:dense_assem", "solidspy/assemutil.py:assembler"]}
{"id": "C09", "title": "Assembly does not depend on element order", "statement": "Reordering the element rows (together with their operator rows) leaves the assembled matrices unchanged.", "quantifier": "every mesh and every permutation", "why_tests_cant": "a permutation group cannot be enumerated by tests", "anchors": ["solidspy/assemutil.py:dense_assem", "solidspy/assemutil.py:sparse_assem"]}
{"id": "C10", "title": "Assembled matrices are symmetric", "statement": "If every element routine result is symmetric, the assembled stiffness and mass matrices are symmetric.", "quantifier": "every mesh and element routine", "why_tests_cant": "all meshes", "anchors": ["solidspy/assemutil.py:dense_assem", "solidspy/assemutil.py:sparse_assem"]}
{"id": "C11", "title": "Energy equivalence", "statement": "For all reduced vectors v and u, v^T K u equals the sum over elements of v_e^T k_e u_e, where u_e, v_e are the element displacements read off the completed nodal displacements (constrained ones zero).", "quantifier": "every mesh and every pair of vectors", "why_tests_cant": "infinitely many vectors and meshes", "anchors": ["solidspy/assemutil.py:assembler", "solidspy/postprocesor.py:complete_disp"]}
{"id": "C12", "title": "Assembled matrix is positive semidefinite", "statement": "If all element matrices are positive semidefinite then u^T K u >= 0 for every reduced vector u.", "quantifier": "every mesh, every vector", "why_tests_cant": "semidefiniteness quantifies over all vectors", "anchors": ["solidspy/assemutil.py:assembler", "solidspy/uelutil.py"]}
{"id": "C13", "title": "Load vector contents", "statement": "Entry of the right hand side for a free degree of freedom is the component of the last load row that names its node, and 0 if none does; loads on constrained degrees of freedom are ignored.", "quantifier": "every list of loads and boundary condition array", "why_tests_cant": "all load lists, including repeated nodes", "anchors": ["solidspy/assemutil.py:loadasem"]}
{"id": "C14", "title": "Load superposition", "statement": "loadasem of two load lists concatenated is the sum of their separate vectors. (Holds when the lists name different nodes; FALSE when a node is loaded twice, where the later row overwrites the earlier: proved with a witness.)", "quantifier": "every pair of load lists", "why_tests_cant": "needs all pairs of lists", "anchors": ["solidspy/assemutil.py:loadasem"]}
{"id": "C15", "title": "Displacement completion round trip", "statement": "complete_disp gives 0 at every constrained degree of freedom and the computed value at every free one; with the array from eqcounter every component of the solution appears exactly once, so the reduced vector can be read back and two different solutions give different completed displacements.", "quantifier": "every boundary condition array and solution vector", "why_tests_cant": "all patterns and vectors", "anchors": ["solidspy/postprocesor.py:complete_disp", "solidspy/assemutil.py:eqcounter"]}
{"id": "C16", "title": "Element data retrieval", "statement": "The local matrices assembled for an element are those computed from its own type, its own material row and its own nodes' coordinates: changing nodes not in its connectivity, other material rows or other elements does not change them; negative ids wrap like Python indices and out-of-range ids raise IndexError.", "quantifier": "every mesh and every change outside the element", "why_tests_cant": "non-interference quantifies over all modifications", "anchors": ["solidspy/assemutil.py:retriever", "solidspy/assemutil.py:ele_fun"]}
{"id": "C17", "title": "Solver dispatch", "statement": "static_sol uses the sparse solver exactly for CSR matrices, the dense solver exactly for ndarrays, and raises TypeError for any other type, without calling a solver.", "quantifier": "every matrix argument and solver", "why_tests_cant": "all kinds of argument", "anchors": ["solidspy/solutil.py:static_sol"]}
{"id": "C18", "title": "Nodal equilibrium of the computed solution", "statement": "If the assembled matrix is nonsingular and the linear solver solves it, the displacements returned by solids_auto are zero at every constrained degree of freedom, and at every free one the internal forces of all elements meeting there sum to the applied load.", "quantifier": "every 2-dof mesh, loads, materials and element types for which the workflow returns", "why_tests_cant": "equilibrium must hold for every model; tests compare two models with analytic solutions", "anchors": ["solidspy/solids_GUI.py:solids_auto", "solidspy/solids_GUI.py:solids_GUI", "solidspy/assemutil.py", "solidspy/postprocesor.py:complete_disp"]}
{"id": "C19", "title": "The solution is the only equilibrium configuration", "statement": "With a nonsingular system, any displacement field that vanishes on constrained degrees of freedom and satisfies nodal equilibrium equals the field returned by solids_auto.", "quantifier": "every model and every competing displacement field", "why_tests_cant": "uniqueness quantifies over all fields", "anchors": ["solidspy/solids_GUI.py:solids_auto"]}
{"id": "C20", "title": "Element order does not change the answer", "statement": "solids_auto on the same model with its element rows in another order returns exactly when it returns on the given order, with the same displacements, number of equations and warning, whatever the solver and whether or not the system is singular. strain_nodes on the reordered rows of a mesh of one element type returns the same nodal strains and stresses.", "quantifier": "every model, solver and permutation of elements", "why_tests_cant": "all permutations", "anchors": ["solidspy/solids_GUI.py:solids_auto", "solidspy/assemutil.py:DME", "solidspy/postprocesor.py:strain_nodes"]}
{"id": "C21", "title": "Node numbering does not change the answer", "statement": "Renumbering the nodes of a model (permuting node and constraint rows and rewriting connectivity and load ids accordingly) returns the correspondingly permuted displacements (nonsingular system); a stable plane model is still solved after the renumbering. strain_nodes on the renumbered model and displacements returns the permuted nodal strains and stresses.", "quantifier": "every model and every renumbering", "why_tests_cant": "all permutations", "anchors": ["solidspy/solids_GUI.py:solids_auto", "solidspy/assemutil.py:DME", "solidspy/postprocesor.py:strain_nodes"]}
{"id": "C22", "title": "Linear response", "statement": "For a fixed model with nonsingular system, displacements are linear in the load values: scaling all loads scales the result, and the response to the sum of two load cases on the same nodes is the sum of the responses.", "quantifier": "every model, every pair of load cases and factor", "why_tests_cant": "all load cases", "anchors": ["solidspy/solids_GUI.py:solids_auto", "solidspy/assemutil.py:loadasem"]}
{"id": "C23", "title": "Reciprocity and positive work", "statement": "Betti: for two load cases on one model, the work of the first loads on the second displacements equals the work of the second on the first; and the work of the loads on their own displacements is non-negative when the elements are positive semidefinite.", "quantifier": "every model and pair of load cases", "why_tests_cant": "all load cases", "anchors": ["solidspy/solids_GUI.py:solids_auto", "solidspy/postprocesor.py:energy"]}
{"id": "C24", "title": "Energy output", "statement": "energy(disp, stiff) is -1/2 u^T K u; for a solution of K u = f it is -1/2 f.u; it is non-positive for an assembled matrix with semidefinite elements, and the solution minimises 1/2 v^T K v - f.v over all reduced vectors v.", "quantifier": "every matrix and vector", "why_tests_cant": "minimality quantifies over all vectors", "anchors": ["solidspy/postprocesor.py:energy"]}
{"id": "C25", "title": "Silence means a small residual", "statement": "If solids_auto prints no equilibrium warning then, whatever the solver did, every component of K u - f is at most 1e-8 |max K| + 1e-5 |f_i| in absolute value.", "quantifier": "every solver result, matrix and load vector", "why_tests_cant": "holds for all solver behaviours, including wrong ones", "anchors": ["solidspy/solids_GUI.py:solids_auto"]}
{"id": "C26", "title": "Partition of unity", "statement": "Shape functions of every element (tri3, tri6, quad4, quad8, quad9, tet4, hex8) sum to 1 and each row of derivatives sums to 0, at every point.", "quantifier": "every evaluation point", "why_tests_cant": "continuum of points", "anchors": ["solidspy/femutil.py:shape_tri3", "solidspy/femutil.py:shape_tri6", "solidspy/femutil.py:shape_quad4", "solidspy/femutil.py:shape_quad8", "solidspy/femutil.py:shape_quad9", "solidspy/femutil.py:shape_tet4", "solidspy/femutil.py:shape_hex8"]}
{"id": "C27", "title": "Interpolation is exact on the element's polynomial space", "statement": "Interpolating the nodal values of any polynomial of the element's space (P1, P2, Q1, serendipity, Q2, P1 in 3D, trilinear) reproduces it at every point; in particular shape functions are 1 at their node and 0 at the others.", "quantifier": "every polynomial of the space and every point", "why_tests_cant": "infinitely many polynomials and points", "anchors": ["solidspy/femutil.py:shape_tri3", "solidspy/femutil.py:shape_tri6", "solidspy/femutil.py:shape_quad4", "solidspy/femutil.py:shape_quad8", "solidspy/femutil.py:shape_quad9", "solidspy/femutil.py:shape_tet4", "solidspy/femutil.py:shape_hex8"]}
{"id": "C28", "title": "Reported derivatives are the derivatives", "statement": "The derivative array of every shape routine holds the true partial derivatives of the shape functions, at every point.", "quantifier": "every point, every node, every direction", "why_tests_cant": "tests evaluate single points", "anchors": ["solidspy/femutil.py:shape_tri3", "solidspy/femutil.py:shape_tri6", "solidspy/femutil.py:shape_quad4", "solidspy/femutil.py:shape_quad8", "solidspy/femutil.py:shape_quad9", "solidspy/femutil.py:shape_tet4", "solidspy/femutil.py:shape_hex8"]}
{"id": "C29", "title": "Jacobian guard", "statement": "jacoper returns exactly when the determinant of dNdr @ coord is greater than 1e-8, and then returns that determinant and a two-sided inverse of the Jacobian; otherwise it raises ValueError. The threshold is absolute: every valid element becomes rejected after shrinking enough.", "quantifier": "every derivative array and coordinates in 2D and 3D", "why_tests_cant": "threshold behaviour for all elements", "anchors": ["solidspy/femutil.py:jacoper"]}
{"id": "C30", "title": "Inverted elements are rejected", "statement": "Reversing the orientation of an element (reflecting its coordinates) turns every accepted point into a rejected one: no continuum element routine returns matrices for both an element and its mirror image with the same connectivity.", "quantifier": "every element geometry", "why_tests_cant": "all geometries", "anchors": ["solidspy/femutil.py:jacoper", "solidspy/uelutil.py"]}
{"id": "C31", "title": "Strain recovery is exact for linear fields (plane)", "statement": "If nodal displacements are samples of u(x)=a+Gx, then B @ u = (G11, G22, G12+G21) and H @ u = u(x(r,s)) at every accepted point of every plane element of any shape.", "quantifier": "every affine field, every geometry, every point, every element type", "why_tests_cant": "patch-test property over all geometries", "anchors": ["solidspy/femutil.py:elast_diff_2d"]}
{"id": "C32", "title": "Strain recovery is exact for linear fields (3D)", "statement": "Same for tet4 and hex8 with Voigt order xx, yy, zz, yz, xz, xy.", "quantifier": "every affine field, geometry, point", "why_tests_cant": "all geometries", "anchors": ["solidspy/femutil.py:elast_diff_3d"]}
{"id": "C33", "title": "Axisymmetric kinematics", "statement": "elast_diff_axi raises when the radius at the point is negative; for the field u=(a r + b, c + d r + e z) at radius x>0 it reports strains (a, e, d, (a x + b)/x).", "quantifier": "every geometry, point and such field", "why_tests_cant": "all geometries", "anchors": ["solidspy/femutil.py:elast_diff_axi"]}
{"id": "C34", "title": "Plane stress law is the condensation of 3D Hooke", "statement": "umat is the 3D isotropic law (elast_mat) restricted to zero out-of-plane stress: for every in-plane strain there is a unique thickness strain with zero sigma_zz, and the in-plane stresses are umat times the strain; sigma_zz and shear match.", "quantifier": "all E, nu with nu not in {-1, 1/2, 1} and all strains", "why_tests_cant": "all parameters and strains", "anchors": ["solidspy/femutil.py:umat", "solidspy/femutil.py:elast_mat"]}
{"id": "C35", "title": "Plane stress matrix is symmetric positive definite", "statement": "umat is symmetric, and positive definite exactly for the physical range: E>0, -1<nu<1 implies e^T C e > 0 for all non-zero e.", "quantifier": "all parameters and strains", "why_tests_cant": "definiteness over all strains", "anchors": ["solidspy/femutil.py:umat"]}
{"id": "C36", "title": "3D elasticity matrix", "statement": "elast_mat is symmetric, is inverse to the isotropic compliance matrix built from E and nu, and is positive definite for E>0, -1<nu<1/2.", "quantifier": "all parameters and strains", "why_tests_cant": "definiteness over all strains", "anchors": ["solidspy/femutil.py:elast_mat"]}
{"id": "C37", "title": "Axisymmetric law agrees with 3D Hooke", "statement": "elast_mat_axi (and elast_mat_2d) applied to (e_rr,e_zz,g_rz,e_tt) gives the stresses of the 3D isotropic law for that strain state. (FALSE: the hoop coupling terms are missing; proved to agree for all strains iff lambda = 0.)", "quantifier": "all parameters and strains", "why_tests_cant": "agreement over all strains", "anchors": ["solidspy/femutil.py:elast_mat_axi", "solidspy/femutil.py:elast_mat_2d", "solidspy/femutil.py:elast_mat"]}
{"id": "C38", "title": "Local matrices are symmetric", "statement": "Stiffness and mass returned by every element routine are symmetric.", "quantifier": "every geometry and material for which the routine returns", "why_tests_cant": "all geometries", "anchors": ["solidspy/uelutil.py"]}
{"id": "C39", "title": "Local stiffness and mass are positive semidefinite", "statement": "For admissible material parameters u^T K u >= 0 and u^T M u >= 0 for all u, for every element routine.", "quantifier": "every geometry, admissible material and vector", "why_tests_cant": "all vectors", "anchors": ["solidspy/uelutil.py"]}
{"id": "C40", "title": "Rigid body motions produce no nodal force (continuum)", "statement": "K times nodal values of any translation plus infinitesimal rotation is zero for tri3, tri6, quad4, quad8, quad9, tet4, hex8.", "quantifier": "every geometry, material, rigid motion", "why_tests_cant": "all geometries and motions", "anchors": ["solidspy/uelutil.py"]}
{"id": "C41", "title": "Zero energy implies zero strain", "statement": "For E>0, -1<nu<1 the energy u^T K u of a plane element vanishes only if the strain B u vanishes at every integration point; for the tri3 element the null space is exactly the rigid body motions.", "quantifier": "every geometry, material, vector", "why_tests_cant": "all vectors", "anchors": ["solidspy/uelutil.py"]}
{"id": "C42", "title": "Element patch property", "statement": "For a linear displacement field, nodal forces K u equal the quadrature of B^T applied to the constant stress, energy equals (quadrature area) x strain energy density, for every plane element of any shape.", "quantifier": "every geometry, material, affine field", "why_tests_cant": "all geometries", "anchors": ["solidspy/uelutil.py"]}
{"id": "C43", "title": "Element mass", "statement": "The x-translation (and y-translation) entries of the mass matrix sum to density times the quadrature area of the element; for quad4 this is exactly density x polygon area, for tri3 exactly 0.999999999999 x density x triangle area, for tet4 (exactly 1 x) density x volume.", "quantifier": "every geometry and density", "why_tests_cant": "all geometries", "anchors": ["solidspy/uelutil.py", "solidspy/gaussutil.py"]}
{"id": "C44", "title": "Element matrices do not depend on position", "statement": "Translating all nodes leaves stiffness and mass of every continuum and structural element unchanged.", "quantifier": "every geometry, material, translation", "why_tests_cant": "all translations", "anchors": ["solidspy/uelutil.py"]}
{"id": "C45", "title": "Rotating an element rotates its stiffness", "statement": "For plane continuum elements and the truss, K of the rotated element is T K T^T with T the nodal rotation, and the mass matrix likewise; success is preserved.", "quantifier": "every geometry, material and rotation", "why_tests_cant": "all rotations", "anchors": ["solidspy/uelutil.py", "solidspy/femutil.py:umat"]}
{"id": "C46", "title": "Scaling laws", "statement": "For plane elements, scaling coordinates by s>0 leaves stiffness unchanged and multiplies mass by s^2 (as long as both are accepted); stiffness is proportional to E, mass to density; stiffness ignores density.", "quantifier": "every geometry, material, factor", "why_tests_cant": "all factors", "anchors": ["solidspy/uelutil.py"]}
{"id": "C47", "title": "Cyclic renumbering of an element", "statement": "Cyclically renumbering the nodes of tri3 and quad4 permutes stiffness and mass accordingly (quad4: exactly; tri3: stiffness exactly).", "quantifier": "every geometry and material", "why_tests_cant": "all geometries", "anchors": ["solidspy/uelutil.py"]}
{"id": "C48", "title": "Constant strain triangle closed form", "statement": "elast_tri3 stiffness is 0.999999999999 x area x B^T C B with the textbook B (coordinate differences over twice the area), and it accepts exactly triangles with 2 x signed area > 1e-8.", "quantifier": "every triangle and material", "why_tests_cant": "all triangles", "anchors": ["solidspy/uelutil.py:elast_tri3"]}
{"id": "C49", "title": "Density parameter handling", "statement": "Plane elements use density 1 with two parameters and the last parameter otherwise; fewer than two parameters raise ValueError; quad8, axisymmetric, tet4 and hex8 raise ValueError unless exactly three parameters are given.", "quantifier": "every parameter list", "why_tests_cant": "all lists", "anchors": ["solidspy/uelutil.py"]}
{"id": "C50", "title": "Axisymmetric element volume weighting", "statement": "The axisymmetric quad9 routine integrates with the radius weight so that its mass is density x (integral of r dA) (up to 2 pi). (FALSE: the code omits the radius; proved: its total mass is the plane one and does not change when the element moves away from the axis.)", "quantifier": "every geometry", "why_tests_cant": "all geometries", "anchors": ["solidspy/uelutil.py:elast_axi_quad9"]}
{"id": "C51", "title": "Truss force law", "statement": "truss2D stiffness applied to any displacement gives opposite forces along the bar with magnitude E A / L times the elongation; so it is symmetric, semidefinite for E A >= 0, annihilates rigid motions, and its null space is exactly the zero elongation fields.", "quantifier": "every bar of non-zero length, parameters, displacement", "why_tests_cant": "all bars", "anchors": ["solidspy/uelutil.py:truss2D"]}
{"id": "C52", "title": "Truss orientation independence", "statement": "Swapping the two nodes of a truss or spring swaps the node blocks of its matrices.", "quantifier": "every bar and parameters", "why_tests_cant": "all bars", "anchors": ["solidspy/uelutil.py:truss2D", "solidspy/uelutil.py:spring"]}
{"id": "C53", "title": "Truss axial stress", "statement": "stress_truss returns E x (relative displacement along the bar)/L for each member, independent of the area and of the node order in the element row.", "quantifier": "every truss, materials with non-zero area, displacements", "why_tests_cant": "all trusses", "anchors": ["solidspy/postprocesor.py:stress_truss"]}
{"id": "C54", "title": "Extra node columns contaminate bar lengths", "statement": "assembler must be given nodes with exactly two coordinate columns: with the boundary condition columns left in (as in the stress_truss docstring), continuum elements raise, but trusses silently compute their length from coordinates and constraint flags together. Proved: the length equals the true one iff both nodes have equal flags.", "quantifier": "every bar and flags", "why_tests_cant": "all flags", "anchors": ["solidspy/assemutil.py:retriever", "solidspy/uelutil.py:truss2D", "solidspy/postprocesor.py:stress_truss"]}
{"id": "C55", "title": "Spring law and spring assembly", "statement": "spring gives k x elongation along the axis; but assembling a mesh with a spring whose nodes have a free degree of freedom always raises IndexError (its mass matrix is 1-D), so spring models cannot be solved.", "quantifier": "every spring, stiffness, displacement, mesh", "why_tests_cant": "all meshes", "anchors": ["solidspy/uelutil.py:spring", "solidspy/assemutil.py:dense_assem", "solidspy/assemutil.py:sparse_assem"]}
{"id": "C56", "title": "Beam rigid body invariance", "statement": "Rigid motions of a beam produce no nodal forces. (Holds for every translation; for rotations it holds for beam2DU exactly when the beam is horizontal (n_y = 0) and for beam2D exactly when n_y = 0: for every other orientation the code's transformation makes a rigid rotation store energy.)", "quantifier": "every beam and rigid motion", "why_tests_cant": "all orientations", "anchors": ["solidspy/uelutil.py:beam2DU", "solidspy/uelutil.py:beam2D"]}
{"id": "C57", "title": "Beam matrices", "statement": "beam2DU and beam2D stiffness and mass are symmetric, semidefinite for admissible parameters, and in the element frame reproduce the exact end forces of cubic bending (constant curvature) and, for beam2D, uniform axial strain.", "quantifier": "every length and parameters", "why_tests_cant": "all lengths", "anchors": ["solidspy/uelutil.py:beam2DU", "solidspy/uelutil.py:beam2D"]}
{"id": "C58", "title": "Beam mass", "statement": "The translational mass of a beam (rigid translation energy) is rho A L for beam2D in any direction, and for beam2DU in the transverse direction of a horizontal beam.", "quantifier": "every beam", "why_tests_cant": "all lengths", "anchors": ["solidspy/uelutil.py:beam2D", "solidspy/uelutil.py:beam2DU"]}
{"id": "C59", "title": "1D Gauss rules", "statement": "gauss_1d(n) returns n points and n weights for n in 2..10 and raises ValueError for every other integer; points lie in (-1,1), are increasing and symmetric, weights are positive and symmetric.", "quantifier": "every integer n", "why_tests_cant": "all integers", "anchors": ["solidspy/gaussutil.py:gauss_1d"]}
{"id": "C60", "title": "1D Gauss exactness", "statement": "For n in 2..10 and every polynomial p of degree <= 2n-1 the rule gives the integral over [-1,1] within 2e-18 times the sum of absolute coefficients.", "quantifier": "every polynomial up to degree 2n-1", "why_tests_cant": "infinitely many polynomials", "anchors": ["solidspy/gaussutil.py:gauss_1d"]}
{"id": "C61", "title": "Tensor rules", "statement": "gauss_nd(n, d) has n^d points, each a d-tuple of 1D points paired with the product of their weights, in lexicographic order; the rule applied to a product of univariate functions is the product of the 1D rules.", "quantifier": "every n, every dimension d, all functions", "why_tests_cant": "all dimensions", "anchors": ["solidspy/gaussutil.py:gauss_nd"]}
{"id": "C62", "title": "Tensor rule exactness", "statement": "In every dimension d the tensor rule integrates over [-1,1]^d every polynomial of degree <= 2n-1 in each variable with an error at most d*2e-18*(2+2e-18)^(d-1) times the sum of the moduli of its coefficients (the rounding of the printed tables); the weights sum to 2^d within the same bound.", "quantifier": "every dimension and polynomials", "why_tests_cant": "all dimensions", "anchors": ["solidspy/gaussutil.py:gauss_nd"]}
{"id": "C63", "title": "Triangle rules", "statement": "gauss_tri(order) raises ValueError outside 1..7; points are inside the triangle; every polynomial of total degree <= order is integrated (factor 1/2) within 1e-12 times the sum of absolute coefficients. Exchanging the coordinates changes no result, for any function whatever.", "quantifier": "every order and polynomial; every function for the symmetry", "why_tests_cant": "infinitely many polynomials", "anchors": ["solidspy/gaussutil.py:gauss_tri"]}
{"id": "C64", "title": "Tetrahedron rules", "statement": "gauss_tet(order) raises ValueError outside 1..10; points are inside the tetrahedron, weights positive; every polynomial of total degree <= order is integrated (factor 1/6) within 1e-15 times the sum of absolute coefficients. Exchanging any two coordinates changes no result, for any function whatever.", "quantifier": "every order and polynomial; every function for the symmetry", "why_tests_cant": "tests cover 5 of 10 orders and a few monomials", "anchors": ["solidspy/gaussutil.py:gauss_tet"]}
{"id": "C65", "title": "Structured mesh connectivity", "statement": "rect_grid(nx,ny) has nx*ny elements numbered 0.., all of type 1 and material 0, every node index is in range, each element has four distinct nodes, every node is used, and (nx+1)(ny+1) nodes exist.", "quantifier": "every nx, ny >= 1", "why_tests_cant": "all sizes", "anchors": ["solidspy/preprocesor.py:rect_grid"]}
{"id": "C66", "title": "Structured mesh geometry", "statement": "Element (row,col) of rect_grid is the cell with corners in counter-clockwise order, area (L/nx)(H/ny); cell areas sum to L*H; the extreme nodes are exactly the corners of the domain; elements are accepted by the quad4 routine when the cell area exceeds the Jacobian threshold.", "quantifier": "every L,H>0, nx, ny >= 1", "why_tests_cant": "all sizes", "anchors": ["solidspy/preprocesor.py:rect_grid"]}
{"id": "C67", "title": "Structured mesh is conforming", "statement": "Each interior edge of rect_grid belongs to exactly two elements (with opposite directions) and each boundary edge to one.", "quantifier": "every nx, ny", "why_tests_cant": "all sizes", "anchors": ["solidspy/preprocesor.py:rect_grid"]}
{"id": "C68", "title": "Element extraction from a mesh", "statement": "ele_writer returns exactly the cells whose physical tag matches, in order, with consecutive ids starting at nini, the given type and material, and nf = nini + count; chaining calls gives globally unique ids; unknown cell kinds raise KeyError.", "quantifier": "every mesh and tag", "why_tests_cant": "all meshes", "anchors": ["solidspy/preprocesor.py:ele_writer"]}
{"id": "C69", "title": "Node table", "statement": "node_writer numbers nodes consecutively, copies x,y, and leaves both flags free.", "quantifier": "every point array", "why_tests_cant": "all arrays", "anchors": ["solidspy/preprocesor.py:node_writer"]}
{"id": "C70", "title": "Boundary conditions touch exactly the tagged nodes", "statement": "boundary_conditions sets both flags of exactly the nodes on lines with the tag and leaves every other entry of the node table unchanged, independent of the iteration order of the node set; applying it twice equals once; later calls win on shared nodes.", "quantifier": "every mesh, tag, flags, set iteration order", "why_tests_cant": "all meshes and hash orders", "anchors": ["solidspy/preprocesor.py:boundary_conditions"]}
{"id": "C71", "title": "Line loads add up", "statement": "loading gives one row per distinct node of the tagged lines, with equal shares whose sum is exactly (P_x, P_y), in every set iteration order; with no tagged line it raises instead of losing the load.", "quantifier": "every mesh, tag, load and iteration order", "why_tests_cant": "all meshes and hash orders", "anchors": ["solidspy/preprocesor.py:loading"]}
{"id": "C72", "title": "Line loads reach the right hand side", "statement": "When all loaded nodes are free, the entries of loadasem(loading(...)) sum to P_x + P_y and component-wise totals are P_x and P_y.", "quantifier": "every mesh, numbering, tag", "why_tests_cant": "composition over all meshes", "anchors": ["solidspy/preprocesor.py:loading", "solidspy/assemutil.py:loadasem"]}
{"id": "C73", "title": "Plotting triangulation covers the element", "statement": "mesh2tri splits every continuum element into triangles whose vertices are nodes of that element and whose signed areas add up to the signed area of the element's boundary polygon; structural elements give none.", "quantifier": "every mesh and geometry", "why_tests_cant": "all geometries", "anchors": ["solidspy/postprocesor.py:mesh2tri"]}
{"id": "C74", "title": "Nodal strains are exact for linear fields", "statement": "For displacements sampled from an affine field, strain_nodes returns that constant strain (and its plane stress) at every node that belongs to an element, for quad4 and tri6 meshes of one material. (For tri3 FALSE, see next.)", "quantifier": "every mesh, affine field", "why_tests_cant": "all meshes", "anchors": ["solidspy/postprocesor.py:strain_nodes", "solidspy/femutil.py:str_el4", "solidspy/femutil.py:str_el6"]}
{"id": "C75", "title": "Nodal strains for linear triangles", "statement": "For tri3 meshes only the first node of each element receives the element strain and the other two receive zero, so the average at a node is the strain times (elements where it is listed first)/(elements containing it). The intended property (constant strain reproduced) is proved FALSE.", "quantifier": "every tri3 mesh and affine field", "why_tests_cant": "all meshes", "anchors": ["solidspy/postprocesor.py:strain_nodes", "solidspy/femutil.py:str_el3"]}
{"id": "C76", "title": "Nodal stress is Hooke of nodal strain", "statement": "At a node whose elements share one material, the stress from strain_nodes equals the plane stress matrix times the strain from strain_nodes, for any displacements.", "quantifier": "every mesh and displacement", "why_tests_cant": "all displacements", "anchors": ["solidspy/postprocesor.py:strain_nodes", "solidspy/femutil.py:umat"]}
{"id": "C77", "title": "Strain recovery support", "statement": "strain_nodes only handles meshes whose first element has type 1, 2 or 3: a well-formed quad9 mesh fails with UnboundLocalError and structural meshes never succeed; it raises ValueError when the material row has a density column; nodes of no element (and only those) get NaN.", "quantifier": "every such mesh", "why_tests_cant": "all meshes", "anchors": ["solidspy/postprocesor.py:strain_nodes"]}
{"id": "C78", "title": "Gauss point positions reported by str_el*", "statement": "The second output holds the physical position of each integration point. (FALSE: the y column repeats x; proved equal columns for every input.)", "quantifier": "every geometry", "why_tests_cant": "all geometries", "anchors": ["solidspy/femutil.py:str_el3", "solidspy/femutil.py:str_el4", "solidspy/femutil.py:str_el6"]}
{"id": "C79", "title": "2x2 eigen-decomposition", "statement": "For a symmetric matrix not treated as diagonal or null, eigvals returns exact eigenpairs: M v = lambda v for both, orthonormal vectors, |eig1| >= |eig2|; on the diagonal shortcut the residual is at most tol x max|M|; when all entries are below tol it returns zeros.", "quantifier": "every symmetric 2x2 matrix and tolerance > 0", "why_tests_cant": "all matrices", "anchors": ["solidspy/postprocesor.py:eigvals"]}
{"id": "C80", "title": "Principal values field", "statement": "principal_dirs applies the decomposition to each row independently: row k of the result depends only on row k of the field, and invariants (trace, determinant) of non-degenerate rows are preserved.", "quantifier": "every field", "why_tests_cant": "all fields", "anchors": ["solidspy/postprocesor.py:principal_dirs"]}
{"id": "C81", "title": "Truss plot scaling", "statement": "When the areas differ by more than 1e-6, plot_truss line widths lie in [min_val, max_val], increase with the area and reach both ends; otherwise every width is 3 whatever the limits. Scaled stresses lie in [0,1], increase with the stress, with 0 stress at 1/2 (when some stress is non-zero; otherwise the scaling is 0/0).", "quantifier": "every truss", "why_tests_cant": "all stresses", "anchors": ["solidspy/postprocesor.py:plot_truss"]}
{"id": "C82", "title": "Field plotting dispatch", "statement": "fields_plot prints instead of plotting exactly when an element of type 5, 6 or 7 is present; a mesh only of type 8 beams is sent to the triangulation with no triangles.", "quantifier": "every mesh", "why_tests_cant": "all meshes", "anchors": ["solidspy/postprocesor.py:fields_plot", "solidspy/postprocesor.py:mesh2tri"]}
{"id": "C83", "title": "Reduced numbering of Bloch degrees of freedom", "statement": "reassign_dof_bloch gives the non-image degrees of freedom the numbers 0,1,2,... without gaps or repetitions, in order.", "quantifier": "every set of image degrees of freedom", "why_tests_cant": "all sets", "anchors": ["solidspy/blochutil.py:reassign_dof_bloch"]}
{"id": "C84", "title": "Image degrees of freedom share their reference number", "statement": "Each image degree of freedom gets the new number of its reference. (Holds when no image precedes its reference numbers; FALSE in general: the docstring 2x2 mesh is a proved counterexample.)", "quantifier": "every numbering", "why_tests_cant": "all numberings", "anchors": ["solidspy/blochutil.py:reassign_dof_bloch"]}
{"id": "C85", "title": "Bloch transformation imposes the phase condition", "statement": "For every reduced vector q and full vector u = T q: at image degrees of freedom u = exp(i k.(x_ima - x_ref)) u at the reference, and non-image entries are the reduced ones.", "quantifier": "every wavevector, mesh, pairing, q", "why_tests_cant": "all wavevectors", "anchors": ["solidspy/blochutil.py:bloch_transform_mat"]}
{"id": "C86", "title": "Bloch transformation columns are orthogonal", "statement": "T^H T is diagonal with entry 1 + number of images of that degree of freedom, for every wavevector; so T is injective.", "quantifier": "every wavevector and pairing", "why_tests_cant": "all wavevectors", "anchors": ["solidspy/blochutil.py:bloch_transform_mat"]}
{"id": "C87", "title": "Wavevector symmetries", "statement": "T(-k) is the conjugate of T(k); T(0) has only 0/1 entries; T(k+G)=T(k) when G.(x_ima-x_ref) is a multiple of 2 pi for all pairs; T depends only on position differences.", "quantifier": "every wavevector", "why_tests_cant": "all wavevectors", "anchors": ["solidspy/blochutil.py:bloch_transform_mat"]}
{"id": "C88", "title": "Bloch reduction keeps Hermitian semidefinite form", "statement": "T^H K T is Hermitian (positive semidefinite) whenever K is.", "quantifier": "every K, wavevector", "why_tests_cant": "all matrices", "anchors": ["solidspy/blochutil.py:bloch_transform_mat"]}
{"id": "C89", "title": "The two drivers agree", "statement": "solids_GUI, fed the node table with the restrictions in columns 3 and 4, returns the displacements (and strains and stresses) that solids_auto returns for the same data passed as a dictionary.", "quantifier": "every node, element, material and load table", "why_tests_cant": "all inputs; interactive driver", "anchors": ["solidspy/solids_GUI.py:solids_GUI", "solidspy/solids_GUI.py:solids_auto"]}
{"id": "C90", "title": "Element tables agree with the element routines", "statement": "ele_fun and eletype accept exactly the types 1 to 8, and for each the routine, when it returns, gives matrices whose size is the number of degrees of freedom eletype reports.", "quantifier": "every element type, coordinates and parameters", "why_tests_cant": "two tables maintained by hand in different files", "anchors": ["solidspy/assemutil.py:ele_fun", "solidspy/femutil.py:eletype", "solidspy/uelutil.py"]}
{"id": "C91", "title": "Global balance of forces and moments", "statement": "For plane models the internal forces of any displacements have no resultant and no moment; the reactions of the computed solution vanish at free degrees of freedom and balance the loads in force and moment.", "quantifier": "every plane model of types 1-4 and bars, any displacements", "why_tests_cant": "all meshes, loads and materials", "anchors": ["solidspy/assemutil.py:assembler", "solidspy/solids_GUI.py:solids_auto", "solidspy/uelutil.py"]}
{"id": "C92", "title": "Method of joints", "statement": "In a truss the axial stresses of stress_truss times the areas, resolved along the bars, balance the load at every free joint in every free direction; the stresses exist when no area is zero.", "quantifier": "every truss, loads and stable supports", "why_tests_cant": "all trusses", "anchors": ["solidspy/postprocesor.py:stress_truss", "solidspy/uelutil.py:truss2D", "solidspy/solids_GUI.py:solids_auto"]}
{"id": "C93", "title": "A well posed plane model is solved silently", "statement": "For a plane model that is stable, with valid loads and an exact solver, solids_auto returns, and with physical materials the equilibrium warning is not printed; stable means exactly that no non-zero admissible field is free of strain energy.", "quantifier": "every plane model", "why_tests_cant": "termination without exception over all models", "anchors": ["solidspy/solids_GUI.py:solids_auto", "solidspy/assemutil.py", "solidspy/solutil.py:static_sol"]}
{"id": "C94", "title": "Zero energy modes of the elements", "statement": "With a physical material the only nodal displacements that give no nodal forces are the rigid motions: for every accepted bilinear quadrilateral, for six, eight and nine node elements that are affine images of the reference element, for every tetrahedron and for every parallelepiped brick. The reduced rules have no spurious modes there.", "quantifier": "every accepted element geometry, every physical material, every displacement vector", "why_tests_cant": "null spaces over all geometries", "anchors": ["solidspy/uelutil.py:elast_quad4", "solidspy/uelutil.py:elast_tri6", "solidspy/uelutil.py:elast_quad9", "solidspy/uelutil.py:elast_quad8", "solidspy/uelutil.py:elast_tet4", "solidspy/uelutil.py:elast_hex8"]}
{"id": "C95", "title": "Supports that suffice for a connected mesh", "statement": "A mesh of plane elements connected across shared sides has no strain energy exactly under rigid motions of the whole mesh; it is stable exactly when the constraints prevent every rigid motion; two fixed nodes, or a fixed node and a roller whose line of action misses it, suffice; then solids_auto returns for all loads without the equilibrium warning.", "quantifier": "every connected plane mesh, constraints and loads", "why_tests_cant": "all meshes", "anchors": ["solidspy/solids_GUI.py:solids_auto", "solidspy/assemutil.py", "solidspy/uelutil.py"]}
{"id": "C96", "title": "Patch test", "statement": "Under a displacement field of uniform strain, a mesh of linear triangles or of arbitrarily shaped bilinear quadrilaterals of one material has internal forces at its boundary only, equal at each node to half the force of the uniform stress on each outer side ending there; inner nodes are in equilibrium.", "quantifier": "every mesh in which no directed side occurs twice, every affine field", "why_tests_cant": "all meshes", "anchors": ["solidspy/uelutil.py:elast_quad4", "solidspy/uelutil.py:elast_tri3", "solidspy/assemutil.py:assembler"]}
{"id": "C97", "title": "Plates meshed by rect_grid are solved exactly in uniform states", "statement": "A plate meshed by rect_grid with cells above the jacoper threshold is a connected mesh of accepted elements, solved by solids_auto for all loads on supports that prevent rigid motions; under edge tractions of a uniform stress the returned displacements are exactly the linear field; in simple tension they are sigma x / E and -nu sigma y / E.", "quantifier": "every length, height, number of cells, material and traction", "why_tests_cant": "end to end statement over all grid sizes and parameters", "anchors": ["solidspy/preprocesor.py:rect_grid", "solidspy/solids_GUI.py:solids_auto", "solidspy/uelutil.py:elast_quad4"]}
{"id": "C98", "title": "Minimum potential energy", "statement": "The displacements returned by solids_auto have the least potential energy among all admissible nodal fields, no other field attains it, and the stored energy is half the work of the loads.", "quantifier": "every stable plane model with physical materials, every load table, every admissible field", "why_tests_cant": "all competitors", "anchors": ["solidspy/solids_GUI.py:solids_auto", "solidspy/assemutil.py:assembler", "solidspy/solutil.py:static_sol"]}
{"id": "C99", "title": "Stiffening reduces the response", "statement": "Adding supports, adding elements or increasing Young's moduli keeps a stable model stable and never increases the work of the loads; multiplying all moduli by a factor divides the displacements by it.", "quantifier": "every stable plane model with physical materials and every such change", "why_tests_cant": "relates two runs on all models", "anchors": ["solidspy/solids_GUI.py:solids_auto", "solidspy/uelutil.py"]}
{"id": "C100", "title": "Asking for strains never breaks a run that works, and a plate in tension gets its exact uniform strain and stress", "statement": "On a mesh of one element type among 1, 2 and 3 whose material rows have two values, strain_nodes returns for every table of displacements; solids_auto with compute_strains=True returns exactly when it returns without strains and strain_nodes returns, with the same displacements; on a grid plate whose loads and supports agree with a uniform strain every node is given exactly that strain and its stress; in particular the plate in tension has (σ/E, -νσ/E, 0) and (σ, 0, 0) at every node.", "quantifier": "all meshes of one plane type with accepted elements, all loads, all displacement tables of the right size; all plate sizes, subdivisions, moduli, Poisson ratios in (-1,1) and tractions", "why_tests_cant": "A test runs one mesh with strains; whether the strain routine can reject an element the stiffness routine accepted, or whether some node of some grid gets another stress, is a question about all meshes.", "anchors": ["solidspy/postprocesor.py:strain_nodes", "solidspy/solids_GUI.py:solids_auto", "solidspy/femutil.py:str_el4"]}
{"id": "C101", "title": "The layout of an input file does not matter", "statement": "Reading a text file as a table gives exactly the rows the text lays out: fields separated by any blanks, with any blanks around them, empty lines, comments after # and an optional last newline. Every text has exactly one reading; a table is returned exactly when every field converts and all rows are as long as the first; two texts with the same fields give the same table.", "quantifier": "all texts, all conversions of fields", "why_tests_cant": "The texts are unbounded; a test fixes one spacing and one set of comments.", "anchors": ["solidspy/preprocesor.py:readin"]}
{"id": "C102", "title": "Numbers in input files are read exactly, and only numerals are numbers", "statement": "A field is read as x exactly when it is a decimal numeral for x: optional sign, digits with optional point, optional power of ten. Integers of eles.txt are the numeral's value cut at the point. Anything else is a ValueError.", "quantifier": "all character strings, all values", "why_tests_cant": "Infinitely many spellings of a number and of non-numbers.", "anchors": ["solidspy/preprocesor.py:readin"]}
{"id": "C103", "title": "What an echo file keeps of a table", "statement": "Reading back the echo of the elements gives them back exactly. Reading back the echo of a table of floats gives a table of the same shape whose entries are nearest multiples of 1/100, the even one on ties; it is the same table exactly when all entries are multiples of 1/100; echoing once more changes no value.", "quantifier": "all tables with at least one column and rows of equal length", "why_tests_cant": "A test with round values sees a perfect echo; that small areas become zero shows only for other values.", "anchors": ["solidspy/preprocesor.py:echomod", "solidspy/preprocesor.py:readin"]}
{"id": "C104", "title": "Echoing a model touches only the four echo files", "statement": "echomod writes the four files KNODES, KMATES, KELEMS, KLOADS of its folder and no other; their contents are the four tables; whatever the folders, readin returns the same before and after.", "quantifier": "all file systems, tables and folder names (a folder is any prefix of a name)", "why_tests_cant": "Whether two concatenated names can coincide is a question about all folder strings.", "anchors": ["solidspy/preprocesor.py:echomod", "solidspy/preprocesor.py:readin"]}
{"id": "C105", "title": "A run on a folder solves the model written in its files", "statement": "readin returns four tables exactly when the four files lay them out; solids_GUI on a folder is solids_auto on those tables; when it returns, the displacements of a stable structure are in equilibrium with the loads of loads.txt; without one of the files there is no run.", "quantifier": "all file systems, folders and models", "why_tests_cant": "A test has one folder; the claim is that no file content makes the run solve something else than what is written.", "anchors": ["solidspy/solids_GUI.py:solids_GUI", "solidspy/preprocesor.py:readin"]}
{"id": "C106", "title": "plot_truss draws each member in the colour of the stress stored under its number", "statement": "Every member is drawn from its first node to its second, with a width that does not decrease with its area and in the colour of the stress found under its number; colours increase with the stress and zero is in the middle, so with members numbered by row a member of a solved truss is drawn on the tension side exactly when it elongates. Numbers without a stress (members numbered from one), or stresses that are all zero, stop the drawing; without stresses all members have one colour.", "quantifier": "all trusses, materials, stresses and width limits", "why_tests_cant": "Tests look at no pictures; a swapped node, colour or width goes unnoticed, and it is the numbering of all members that matters.", "anchors": ["solidspy/postprocesor.py:plot_truss", "solidspy/postprocesor.py:stress_truss"]}
{"id": "C107", "title": "Each nodal field is drawn in its own window", "statement": "plot_node_field draws each column, with its title, once in the window named for it, after what that window showed, and changes no other window; without names every column gets a fresh window exactly when none of the numbers after the count of open windows is in use; saved files hold what their windows show; fields_plot puts the displacements, strains and stresses in windows with the right labels. It returns exactly for known plot kinds, one value per node and enough titles, and not for an array with one column.", "quantifier": "all sets of open windows, fields, meshes, titles and names", "why_tests_cant": "The outcome depends on the windows left open by whatever ran before.", "anchors": ["solidspy/postprocesor.py:plot_node_field", "solidspy/postprocesor.py:tri_plot", "solidspy/postprocesor.py:fields_plot"]}
{"id": "C108", "title": "Models that can move", "statement": "Supports hold a plane body exactly when there is one in each direction and two parallel ones have different lines of action; two supported degrees of freedom never do. If they do not hold it, the assembled matrix is singular. On a connected mesh an equilibrium exists exactly when the loads do no work on the rigid motions left free, it is unique up to such a motion, solids_auto finds it silently with a solver for solvable systems, and any silent run bounds the work of the loads on the free motions.", "quantifier": "all plane models, supports, loads and solvers", "why_tests_cant": "Singular systems are avoided in tests, and the criterion is about all placements of supports and loads.", "anchors": ["solidspy/solids_GUI.py:solids_auto", "solidspy/assemutil.py:assembler"]}
{"id": "C109", "title": "Turning and shifting the whole model", "statement": "If all nodes are turned and shifted, the loads turned and the supports hold the turned directions, all plane elements and bars are still accepted, a held model stays held, solids_auto still returns, and every displacement vector is the old one, turned. A mere shift leaves the table of displacements unchanged.", "quantifier": "all plane models of continuum elements and bars, all rotations and shifts", "why_tests_cant": "It relates two runs on every model and every rotation; tests use a few models drawn along the axes.", "anchors": ["solidspy/solids_GUI.py:solids_auto", "solidspy/uelutil.py", "solidspy/assemutil.py:assembler"]}
{"id": "C110", "title": "Size of the model does not change displacements under given forces", "statement": "If all lengths of a plane continuum model are multiplied by s and the nodal forces kept, a held model stays held and the table of displacements is the same; for s at least 1 all elements are still accepted and solids_auto returns.", "quantifier": "all plane continuum models and factors s other than 0", "why_tests_cant": "It relates runs on models of every size; a wrong power of the Jacobian shows only when sizes differ.", "anchors": ["solidspy/solids_GUI.py:solids_auto", "solidspy/uelutil.py", "solidspy/femutil.py:jacoper"]}
{"id": "C111", "title": "Which files solids_GUI reads", "statement": "solids_GUI reads the four files whose names start with the folder given, or else with the folder chosen in the dialog and a slash, or else (dialog cancelled or missing) with exactly the text typed, and no other file matters. A folder typed without a final slash is never looked into. With strains, too, the run on files is the run on the model they hold. Python versions other than 2 and 3 are refused.", "quantifier": "all file systems, folders, dialog outcomes, typed texts and models", "why_tests_cant": "The dialog and prompt are not exercised by tests; the claim about files that do not matter is about all contents.", "anchors": ["solidspy/preprocesor.py:initial_params", "solidspy/preprocesor.py:readin", "solidspy/solids_GUI.py:solids_GUI"]}
{"id": "C112", "title": "Refining a mesh of triangles never makes the model stiffer", "statement": "Let one mesh of three-node triangles refine another: every fine triangle has a parent with the same material, the fine triangles of a parent add up to its area, fields of the coarse mesh are carried to the fine one by linear interpolation, supports are kept and the loads do the same work on carried fields. Then carried fields have the same energy on both meshes; for every admissible coarse field V the energy of the difference between the fine displacements and the carried V equals the energy of the difference between the coarse displacements and V plus half of what the work of the loads has grown; so the loads do at least as much work on the fine mesh, and the coarse displacements are, of all admissible coarse fields, the nearest in energy to the fine displacements.", "quantifier": "all pairs of triangle meshes one of which refines the other, all materials, supports and loads for which both runs return, all admissible fields", "why_tests_cant": "A mesh convergence study shows that finer meshes give larger compliance on the meshes tried; that this holds for every refinement, every support and every load needs the energy identity over arbitrary parent maps.", "anchors": ["solidspy/uelutil.py:elast_tri3", "solidspy/assemutil.py:assembler", "solidspy/solids_GUI.py:solids_auto"]}
{"id": "C113", "title": "Element mass matrices are positive definite", "statement": "When a plane, solid or axisymmetric element routine returns and the density is positive (a plane material without a density entry counts as density 1), every nonzero nodal velocity field has positive kinetic energy: the mass matrix is positive definite, because the sampling points of each rule separate the shape functions.", "quantifier": "all node positions the routine accepts, all materials of positive density, all nonzero nodal vectors, all ordered fields", "why_tests_cant": "definiteness is a statement about every vector and every accepted element shape", "anchors": ["solidspy/uelutil.py:elast_tri3", "solidspy/uelutil.py:elast_tri6", "solidspy/uelutil.py:elast_quad4", "solidspy/uelutil.py:elast_quad9", "solidspy/uelutil.py:elast_quad8", "solidspy/uelutil.py:elast_tet4", "solidspy/uelutil.py:elast_hex8", "solidspy/uelutil.py:elast_axi_quad9"]}
{"id": "C114", "title": "The assembled mass matrix", "statement": "The assembled mass matrix acts on completed displacement fields as the sum of the element mass forms. For plane elements of positive density, and for any mix of these with bars of positive area and density, it is positive definite exactly when every node that can move belongs to some element. On fields that move all nodes alike it gives the scalar product of the two displacements times the total mass, i.e. density times polygon area summed over quadrilaterals and (up to the factor 0.999999999999 of the triangle rule) triangles; a grid made by rect_grid weighs density times length times height.", "quantifier": "all models whose numbering and assembly succeed, all vectors", "why_tests_cant": "all meshes, all vectors; both directions of the equivalence", "anchors": ["solidspy/assemutil.py:assembler", "solidspy/assemutil.py:dense_assem", "solidspy/assemutil.py:sparse_assem", "solidspy/assemutil.py:DME", "solidspy/preprocesor.py:rect_grid"]}
{"id": "C115", "title": "Waves in a periodic mesh", "statement": "For a connected unsupported mesh of plane elements with physical material data, reduced by bloch_transform_mat over the node pairs of a periodic cell (two of the pairs having different midpoints): the reduced stiffness annihilates a Bloch vector exactly when its wave is a translation of the whole mesh; such waves exist (all of them) when the wave vector makes whole turns across every pair and only the zero one otherwise, so the reduced stiffness is positive definite exactly when the wave vector is not a reciprocal lattice vector. With positive densities every value of the reduced eigenproblem K q = l M q is real and not negative and is zero only for translations. The conjugate vector solves the problem at the opposite wave vector with the same value.", "quantifier": "all meshes, wave vectors, pairings, Bloch vectors and eigenvalues", "why_tests_cant": "all wave vectors and all vectors at once; the equivalences need rigid-motion and reciprocal-lattice arguments", "anchors": ["solidspy/blochutil.py:bloch_transform_mat", "solidspy/assemutil.py:assembler", "solidspy/assemutil.py:DME", "solidspy/uelutil.py:elast_quad4"]}
{"id": "C116", "title": "Natural frequencies and modes of a uniform bar", "statement": "Take a straight bar clamped at both ends and cut into n equal truss elements of length h, with Young's modulus E, cross section A and density rho all positive (the model of tests/test_integration.py:test_eigs_truss with any n and any data). DME and assembler succeed, and the generalized eigenvalues of the assembled stiffness and mass matrices are exactly the numbers (E/rho) (6/h^2) (1 - cos(k pi/n)) / (2 + cos(k pi/n)) for 0 < k < n and nothing else. The modes of the k-th one are exactly the multiples of the sine of k half waves sampled at the nodes. The eigenvalues increase with k, are never below the value (E/rho)(k pi/L)^2 of the continuous bar of length L = n h, exceed it by at most the factor 1/(1 - (k pi/n)^2/6) when (k pi/n)^2 < 6, and tend to it as n grows with L fixed.", "quantifier": "For every number of elements n, every mode number 0 < k < n, every h, E, A, rho > 0, every real w and every position of the bar along the first axis.", "why_tests_cant": "The test compares six eigenvalues of one mesh of 512 elements with the continuous values to one percent; it cannot show that no spurious frequency appears for another n, nor that the error is one-sided and vanishes.", "anchors": ["solidspy/uelutil.py:truss2D", "solidspy/assemutil.py:assembler", "solidspy/assemutil.py:DME", "solidspy/assemutil.py:sparse_assem"]}
{"id": "C117", "title": "Static analysis of frames: rotations and couples balance", "statement": "For every frame - any number of nodes with three degrees of freedom each, any mix of the two beam elements, any supports - whose elements are accepted, DME with ndof_node=3 and the assembler (sparse or dense) succeed; the assembled stiffness is nonsingular exactly when the frame is stable; and then DME, assembler, loadasem, static_sol and complete_disp return displacements and rotations that vanish at the supports and balance the applied forces and couples at every free degree of freedom, and are the only ones that do.", "quantifier": "for all node, constraint, material and element tables forming a frame of beams (types 7 and 8), all loads with known nodes, sparse and dense assembly, every solver that solves nonsingular systems", "why_tests_cant": "The only frame in the tests has one free node, dense assembly and a tolerance of ten per cent; success, equilibrium and uniqueness for every frame cannot be sampled.", "anchors": ["solidspy/assemutil.py:DME", "solidspy/assemutil.py:assembler", "solidspy/assemutil.py:loadasem", "solidspy/solutil.py:static_sol", "solidspy/uelutil.py:beam2D", "solidspy/uelutil.py:beam2DU", "solidspy/postprocesor.py:complete_disp"]}
{"id": "C118", "title": "A cantilever of beams is exact at the nodes", "statement": "For a straight cantilever divided into any number of beam elements of any lengths, with or without axial deformation, the analysis succeeds under every set of nodal forces and couples, and the axial displacement, deflection and rotation computed at every node are exactly those of the Euler-Bernoulli beam - the curve that starts horizontally from the clamp and whose curvature times EI is the moment of the loads beyond the section; for tip loads the textbook values PL^3/3EI + ML^2/2EI and PL^2/2EI + ML/EI.", "quantifier": "for all numbers and lengths of elements, both beam types, all positive EI and EA, all nodal forces and couples, sparse and dense assembly", "why_tests_cant": "A test solves one beam with one load to a tolerance; that the error is exactly zero at all nodes for every division and load needs the closed form and uniqueness.", "anchors": ["solidspy/uelutil.py:beam2D", "solidspy/uelutil.py:beam2DU", "solidspy/assemutil.py:assembler", "solidspy/assemutil.py:loadasem", "solidspy/postprocesor.py:complete_disp"]}
{"id": "C119", "title": "Vibration modes of an assembled model", "statement": "For every plane model - triangles, quadrilaterals and bars in any mix, of positive mass - whose every free degree of freedom belongs to some element, the stiffness and mass matrices of the assembler have exactly as many modes as equations: there are fields, orthonormal in the assembled mass and orthogonal in the assembled stiffness, with real squared frequencies in increasing order, and a number is a generalized eigenvalue exactly when it is one of them. The k-th squared frequency is the least t for which k+1 independent admissible fields exist on all combinations of which the elastic energy is at most t times the kinetic energy, a value that does not mention equation numbers; so the frequencies are unique. Where the materials are physical none is negative, all are positive exactly when the model is stable, and the number of zeros is the dimension of the free motions: exactly three for an unsupported connected mesh, none for one that is held. The static response is the sum of the modal responses. For the clamped uniform bar the modes are those of C116 in order.", "quantifier": "for all node, material, constraint and element tables forming such a model, all mode numbers, all load vectors", "why_tests_cant": "The tests look at a handful of eigenvalues of one bar and one beam; existence of a complete basis, the min-max value and the exact count of zero frequencies are statements about every mesh.", "anchors": ["solidspy/assemutil.py:assembler", "solidspy/assemutil.py:sparse_assem", "solidspy/assemutil.py:DME", "solidspy/assemutil.py:retriever", "solidspy/uelutil.py:elast_quad4", "solidspy/uelutil.py:elast_quad9", "solidspy/uelutil.py:elast_tri3", "solidspy/uelutil.py:elast_tri6", "solidspy/uelutil.py:truss2D"]}
{"id": "C120", "title": "How the frequencies depend on supports, materials, place and size", "statement": "Take two models as in C119 and compare their squared frequencies one by one. Further supports never lower any. If every stiffness is multiplied by a factor between a and a' and every density by one between b and b', every squared frequency is multiplied by a factor between a/b' and a'/b, and exactly by a/b when the factors are common. Moving and turning the model with its supports changes none. Enlarging a model of plane elements or of bars s times divides all of them by s squared.", "quantifier": "for all such pairs of models, all mode numbers, all factors, all rotations and translations", "why_tests_cant": "A comparison of two computed spectra shows nothing about another mesh; monotonicity in each mode number needs the min-max value.", "anchors": ["solidspy/assemutil.py:assembler", "solidspy/assemutil.py:DME", "solidspy/assemutil.py:retriever", "solidspy/uelutil.py:elast_quad4", "solidspy/uelutil.py:elast_quad9", "solidspy/uelutil.py:elast_tri3", "solidspy/uelutil.py:elast_tri6", "solidspy/uelutil.py:truss2D"]}
{"id": "C121", "title": "Beam matrices are the energies of cubic curves", "statement": "For a beam element of either kind of positive length, the displacements and rotations of its ends determine exactly one cubic deflection with these end values and slopes and exactly one linear axial displacement. The bilinear form of the returned stiffness matrix is EI times the integral of the product of the second derivatives of the deflections (plus EA times the integral of the product of the axial strains for the beam with axial deformation), and that of the returned mass matrix is the mass per length times the integral of the product of the deflections (plus that of the axial displacements). Among all twice continuously differentiable curves with the same end values and slopes the cubic has the least bending energy.", "quantifier": "for all end positions, lengths, material parameters the routine accepts with a symmetric mass matrix, and all pairs of end displacements", "why_tests_cant": "The tests compare a few entries and frequencies of single meshes; that sixteen coefficients are the integrals of cubic curves for every length, direction and material is an identity over a continuum.", "anchors": ["solidspy/uelutil.py:beam2DU", "solidspy/uelutil.py:beam2D"]}
{"id": "C122", "title": "How frames of beams vibrate", "statement": "For a plane frame of beams of either kind with positive mass per length, assembled sparse or dense, the stiffness and mass forms of each beam are the integrals of the curves its ends are bent to. Both matrices are symmetric; the mass matrix is positive definite exactly when no admissible motion is without kinetic energy, which for beams with axial deformation means that every node that can move belongs to a beam. The frame then has as many real modes as equations, orthonormal in the mass and complete, with a min-max characterisation of each squared frequency through nodal fields. With stiffnesses that are not negative no squared frequency is negative, and all are positive exactly when the frame is stable.", "quantifier": "for all frames, divisions, materials, supports and both assembly formats", "why_tests_cant": "One test checks six eigenvalues of one cantilever; definiteness, completeness and the min-max characterisation are statements about all fields of all frames.", "anchors": ["solidspy/uelutil.py:beam2DU", "solidspy/uelutil.py:beam2D", "solidspy/assemutil.py:assembler", "solidspy/assemutil.py:DME"]}
{"id": "C123", "title": "Bounds for the frequencies of a cantilever, whatever its division", "statement": "A heavy straight cantilever of length L, divided at will into beams of one kind, has real modes. Every squared frequency is at least 12 EI/(m L^4), where m is the mass per length (for beams with axial deformation: at least the smaller of that and 2 EA/(m L^2)), and the first is at most (140/11) EI/(m L^4). In particular the fourth root of the first eigenvalue of the cantilever of the tests lies within one percent of the analytic value for every number of elements.", "quantifier": "for all numbers of beams, unequal divisions, materials and both assembly formats", "why_tests_cant": "The test evaluates one division into nine equal beams; bounds that hold uniformly in the division need an inequality for all clamped piecewise cubic curves.", "anchors": ["solidspy/uelutil.py:beam2DU", "solidspy/uelutil.py:beam2D", "solidspy/assemutil.py:assembler", "tests/test_integration.py:test_eigs_beam"]}
{"id": "C124", "title": "Dividing a beam changes no static displacement and raises no frequency", "statement": "Replace one beam of a frame by two beams with the same properties that meet in a new node somewhere on its axis. (1) Against any nodal field, the divided frame resists a field whose new node lies on the curve of the undivided beam (cubic across, linear along, slope as rotation) with exactly the internal forces of the undivided frame, and the new node is then in equilibrium; the kinetic energies agree too. (2) So equilibrium of the frame under nodal loads is equilibrium of the divided frame; the divided frame is stable only if the frame was, and if the beam has positive stiffnesses and the new node is free, also whenever it was; and the analysis of the divided frame returns the same displacements and rotations at all old nodes and the values of the curve at the new one. (3) Every natural frequency of the divided frame is at most the one with the same number of the undivided frame.", "quantifier": "all frames of beams of types 7 and 8 of any size, position and slope, every beam and every ratio of division strictly between 0 and 1, all supports and loads, sparse and dense assembly, all solvers that solve nonsingular systems", "why_tests_cant": "The number of elements per member is a modelling choice that a user makes once per member; tests fix one frame and one division, and compare nothing across divisions.", "anchors": ["solidspy/uelutil.py:beam2DU", "solidspy/uelutil.py:beam2D", "solidspy/assemutil.py:assembler", "solidspy/assemutil.py:DME", "solidspy/solutil.py:static_sol", "solidspy/postprocesor.py:complete_disp"]}
{"id": "C125", "title": "Which supports hold a frame of beams", "statement": "Take a frame in one piece of beams with axial deformation and positive stiffnesses. (1) It stores no energy exactly under the mirrored rigid motions u = (t1 + w y, t2 + w x, w) of the whole; the true rigid motions (t1 - w y, t2 + w x, w) store none only if w = 0, unless all nodes have the same second coordinate, so the code's frames resist being turned. (2) Nevertheless, since supports act along the axes, the frame is stable exactly when the supports prevent every true rigid motion, that is, when there is one support in each direction and either one against rotation or two parallel ones with different lines of action; one clamped node suffices. (3) A held frame is solved for all loads. (4) The number of zero frequencies is the number of independent mirrored motions left free; three for an unsupported frame.", "quantifier": "all connected frames of beams of type 8 with positive stiffnesses, any numbers of nodes and beams, all axis-parallel supports, all loads, sparse and dense assembly", "why_tests_cant": "The tests contain one frame with two clamped ends, in which no beam may turn freely; whether some choice of supports leaves an unnoticed mechanism, and that a turned frame resists, are statements about all supports and all motions.", "anchors": ["solidspy/uelutil.py:beam2D", "solidspy/assemutil.py:assembler", "solidspy/assemutil.py:DME", "solidspy/solutil.py:static_sol"]}
{"id": "C126", "title": "Dividing a bar by a node on it: a mechanism unless the node is held across the bar, otherwise no change", "statement": "Let a node on a bar of a plane model divide it into two bars of the same material; the other elements may be of any type. (1) A nodal field in which the new node moves, along the bar, as the point of the undivided bar that it is does the same work against every field as in the undivided model; the forces on all nodes are the same and none acts on the new node; and if the new node is free in a direction the bar is not square to, it is in equilibrium only in such fields. (2) The equilibria of the divided model are exactly those of the undivided one with the new node following the bar. (3) The divided model is stable exactly when the undivided one is and the new node is held in the other direction; more generally a node all of whose elements are bars square to one direction, in which it is free, makes the assembled matrix singular. (4) Where stable, solids_auto returns the table of displacements of the undivided model and one more row, and stress_truss returns the same stresses, that of the divided bar twice. (5) With the new node on the line between the displaced ends the kinetic energies agree too, so no natural frequency rises.", "quantifier": "for all plane models with a bar of non-zero stiffness, all ratios strictly between 0 and 1, all supports, loads, nodal fields and solvers", "why_tests_cant": "The repository divides a bar only in one uniform rod whose nodes are all held across; a free node gives a singular matrix that a floating-point solver may or may not report.", "anchors": ["solidspy/uelutil.py:truss2D", "solidspy/assemutil.py:assembler", "solidspy/solids_GUI.py:solids_auto", "solidspy/postprocesor.py:stress_truss", "tests/test_integration.py:test_eigs_truss"]}
{"id": "C127", "title": "Nodal strains and stresses turn with the model and shrink with its size", "statement": "If the nodes of a mesh are turned by a rotation Q, moved apart by a factor s and shifted, and the nodal displacements are turned by Q and multiplied by c, then strain_nodes gives at every node the strain tensor (c/s) Q e Q^T and the stress tensor (c/s) Q sigma Q^T, where e and sigma are the tensors it gave before, and leaves undefined exactly the nodes it left undefined before; it returns on the changed mesh if it returned before and s >= 1. Hence the whole run with strains on a turned and shifted model returns the old strain and stress tensors turned by Q, and on a model enlarged by s >= 1 under the same nodal forces it returns the old strains and stresses divided by s. The principal values found by principal_dirs are the same in every frame, unless one of the tensors is taken for null or diagonal.", "quantifier": "all meshes of the element types strain_nodes handles, all materials, all displacement tables, all rotations, factors and shifts; for the runs all plane models whose supports hold them", "why_tests_cant": "Tests read strains of a few meshes in one position; a wrong factor on the shear row, a swapped row of the strain matrix or a plane strain law used in one branch agrees with symmetric cases and fails only in other frames.", "anchors": ["solidspy/postprocesor.py:strain_nodes", "solidspy/femutil.py:str_el3", "solidspy/femutil.py:str_el6", "solidspy/femutil.py:str_el4", "solidspy/postprocesor.py:eigvals", "solidspy/postprocesor.py:principal_dirs", "solidspy/solids_GUI.py:solids_auto"]}
{"id": "C128", "title": "Turning, mirroring or enlarging a frame of beams", "statement": "Let every beam of a second frame be the beam of the first turned or reflected by an orthogonal Q, with lengths multiplied by s, shifted, with axial stiffness multiplied by a, bending stiffness by a s^2 and mass per length by b. Because the code's beams are mirror images of those of textbooks, displacements go over by M Q M (M the reflection in the first axis): a frame turned one way has its displacements turned the other way. With this map, and rotations multiplied by det Q / s: (1) the work of springs and masses is multiplied by a/s and b s. (2) The second frame is stable exactly when the first is. (3) Under forces mapped in the same way and multiplied by c (couples by c s det Q), the whole analysis returns displacements and rotations mapped and multiplied by c s / a. (4) The squared frequencies are multiplied by a / (b s^2). (5) Turned tables of nodes give such frames with a = b = s = 1, and enlarged nodes with enlarged sections give such frames with a = b = s^2. (6) A nodal field is the equilibrium of textbook beams exactly when its mirror image is an equilibrium of the code's frame under the mirror image of the loads.", "quantifier": "all frames of beams of both kinds, all orthogonal maps, sizes, shifts, stiffness and mass factors, all supports that map onto each other, all loads and solvers, sparse and dense assembly", "why_tests_cant": "The tests analyse one frame in one position with beams along the axes and compare it with one table of numbers; that displacements turn against the frame, and how sizes enter, needs all positions and sizes.", "anchors": ["solidspy/uelutil.py:beam2D", "solidspy/uelutil.py:beam2DU", "solidspy/assemutil.py:assembler", "solidspy/solutil.py:static_sol", "tests/test_integration.py:test_beams"]}
{"id": "C129", "title": "Work and energy in frames of beams", "statement": "For a stable frame of beams: the displacements and rotations returned are linear in the load values; the loads of one case do as much work on the response to another as the other way round; the beams store half the work of the loads, the stored energy being the integral of bending and axial energy over the cubics and linear functions the nodal values define; exactly the equilibrium states have the least stored energy less work of the loads, and the analysis returns the only one; the stored energy grows with a load at the rate of the displacement or rotation at that load. Further supports, stiffer beams and further beams keep the frame stable and never increase the work of the loads. With further supports, stiffnesses at least c times and masses at most d times the former, every squared frequency is at least c/d times the former.", "quantifier": "every frame of beams of either kind, every pair of load tables, every admissible competitor, every such change of the frame, every mode number", "why_tests_cant": "The statements compare the returned state with all admissible fields, and two runs on all frames.", "anchors": ["solidspy/uelutil.py:beam2D", "solidspy/uelutil.py:beam2DU", "solidspy/assemutil.py:assembler", "solidspy/assemutil.py:loadasem", "solidspy/solutil.py:static_sol", "solidspy/postprocesor.py:complete_disp"]}
{"id": "C130", "title": "The tutorial script writes the mesh, its supports and a total load of -2 into the input files", "statement": "For every mesh of triangles with tagged surfaces and lines, template_input.py succeeds when some line carries the tag 500 and otherwise stops with ZeroDivisionError before writing. Its four files are read back by readin as: one row per point with the coordinates rounded to the nearest 1/10000 and -1 in the x (y) column exactly for the nodes on lines tagged 300 (400); one row of type 3 per triangle, with material 0 exactly for the surface tagged 100; the two materials; and one row per distinct node of the lines tagged 500 with the same vertical load. The vertical loads in the file add up to -2 within half a millionth per node, and to exactly -2 if and only if the number of loaded nodes divides 2000000. A triangle keeps its orientation unless its area is of the order of the rounding. No other file is touched. With a single tag for all triangles every triangle gets its material; any other number of tags than one or that of the triangles stops the script with ValueError before writing.", "quantifier": "for all points, cells, tags, orders in which a set is enumerated, and previous contents of the folder", "why_tests_cant": "the number of nodes, the mesh and the order of a Python set are unbounded; an example mesh has one number of loaded nodes and mostly coordinates that survive rounding", "anchors": ["docs/tutorials/template_input.py", "solidspy/preprocesor.py:readin"]}
{"id": "C131", "title": "The closed-form cantilever of the convergence notebook: its stresses are right, its displacements are not", "statement": "The strains returned by beam_sln are those of a plane-stress field in equilibrium, without traction on the faces y = h/2 and y = -h/2, whose shear resultant on every section is -P exactly when I = h^3/12. The normal strains are the derivatives of the returned displacements. The shear strain is not: the displacements give it plus 2(1+nu)P/(EI)(y^2 - c^2/2) with c = h/2, so under load they agree only on the two lines y^2 = c^2/2; subtracting (1+nu)P/(EI)(2y^3/3 - c^2 y) from u makes them agree everywhere.", "quantifier": "for all real x, y, nu, P, E, I, L, h with E and I nonzero (and nu different from 1 and -1 where stresses appear)", "why_tests_cant": "the notebook only plots the fields; agreement of a displacement field with its strains at every point is a statement about derivatives over a continuum of points and parameters", "anchors": ["examples/beam_convergence/beam_convergence.ipynb", "solidspy/femutil.py:umat"]}
{"id": "C132", "title": "The finite element models of the convergence notebook: total load, supports, solution and stale call", "statement": "For every mesh nx by ny of the loop: the loads are on the nodes of the left edge and add up to P + P/ny, so to P only without load; exactly the nodes of the right edge are held in x; exactly one node is held in y, it lies in the middle row but ny//2 + 1 columns to the left of the right edge, never on it (on the meshes nx = 3 ny with ny even at L/6 + L/(3 ny) from it). Given to solids_auto the model is solved without warning, and its displacements are 1 + 1/ny times those under a total load P. The call DME(nodes, els) of the notebook, with the five-column node table in place of the supports, raises an exception with the code at this commit, for any non-empty element list.", "quantifier": "for all L, h, E, nu, P, nx, ny with ny//2 + 1 <= nx, cells above the tolerance of the Jacobian, E > 0, -1 < nu < 1, and any solver that returns the solution of a regular system", "why_tests_cant": "the notebook refines eight times and shows only differences between meshes; a load that changes with the mesh and a support that moves with it are invisible there", "anchors": ["examples/beam_convergence/beam_convergence.ipynb", "solidspy/preprocesor.py:rect_grid", "solidspy/assemutil.py:DME", "solidspy/solids_GUI.py:solids_auto"]}
{"id": "C133", "title": "Halving the cells of a rect_grid plate never makes it stiffer, beyond the rounding of the Gauss points", "statement": "Let a plate be meshed by rect_grid with nx by ny cells and again with 2nx by 2ny, with the same material. The bilinear interpolation of any nodal displacements has on the finer mesh at least the energy it has on the coarser one, and at most 1 + 2e-18 times as much (the Gauss points are written with 18 decimals). So, if the supports of the finer mesh hold for interpolated displacements and its loads do the same work on them, the loads do on the finer mesh at least 1/(1+2e-18) times the work they do on the coarser one. In particular a plate clamped on its left edge with a force at the upper right corner is solved silently on all grids (2^k nx) by (2^k ny), and the displacement of the corner in the direction of the force does not decrease from the first to the k-th by more than the factor (1+2e-18)^k.", "quantifier": "for all L, H, E > 0, -1 < nu < 1, nx, ny, k, supports, loads and nodal displacements, with cells above the tolerance of the Jacobian", "why_tests_cant": "a test compares a few meshes with floating point noise far above 1e-18; the claim is about every mesh, load and support, and the direction of the rounding of the Gauss points matters", "anchors": ["solidspy/uelutil.py:elast_quad4", "solidspy/gaussutil.py:gauss_1d", "solidspy/preprocesor.py:rect_grid", "solidspy/solids_GUI.py:solids_auto", "examples/beam_convergence/beam_convergence.ipynb"]}
{"id": "C134", "title": "The tutorial works from the mesh to the displacements", "statement": "Take a mesh of triangles with tagged lines whose triangles are counterclockwise and large against the four decimals of the file, that is in one piece across shared sides and uses every point, with two points of lines tagged 300 at different heights, a line tagged 400, a line tagged 500 and some free degree of freedom. Then template_input.py runs, solids_GUI reads its four files and returns displacements without the equilibrium warning. Its reactions are horizontal only on the lines tagged 300 and in balance there, vertical only on the lines tagged 400, and the vertical ones add up to 2 within half a millionth per loaded node, exactly 2 if and only if the number of loaded nodes divides two million.", "quantifier": "for all meshes meeting the conditions, all orders in which sets are enumerated, all earlier contents of the folder, all solvers that solve non-singular systems", "why_tests_cant": "The claim spans the script, the text format with its rounding, the reader, the assembly and the solver, for every mesh; a test runs one mesh.", "anchors": ["docs/tutorials/template_input.py", "solidspy/solids_GUI.py:solids_GUI", "solidspy/preprocesor.py:readin"]}
{"id": "C135", "title": "A static analysis with the user's own element routine is correct", "statement": "assembler and DME accept a routine `uel` of the user and a function `ndof_el` giving its number of degrees of freedom. For every routine that returns n*nd by n*nd arrays for n nodes with nd degrees of freedom each (such as elast_quad8, elast_axi_quad9, elast_tet4, elast_hex8, which ele_fun does not list), every mesh of such elements and every ndof_el_max >= n*nd, numbering and assembly succeed, sparse or dense. If the model is stable, the analysis DME, assembler, loadasem, static_sol, complete_disp returns displacements that vanish at the supports and balance the loads at every free degree of freedom, and they are the only ones. The assembled stiffness is nonsingular exactly when the model is stable. If ndof_el_max is smaller than n*nd (the default 18 for the 24 of elast_hex8), DME raises a ValueError.", "quantifier": "for all element routines of the stated shape, numbers of nodes and of degrees of freedom per node, meshes, materials, supports, loads, values of ndof_el_max, sparse or dense, and correct linear solvers", "why_tests_cant": "The routine is an argument: a test runs a chosen routine, the claim is about every routine of the right shape.", "anchors": ["solidspy/assemutil.py:DME", "solidspy/assemutil.py:assembler", "solidspy/assemutil.py:loadasem", "solidspy/solutil.py:static_sol", "solidspy/postprocesor.py:complete_disp", "solidspy/uelutil.py:elast_quad8", "solidspy/uelutil.py:elast_hex8"]}
{"id": "C136", "title": "Solid bodies of tetrahedra or bricks stand exactly when their supports prevent rigid motions, and their reactions balance the loads", "statement": "For meshes of elast_tet4 or elast_hex8 in space: whatever the displacements, the internal forces have no resultant and no moment about any of the three axes; the reactions of the displacements the analysis returns balance the loads in the three forces and three moments. For a body in one piece (elements linked by three shared nodes not on a line) with positive stiffness, the elements being tetrahedra or parallelepiped bricks, a displacement has zero energy exactly when it is a rigid motion (three translations and three rotations); the model is stable exactly when the supports prevent rigid motions; three fixed nodes not on a line do, fixed nodes on one line do not; and a supported body is solved for every table of loads.", "quantifier": "for all meshes of tetrahedra (of any shape) or of parallelepiped bricks, materials with E > 0 and -1 < nu < 1/2, supports and loads; the balance of forces for all meshes of tetrahedra or hexahedra of any shape the routine accepts", "why_tests_cant": "Singular supports and unbalanced moments show only for particular meshes; the claim covers all of them.", "anchors": ["solidspy/uelutil.py:elast_tet4", "solidspy/uelutil.py:elast_hex8", "solidspy/femutil.py:elast_diff_3d", "solidspy/femutil.py:elast_mat", "solidspy/assemutil.py:assembler", "solidspy/assemutil.py:DME"]}
{"id": "C137", "title": "Mirror images of plane elements: with the nodes read in the other sense the element gives the mirrored matrices, in the old order it is refused", "statement": "For each of tri3, tri6, quad4, quad9 and quad8: if the routine accepts nodes X, it also accepts the mirror image of X under any reflection when the nodes are listed in the opposite sense (first corner kept for triangles, first two corners swapped for quadrilaterals, the middle nodes following), with the same material parameters; the stiffness and mass matrices it then returns are the old ones, rotated by the reflection and renumbered the same way. With the nodes in the old order the mirror image is never accepted (the Jacobian determinant has the wrong sign).", "quantifier": "for all five plane elements, node positions the routine accepts, material parameters, and orthogonal Q with determinant -1", "why_tests_cant": "The claim needs the symmetry of every Gauss rule and shape function under reversal; a wrong digit in one point or an asymmetric weight shows only for particular meshes.", "anchors": ["solidspy/uelutil.py:elast_tri3", "solidspy/uelutil.py:elast_tri6", "solidspy/uelutil.py:elast_quad4", "solidspy/uelutil.py:elast_quad9", "solidspy/uelutil.py:elast_quad8", "solidspy/femutil.py:jacoper", "solidspy/gaussutil.py:gauss_nd", "solidspy/gaussutil.py:gauss_tri"]}
{"id": "C138", "title": "The mirror image of a model is solved by the mirror image of its displacements", "statement": "If d' is the mirror image of the model d under a reflection (positions, loads and supports mirrored, nodes of the plane elements listed in the opposite sense), then the elements of d' are accepted, d' is stable when d is, solids_auto returns on d', and the displacements it returns for d' are the mirror images of those for d.", "quantifier": "for all plane models with solid elements of types 1-4 and two-node trusses that are accepted and stable, all reflections and shifts, loads and correct solvers", "why_tests_cant": "A bias of orientation in one element or in the assembly appears only for particular meshes and loads; all are covered.", "anchors": ["solidspy/solids_GUI.py:solids_auto", "solidspy/assemutil.py:assembler", "solidspy/assemutil.py:retriever", "solidspy/assemutil.py:loadasem", "solidspy/assemutil.py:DME"]}
{"id": "C139", "title": "Half of a symmetric model: rollers on the axis and half of the loads there give the displacements of the whole", "statement": "Let the whole d' consist of the half d and its mirror image across a coordinate line, elements in any order, with symmetric supports and with symmetric or antisymmetric loads, and let the half be held on the axis in the components which the symmetry makes zero, and loaded there by half of the force. Then: the elements of the whole are accepted when those of the half are; an equilibrium of the half unfolds to an equilibrium of the whole; the mean of any equilibrium of the whole and its mirror image is an equilibrium of the half; the whole is stable exactly when the half is stable under both the symmetric and the antisymmetric supports; if the whole is stable, the displacements solids_auto returns for the whole are those it returns for the half and their mirror images; if only the half is stable (as in the tutorial on the Brazilian test, where the whole floats), what it returns for the half still unfolds to an equilibrium of the whole and is the symmetric mean of every such equilibrium. Every half has such a whole: for each model of these elements, coordinate line and kind of symmetry whose nodes on the line are held in the components which the symmetry makes zero, there is a whole with matching supports and loads, free on the line in those components.", "quantifier": "for all halves made of plane elements of types 1-4 and two-node trusses, all coordinate lines, numberings of the whole, symmetric supports, symmetric and antisymmetric loads, correct solvers", "why_tests_cant": "Equality of two analyses of different meshes over all meshes, numberings and loads; a run compares one pair.", "anchors": ["solidspy/solids_GUI.py:solids_auto", "docs/tutorials/brazilian_test.rst", "solidspy/assemutil.py:assembler", "solidspy/assemutil.py:loadasem", "solidspy/assemutil.py:DME"]}
{"id": "C140", "title": "The tutorial on the Brazilian test computes the disc from its quarter", "statement": "The script of the tutorial on the Brazilian test runs exactly when the mesh has a single point cell (the loaded point) and either all triangles, or exactly one, carry the tag 4; otherwise it stops with an error. Its four files are read back as: one row per point with coordinates within 1/20000, held horizontally exactly on the lines tagged 1 and vertically exactly on those tagged 2; one row of type 3 per triangle with the second of the two equal materials E = 70*10^9, nu = 0.35; and the load (0, -10^9) on the point. No other file is touched. If the triangles are large against the four decimals, in one piece and use every point, the lines tagged 1 and 2 are those on the two axes, the centre is a point and the loaded one is above it, solids_GUI computes displacements from the files without the equilibrium warning. The vertical reactions, on the lower edge only, add up to exactly 10^9; the horizontal ones, on the left edge only, to 0. The displacements are those of a whole disc: there is a mesh without supports consisting of the quarter and its images across both axes, pressed by 2*10^9 at the loaded point and against it at its image, for which the mirrored displacements are an equilibrium, and the displacements of the quarter are the symmetric part of every equilibrium of it.", "quantifier": "for all meshes of triangles with tagged lines, earlier contents of the folder, and correct linear solvers; existence for the whole: for all quarters meeting the conditions", "why_tests_cant": "The script, the rounding of the files, the reader, the assembly, the solver and the symmetry argument are linked for every mesh; the tutorial shows one picture.", "anchors": ["docs/tutorials/brazilian_test.rst", "solidspy/solids_GUI.py:solids_GUI", "solidspy/preprocesor.py:readin"]}
{"id": "C141", "title": "Bodies of revolution made of nine-node axisymmetric elements stand exactly when held along the axis", "statement": "The stiffness matrix elast_axi_quad9 returns for an accepted element with E > 0, -1 < nu < 1/2 gives zero energy to a displacement exactly when it is a shift along the axis (no radial displacement, equal axial ones). Hence, for a connected body of such elements analysed with the assembly routines and this user element: a field strains no element exactly when it shifts the whole body along the axis; the model is stable exactly when at least one node is held along the axis, no radial support being needed; every such model is solved for every table of loads on existing nodes; the internal forces of any displacements have no axial resultant, and the reactions vanish at free components and balance the loads along the axis. (What the routine computes differs from a body of revolution in the ways given by C37 and C50; this is about the matrices it returns.)", "quantifier": "for all accepted shapes of the nine-node element, all positions, materials with E > 0 and -1 < nu < 1/2, all meshes in which the elements are linked through common nodes and use every node, all supports, loads and displacement fields, both assembly routes", "why_tests_cant": "That no other displacement has zero energy for any accepted (curved) shape, and the exact condition on the supports of any mesh, are statements about infinitely many matrices; a test shows that single models can be solved.", "anchors": ["solidspy/uelutil.py:elast_axi_quad9", "solidspy/femutil.py:elast_diff_axi", "solidspy/femutil.py:elast_mat_axi", "solidspy/assemutil.py:assembler", "solidspy/solutil.py:static_sol"]}
{"id": "C142", "title": "Separate structures in one model do not influence each other", "statement": "Let the tables of d be those of a followed by those of b, with the numbers of nodes and materials in the rows of b shifted accordingly. Then the elements of d are accepted when those of a and b are; the supports hold d exactly when they hold both a and b; solids_auto returns on d when a and b are accepted and stable; and the displacements it returns are the rows for a followed by the rows for b.", "quantifier": "for all pairs of well-formed plane models, whatever their element types, materials, supports and loads, whose element rows count nodes and materials from the start of the tables and whose load rows name existing nodes", "why_tests_cant": "Independence concerns all pairs of models; errors such as an offset in the assembly operator or in the load vector would show only for some sizes of the first model.", "anchors": ["solidspy/assemutil.py:DME", "solidspy/assemutil.py:assembler", "solidspy/assemutil.py:loadasem", "solidspy/solids_GUI.py:solids_auto", "solidspy/postprocesor.py:complete_disp"]}
{"id": "C143", "title": "The assembled matrices couple only nodes of a common element, so their band follows from the numbering", "statement": "If an entry of the assembled stiffness or mass matrix is not zero, some row of the element table names both the node of its row and the node of its column. If the node numbers of every element differ by at most w, all entries more than 2w+1 places from the diagonal are zero; for the meshes of rect_grid with nx elements in each row all entries more than 2nx+5 places from the diagonal are zero.", "quantifier": "for all well-formed plane models, all materials and supports, all pairs of equations; for all grids", "why_tests_cant": "The pattern of zeros for every mesh and every choice of supports is a universal statement about the numbering and the assembly together.", "anchors": ["solidspy/assemutil.py:eqcounter", "solidspy/assemutil.py:DME", "solidspy/assemutil.py:assembler", "solidspy/preprocesor.py:rect_grid"]}
{"id": "C144", "title": "The Bloch analysis of a periodic rod gives the dispersion curve in closed form, whatever the number of bars in the cell", "statement": "For a rod of n equal bars of length h along the first axis (any n > 0, place, modulus E, area A, density rho), whose nodes move along the axis only and whose last node is the image of the first, assembler, reassign_dof_bloch and bloch_transform_mat all succeed for every wave vector, and the values w for which the reduced problem T* K T q = w T* M T q has a non-zero solution are exactly the n numbers (E/rho) (6 (1 - cos t)/(2 + cos t))/h^2 with t = kappa h + 2 pi m/n, m = 0..n-1. The solutions are the waves exp(i t p), which T extends over the whole cell with the Bloch phase. A cell of n bars has the frequencies of the cell of one bar at the folded wave numbers kappa + 2 pi m/(n h). The frequencies are never below those (E/rho) k^2 of the continuous rod, exceed them by at most the factor 1/(1 - (k h)^2/6), and long waves travel at the speed of the continuous rod.", "quantifier": "every n, every place and length of the bars, all positive material parameters, every real wave vector, every complex value w; any square-root function", "why_tests_cant": "The statement ranges over all wave vectors and all cell sizes, and says that no other value is a frequency; it links three routines (assembly, renumbering, transformation) whose results are only meaningful together.", "anchors": ["solidspy/blochutil.py:bloch_transform_mat", "solidspy/blochutil.py:reassign_dof_bloch", "solidspy/uelutil.py:truss2D", "solidspy/assemutil.py:assembler", "solidspy/assemutil.py:eqcounter"]}
{"id": "C145", "title": "The patch test through the whole program, and the first tutorial", "statement": "A mesh of linear triangles or bilinear quadrilaterals of any shape, of one material, in one piece and supported against rigid motions, whose supports allow a displacement field of uniform strain and whose loads are the corresponding edge tractions (half of each side's force at each of its ends), is solved exactly by solids_auto: it returns that field (for triangles divided by 0.999999999999, the sum of the weights of their rule), and for quadrilaterals the uniform strain and stress at every node.  Consequence for the first tutorial: the plate of examples/square-4_elements, for every side, modulus, Poisson ratio and load, runs without the equilibrium warning with 14 equations and displacements -nu sigma/E (x-a), sigma/E y, sigma = 2s/a; the files as they are give exactly the vector the tutorial prints.  The magnitudes it then prints are wrong: np.sqrt(UC[0::2]**2 + UC[1::2]**2) pairs the two components of each node only when no node has one component free and the other fixed (as here, where the first value belongs to no node), and on the table solids_GUI returns today it raises a ValueError for an odd number of nodes from five on and mixes neighbouring nodes for an even number.", "quantifier": "all meshes of linear elements of one kind and material, all affine fields compatible with the supports; all sides, moduli, Poisson ratios and loads of the tutorial plate; all constraint tables for the pairing of unknowns; all runs that return", "why_tests_cant": "a test runs one mesh with one state; the patch test is a statement about all meshes and all uniform states, and the tutorial's recipe is right on some support tables and wrong on others", "anchors": ["solidspy/solids_GUI.py:solids_auto", "solidspy/solids_GUI.py:solids_GUI", "solidspy/assemutil.py:eqcounter", "solidspy/uelutil.py:elast_quad4", "docs/tutorials/square_example.rst"]}
{"id": "C146", "title": "Nodal strains where the strain varies: exact at interior nodes of a grid, taken elsewhere at its border", "statement": "strain_nodes gives local node k of a quadrilateral the strain at Gauss point k, but the points of gauss_nd(2) run along s while the nodes go round the element, so the second, third and fourth node get the points nearest to the fourth, second and third.  On a plate meshed by rect_grid with the nodal displacements of any field a + b x + c y + e x y, the strain reported at a node is the strain of the field at one point: the node itself for interior nodes (the shifts of the four cells cancel, so strains and stresses are exact there), half a cell inside for nodes on the edges (and also shifted by 0.289 of a cell along the lower and upper edges), and for the corners a point that is in the nearest quarter of the cell only at the lower left one.  With one cell over the height and an elongation proportional to the height, the lower right corner is reported with -0.577 times its elongation: the sign is wrong.  For quadratic triangles with straight sides the pairing is right: row k of str_el6 is the exact strain of any quadratic field at integration point k, and that point is nearer to node k than to the other five.", "quantifier": "all plates of rect_grid (all sizes, numbers of cells, materials), all bilinear displacement fields and tables that hold them, all nodes and components, all runs that return; all straight-sided quadratic triangles and quadratic fields", "why_tests_cant": "the tests check uniform strains, where every assignment of points to nodes gives the same values", "anchors": ["solidspy/postprocesor.py:strain_nodes", "solidspy/femutil.py:str_el4", "solidspy/femutil.py:str_el6", "solidspy/gaussutil.py:gauss_nd", "solidspy/preprocesor.py:rect_grid"]}
{"id": "C147", "title": "Statics of trusses: least work, unit loads, Maxwell's count, statically determinate trusses", "statement": "For a truss read by solids_auto, the tensions (stress_truss times the area) are the elastic ones of the displacements returned, and balance the loads at every free joint direction.  Among all tensions that balance the loads they store the least energy, and only they do (Menabrea, Castigliano).  The displacement of a joint is the sum over the bars of N n L / (E A), for any tensions n that balance a unit force at the joint, elastic or not (unit load method).  The reduced system has only one solution (the condition under which the other claims say the run returns) iff no supported joint displacement other than zero leaves all bar lengths unchanged; then the number of equations counted by eqcounter is at most the number of bars (Maxwell), and where the two numbers are equal the tensions follow from balance alone.  The truss of examples/simple_truss, for every base, height, moduli, areas and load, gives the closed-form stresses and displacements; with the numbers of the notebook the displacements are the ones it prints.", "quantifier": "all trusses (any number of joints and bars, any lengths, moduli and areas of positive product), all loads and supports, all runs that return; all balancing tensions; all bases, heights, moduli, areas and loads of the example", "why_tests_cant": "the tests compare one three-bar truss with stored numbers; minimality ranges over all balancing tensions and the count over all trusses", "anchors": ["solidspy/postprocesor.py:stress_truss", "solidspy/uelutil.py:truss2D", "solidspy/solids_GUI.py:solids_auto", "solidspy/assemutil.py:eqcounter", "examples/simple_truss/simple_truss.ipynb"]}
{"id": "C148", "title": "A strip in pure bending: too stiff by an exact factor with four-node elements, exact with nine-node elements", "statement": "A strip of one row of n cells of rect_grid, its left end on rollers and its right end loaded by a couple (forces -F and F at the lower and upper node), is solved by solids_auto without warning, and at every node the displacements are those of uniform curvature.  The curvature is that of the theory of beams divided by 3 g^2 (1 / (1 - nu^2) + (h / H)^2 / (2 (1 + nu))), where h is the length of a cell, H the height and g the Gauss point of the rule: with long cells the deflection tends to zero (shear locking), and however many cells there are in the row it is at most 1 - nu^2 of the right one (up to 1e-17).  The same strip in one row of n nine-node elements (type 4) gives the exact bending displacements kappa x y and -kappa (x^2 + nu y^2) / 2 at all its nodes, with the curvature of the beam up to a factor within 1e-17 of 1 that comes from the digits of the rule.", "quantifier": "all lengths, heights, numbers of cells, couples, Young's moduli E > 0 and Poisson ratios in (-1, 1), with cells above the threshold of jacoper; all nodes", "why_tests_cant": "the tests solve single meshes and compare stored numbers; the factor for every aspect ratio and number of cells needs the solution in closed form", "anchors": ["solidspy/solids_GUI.py:solids_auto", "solidspy/uelutil.py:elast_quad4", "solidspy/uelutil.py:elast_quad9", "solidspy/preprocesor.py:rect_grid", "solidspy/gaussutil.py:gauss_nd"]}
{"id": "C149", "title": "Natural frequencies and modes of a simply supported beam, in closed form", "statement": "Take n >= 1 equal beam elements (types 7 and 8 in any mixture) of length h, bending stiffness EI and mass per length g in a line, both ends held against moving but free to turn, inner nodes free across the line. Numbering and assembly (sparse or dense) succeed with 2n equations. The squares w of the frequencies of the stiffness and mass matrices returned are exactly 420 EI/(g h^4) times the smaller root, for k = 1..n-1, and the larger root, for k = 0..n, of 7(65-36c+c^2)t^2 - 12(69+37c-c^2)t + 12(1-c)^2 = 0 with c = cos(k pi/n). Every free vibration is a sine in the deflections and a cosine in the rotations with phase k pi/n per element; there are no other modes. The smaller roots grow with k, the larger ones fall, and every smaller one is below every larger one. The k-th smaller one lies between the frequency EI/g (k pi/L)^4 of the continuous beam and that value times 1 + (k pi/n)^4/720, so for a beam of fixed length it converges to it.", "quantifier": "for all n >= 1, h > 0, EI > 0, g > 0, every mixture of the two beam types, every w and every vector, sparse and dense; bounds for every k <= n, limits for every k", "why_tests_cant": "test_eigs_beam compares six eigenvalues of one cantilever of nine elements with 1 % tolerance, so wrong mass coefficients coupling rotations, or a wrong stiffness of a higher branch, pass unnoticed; a test can compute the spectrum for single n only and can never show that no other frequency or mode exists, or bound the error for every mode and every refinement.", "anchors": ["solidspy/uelutil.py:beam2DU", "solidspy/uelutil.py:beam2D", "solidspy/assemutil.py:DME", "solidspy/assemutil.py:assembler", "tests/test_integration.py:test_eigs_beam"]}
{"id": "C150", "title": "Waves in a plate of four-node elements have the closed-form dispersion relation of the discrete medium", "statement": "For every plate meshed by rect_grid with nx by ny four-node elements of sides a = L/nx and b = H/ny, all nodes free, and every wave vector (kx, ky), the Bloch reduction (assembler, reassign_dof_bloch, bloch_transform_mat) with the upper and right sides as images of the lower and left sides has exactly these squared frequencies: for every m < nx and l < ny the two roots E/(4 rho (1-nu^2)) ((3-nu)(la+lb) +- (1+nu) sqrt((la-lb)^2 + 4 (sa sb)^2)), where la = 2(1-cos A)/(a^2 w(A)), sa = sin A/(a w(A)), A = kx a + 2 pi m/nx, and likewise for b and B = ky b + 2 pi l/ny, and w is the mean given by the two-point rule of the code. The modes are the waves a exp(i(A c + B r)). Every such analysis is carried out. A cell of nx by ny elements has the frequencies of the one-element cell at the shifted wave vectors. Along an axis the two waves are the longitudinal and the shear wave. No wave is slower than the shear wave of the continuous plate, and as the elements become small the two speeds tend to those of the continuous plate in every direction.", "quantifier": "all plate sizes, all numbers of rows and columns, all materials and densities, all wave vectors, all orders in which the pairs of nodes are listed", "why_tests_cant": "The upstream tests never call the Bloch functions on a plate; a run covers one cell and one wave vector and cannot show that the computed spectrum has no other values or what it tends to.", "anchors": ["solidspy/blochutil.py:bloch_transform_mat", "solidspy/blochutil.py:reassign_dof_bloch", "solidspy/uelutil.py:elast_quad4", "solidspy/preprocesor.py:rect_grid", "solidspy/assemutil.py:assembler"]}
{"id": "C151", "title": "The patch test in space: bodies of tetrahedra or bricks are exact in uniform states", "statement": "In a body of one material made of elast_tet4 elements of any shape, or of parallelepiped elast_hex8 elements, whose faces fit together (no face, as a cycle of nodes seen from outside, occurs twice), a displacement field of uniform strain gives internal forces at the outer faces only: every outer face gives each of its nodes an equal share of the force of the uniform stress on its vector area, and a node on no outer face is in equilibrium. If a body in one piece is loaded by these shares at its free degrees of freedom and held, so that it cannot move, where the displacements of the uniform state vanish, the analysis (DME, assembler with the user's routine, loadasem, static_sol, complete_disp) returns exactly the displacements of the uniform state at every node.", "quantifier": "for all meshes of tetrahedra or of parallelepiped bricks with matching faces, all isotropic materials, all affine displacement fields, all supports and loads as stated, sparse or dense, all correct solvers", "why_tests_cant": "A test fixes one mesh and one state; wrong face orientation, weights or shear rows may cancel in it. The claim is over all meshes and all affine fields.", "anchors": ["solidspy/uelutil.py:elast_tet4", "solidspy/uelutil.py:elast_hex8", "solidspy/femutil.py:elast_diff_3d", "solidspy/femutil.py:shape_tet4", "solidspy/femutil.py:shape_hex8", "solidspy/femutil.py:elast_mat", "solidspy/assemutil.py:assembler"]}
{"id": "C152", "title": "Which elements are accepted, in terms of their shape", "statement": "With a valid material, `elast_tri3` (and `elast_tri6` with its middle nodes at the middle of straight sides) returns exactly when twice the signed area of the triangle exceeds 1e-8; `elast_quad4` exactly when at each of the four corners the mean of the corner's area (twice that of the triangle of the corner and its neighbours) and the area of the quadrilateral, weighted g and 1 - g with the Gauss coordinate g of two points, exceeds 4e-8; `elast_quad9` and `elast_quad8` on straight sides the same with the coordinate of three points; `elast_tet4` exactly when six times the signed volume exceeds 1e-8, `elast_hex8` on a parallelepiped exactly when an eighth of its volume does. Otherwise they raise ValueError. The Jacobian determinant is interpolated bilinearly from the areas at the corners; it is positive on the whole square exactly for convex counterclockwise quadrilaterals, which the map then covers once. Convex quadrilaterals with corner areas above 4e-8 are accepted by the three routines, what nine or eight nodes accept four nodes accept, and an accepted quadrilateral is concave by less than 0.7321 of its area; a concave dart that the map covers twice is accepted by `elast_quad4` and rejected by `elast_quad9`. `elast_axi_quad9` on straight sides is accepted exactly when the plane nine-node element is and the four Gauss points next to the corners have positive radius; in particular convex elements with corner areas above 4e-8 and no corner of negative radius are accepted, also when they touch the axis.", "quantifier": "All node coordinates of the stated shapes, all moduli and densities, Poisson ratios at which the material matrix exists; all points of the square.", "why_tests_cant": "The border between accepted and rejected shapes is a condition on eight or more real coordinates; tests use a few well-shaped elements.", "anchors": ["solidspy/femutil.py:jacoper", "solidspy/uelutil.py:elast_tri3", "solidspy/uelutil.py:elast_tri6", "solidspy/uelutil.py:elast_quad4", "solidspy/uelutil.py:elast_quad9", "solidspy/uelutil.py:elast_quad8", "solidspy/uelutil.py:elast_tet4", "solidspy/uelutil.py:elast_hex8", "solidspy/uelutil.py:elast_axi_quad9", "solidspy/femutil.py:elast_diff_axi"]}
{"id": "C153", "title": "The corners of tetrahedra and bricks may be listed in any order that keeps right and left", "statement": "If elast_tet4 or elast_hex8 returns matrices for an element, it returns the same matrices with rows and columns in the new order when the corners are listed in another order that is a rotation of the reference element (the 12 even permutations of a tetrahedron's corners, the 24 rotations of the cube for a brick). More generally, an element whose corners are listed in an order that exchanges right and left (odd permutation, or mirror symmetry of the cube) and whose coordinates are mirrored by an orthogonal matrix Q of determinant -1 gets the old matrices turned by Q. In an order that exchanges right and left the routine refuses the unmirrored element with ValueError.", "quantifier": "for all coordinates and materials the routine accepts, all permutations of the corners that are symmetries of the reference element, all orthogonal matrices of the matching determinant", "why_tests_cant": "the 24 and 48 orders would have to be tried on every shape of element; equality of the matrices under renumbering depends on the shape functions and the quadrature points being symmetric digit by digit", "anchors": ["solidspy/uelutil.py:elast_tet4", "solidspy/uelutil.py:elast_hex8", "solidspy/femutil.py:shape_tet4", "solidspy/femutil.py:shape_hex8", "solidspy/femutil.py:jacoper", "solidspy/gaussutil.py:gauss_tet", "solidspy/gaussutil.py:gauss_nd"]}
{"id": "C154", "title": "Solid bodies turned, mirrored, shifted, enlarged and renumbered give the turned displacements", "statement": "For a body of tetrahedra or bricks, enlarge the coordinates s times, multiply them by an orthogonal matrix Q (a rotation, or a reflection with the corner orders of all elements exchanged), shift them, turn supports and loads likewise, and list the corners of each element in any order of the matching sense. Then all elements are accepted if s >= 1; the internal forces in the turned field are s times the old ones, turned; the new body is held exactly if the old one is; and the displacements the steps DME, assembler, loadasem, static_sol, complete_disp return are the old ones turned by Q and divided by s.", "quantifier": "for all bodies, materials, supports, loads, sizes s > 0, orthogonal matrices, shifts and corner orders; sparse or dense assembly on either side; any solvers that solve regular systems", "why_tests_cant": "a test compares two runs of one body in one position up to rounding", "anchors": ["solidspy/assemutil.py:assembler", "solidspy/assemutil.py:DME", "solidspy/assemutil.py:loadasem", "solidspy/solutil.py:static_sol", "solidspy/postprocesor.py:complete_disp", "solidspy/uelutil.py:elast_tet4", "solidspy/uelutil.py:elast_hex8"]}
{"id": "C155", "title": "Work and energy in models made of the user's own elements", "statement": "For a static analysis with the user's element routine passed as uel (DME, assembler, loadasem, static_sol, complete_disp), in any number of degrees of freedom per node and for any stable model: the displacements depend linearly on the loads, and the elements store half the work of the loads. If the routine returns symmetric matrices, the loads of one case do the same work on the displacements of a second case as the other way round, and a unit load at one place moves another as much as the other way round. If moreover no displacement gives an element negative energy, the states in equilibrium are exactly those of least stored energy less the work of the loads, the analysis returns the only one, the loads do positive work as soon as one of them acts on a free component, and a model whose elements store at least as much energy for every displacement and which has at least the same supports is stable too and lets the same loads do no more work; in particular further supports and further elements never make the structure more compliant. elast_quad8, elast_axi_quad9, elast_tet4 and elast_hex8, which ele_fun does not list, return symmetric matrices, without negative energy for elastic materials.", "quantifier": "for all element routines returning matrices of the right size, all numbers of nodes and degrees of freedom per element, all tables of nodes, elements, materials, supports and loads of a stable model, all displacement fields, both assembly routes and all exact solvers", "why_tests_cant": "The statements compare runs under arbitrary loads and models and, for the minimum, infinitely many displacement fields; a test compares a few runs of one mesh.", "anchors": ["solidspy/assemutil.py:assembler", "solidspy/assemutil.py:DME", "solidspy/assemutil.py:loadasem", "solidspy/solutil.py:static_sol", "solidspy/postprocesor.py:complete_disp", "solidspy/uelutil.py:elast_quad8", "solidspy/uelutil.py:elast_axi_quad9", "solidspy/uelutil.py:elast_tet4", "solidspy/uelutil.py:elast_hex8"]}
{"id": "C156", "title": "A finer mesh of tetrahedra is never stiffer", "statement": "When the elements of elast_tet4 in a mesh are each replaced by smaller tetrahedra that fill the same volume with the same material, the nodal field interpolated from a field of the coarse mesh has exactly the energy of that field; under the same loads the loads do at least as much work on the displacements of the fine mesh as on those of the coarse mesh, the gain being twice the energy of the difference; and among all fields of the coarse mesh that respect the supports, its computed displacements are the nearest in energy to those of the fine mesh. The energy of one tetrahedron is its volume times strain times stress.", "quantifier": "For all meshes of tetrahedra and all refinements of them, all materials and supports for which both models are solved, all loads, all fields respecting the supports, either assembly, and every pair of correct solvers.", "why_tests_cant": "The inequality concerns every mesh and each of its refinements, and a wrong sign or weight can keep it on the meshes tried.", "anchors": ["solidspy/uelutil.py:elast_tet4", "solidspy/femutil.py:shape_tet4", "solidspy/femutil.py:elast_diff_3d", "solidspy/femutil.py:elast_mat", "solidspy/gaussutil.py:gauss_tet", "solidspy/assemutil.py:assembler", "solidspy/solutil.py:static_sol"]}
{"id": "C157", "title": "Free vibration of models made of the user's own elements and of the library's solid and axisymmetric elements", "statement": "Let a model use one user element routine with symmetric element stiffness and symmetric positive definite element mass. The mass matrix assembled through `DME` and `assembler` (dense or sparse) is positive definite exactly when every node that can move belongs to an element. Then the assembled pair has as many real modes as equations, orthonormal in the mass, complete, with uniquely determined frequencies and no others; the k-th squared frequency is given by Courant and Fischer's principle in terms of the elements' energies alone. Elastic elements have no negative squared frequency and all are positive exactly when the supports hold the model, in which case the static response is the sum of the modal responses. Further supports, stiffer elements and lighter elements never lower a frequency. `elast_quad8`, `elast_axi_quad9`, `elast_tet4` and `elast_hex8` with positive density satisfy the hypotheses. A connected solid body has as many zero frequencies as its supports leave independent rigid motions: exactly six without supports, none if it is held. A connected body of revolution has a zero frequency exactly when no node is held axially, and then only one.", "quantifier": "All models with a user element routine (all numbers of nodes, equations, elements, all supports), all systems of modes of the assembled matrices; for the last claims all meshes of solid or axisymmetric elements with positive moduli and density.", "why_tests_cant": "The claims concern the whole spectrum of matrices of any size and comparisons between any two models; the repository tests no eigenvalue of such a model.", "anchors": ["solidspy/assemutil.py:DME", "solidspy/assemutil.py:assembler", "solidspy/assemutil.py:dense_assem", "solidspy/assemutil.py:sparse_assem", "solidspy/uelutil.py:elast_quad8", "solidspy/uelutil.py:elast_axi_quad9", "solidspy/uelutil.py:elast_tet4", "solidspy/uelutil.py:elast_hex8"]}
{"id": "C158", "title": "Changes to a model that leave its displacements alone", "statement": "A support can be replaced by the force it exerts: freeing held degrees of freedom and loading each with its load plus its reaction gives the same displacements if the freed model is stable (solids_auto, and runs with the user's own elements). What does not move can be held: fixing degrees of freedom whose displacement is zero keeps the model stable and the displacements. An element that exerts no force on its nodes can be removed, if the rest is stable. The first column of the element and node tables is not read: models that differ only there give the same result or the same error.", "quantifier": "every plane model of elements 1-4 and 6 in solids_auto, every model of the user's elements (first part), every set of freed or held degrees of freedom, every table of labels, every solver (last part)", "why_tests_cant": "all models, all supports and all solvers", "anchors": ["solidspy/solids_GUI.py:solids_auto", "solidspy/assemutil.py:DME", "solidspy/assemutil.py:retriever", "solidspy/assemutil.py:loadasem"]}
{"id": "C159", "title": "The Bloch analysis of a periodic beam gives the two branches of bending waves in closed form, with the gap between them", "statement": "For a line of n equal beams of length h along the first axis (any n > 0 and place, either kind of beam element), of bending stiffness EI and mass per length gamma, whose nodes may deflect and turn and whose last node is the image of the first, DME, assembler (sparse or dense), reassign_dof_bloch and bloch_transform_mat all succeed for every wave vector. The values w for which T* K T q = w T* M T q has a non-zero solution are exactly (420 EI/(gamma h^4)) t, with t one of the two roots of 7(65-36c+c^2) t^2 - 12(69+37c-c^2) t + 12(1-c)^2 = 0 and c = cos(kappa h + 2 pi m/n), m = 0..n-1. On the wave with amplitudes (a, b) of deflection and rotation the reduced matrices act as explicit Hermitian matrices of size two. A cell of n beams has the frequencies of the cell of one beam at the folded wave numbers. The lower branch lies in [0, 1680/17 EI/(gamma h^4)] and the upper one in [120, 2520] EI/(gamma h^4), so no wave has a frequency in between; the lower branch vanishes only for waves without phase change. With wave number k, |k h| <= pi, the lower branch is never below the value (EI/gamma) k^4 of the continuous beam, exceeds it by at most the relative amount (k h)^4/720, and long waves follow the law of the continuous beam.", "quantifier": "every n, place and length of the beams, all positive EI and gamma, both kinds of beam, every real wave vector, every complex value w; sparse and dense assembly; any square-root function", "why_tests_cant": "The statement ranges over all wave vectors and all cell sizes and says that no other value is a frequency; it involves element matrices, numbering, assembly and Bloch reduction with two unknowns per node at once, and the order of the dofs in the two dictionaries matters.", "anchors": ["solidspy/blochutil.py:bloch_transform_mat", "solidspy/blochutil.py:reassign_dof_bloch", "solidspy/uelutil.py:beam2DU", "solidspy/uelutil.py:beam2D", "solidspy/assemutil.py:assembler", "solidspy/assemutil.py:DME"]}
{"id": "C160", "title": "Exactly which plane models solids_auto solves", "statement": "For a model with two constraint codes per node, coordinates in two columns and a stable structure, and an exact solver, solids_auto returns a result if and only if (1) every row of the elements refers to existing nodes (counting backwards allowed) and an existing material row, has the number of nodes of its type and is accepted by its routine; (2) every row of the loads names an existing node and has an entry for every free direction of that node (entries for held directions are never read); (3) some degree of freedom is free. For three-node triangles, four-node quadrilaterals and bars, (1) means: at least two material numbers, Poisson ratio other than 1 and -1, twice the counterclockwise area above 1e-8 for triangles, the weighted corner areas above 4e-8 for quadrilaterals, two distinct ends for bars.", "quantifier": "all tables of nodes, supports, elements of types 1, 2, 3, 4 and 6, materials and loads; any exact solver; any square-root function", "why_tests_cant": "Both directions of an equivalence over all inputs: no accepted model may fail and no other model may be accepted anywhere in numbering, assembly, loads, solution and balance check.", "anchors": ["solidspy/solids_GUI.py:solids_auto", "solidspy/assemutil.py:DME", "solidspy/assemutil.py:assembler", "solidspy/assemutil.py:retriever", "solidspy/assemutil.py:loadasem", "solidspy/uelutil.py:elast_tri3", "solidspy/uelutil.py:elast_quad4", "solidspy/uelutil.py:truss2D"]}
{"id": "C161", "title": "The displacements depend continuously on coordinates, materials and loads", "statement": "Let the coordinates, material numbers and load components of models with the same elements, supports and loaded nodes tend to those of a stable model that solids_auto solves. Then the models are finally accepted by every element routine, stable and solved, and every displacement tends to that of the limit. Equivalently: for every tolerance there is a precision of the tables such that every model within that precision is solved and its displacements differ by less than the tolerance. Together with existence (C93) and uniqueness (C19) the static analysis is well posed.", "quantifier": "every stable plane model of triangles, quadrilaterals and bars over the reals, every family of models along every filter, every tolerance, any exact solver", "why_tests_cant": "A limit statement about all ways of changing the data at once; it involves every arithmetic step of the element routines, assembly, loads and solution, and the places where a routine rejects its input.", "anchors": ["solidspy/solids_GUI.py:solids_auto", "solidspy/uelutil.py:elast_tri3", "solidspy/uelutil.py:elast_tri6", "solidspy/uelutil.py:elast_quad4", "solidspy/uelutil.py:elast_quad9", "solidspy/uelutil.py:truss2D", "solidspy/femutil.py:jacoper", "solidspy/femutil.py:umat", "solidspy/assemutil.py:assembler", "solidspy/assemutil.py:loadasem"]}
{"id": "C162", "title": "What an inexact linear solver does to the displacements, and what the equilibrium check is worth", "statement": "For every stable structure there is a number C such that, whatever the solver returned and for all loads, unbalanced forces of at most e mean displacements within C e of the exact ones. So a run of solids_auto without warning is within C (1e-8 max K + 1e-5 P) of the exact displacements, P the largest load. There is also a condition number k such that a backward stable solver of unit h with k h < 1 makes an error of at most k h / (1 - k h) times the largest displacement; every tolerance is met by a small enough unit. A solver that merely answers lets the run return. The check is blind to small loads: if no load exceeds 1e-8 times the largest entry of the matrix, a solver that returns zeros passes without warning.", "quantifier": "every well-formed stable model, every load table, every solver function (arbitrary, of bounded residual, or backward stable)", "why_tests_cant": "Tests use one solver and compare numbers with loose tolerances; the bounds hold for all solvers and loads with one constant per structure, and the blind spot of the check shows only for loads that tests with unit stiffness never use.", "anchors": ["solidspy/solids_GUI.py:solids_auto", "solidspy/solutil.py:static_sol", "solidspy/assemutil.py:assembler", "solidspy/assemutil.py:loadasem"]}
{"id": "C163", "title": "Which arrays a call changes", "statement": "With arrays in memory and functions getting references: solids_auto and solids_GUI compute what they do on the contents of their arrays, put the displacements into a new array and change no array that existed before, whether they return or raise; the equation numbers are written into a copy although the constraints of solids_GUI are a view of the array of nodes. boundary_conditions writes into the array it is given, returns that very array and changes no other, so successive calls accumulate. Hence through any session of calls an array not handed to boundary_conditions keeps its contents, and an analysis gives the same result before and after.", "quantifier": "every memory, every dictionary of references (arrays may be shared), every finite session of calls, returning or raising", "why_tests_cant": "Tests call each function once on fresh arrays; sharing, views and repeated calls in arbitrary order are not exercised.", "anchors": ["solidspy/assemutil.py:eqcounter", "solidspy/assemutil.py:DME", "solidspy/solids_GUI.py:solids_auto", "solidspy/solids_GUI.py:solids_GUI", "solidspy/preprocesor.py:boundary_conditions"]}
{"id": "C164", "title": "Sensitivities of the computed displacements", "statement": "When the modulus of each material row q grows at a relative rate g(q), the displacements solids_auto returns for a stable plane or truss model with exact solvers are differentiable, and the derivative of the work of any loads G on them is minus the sum over the elements of g times the stiffness form of the response to G and the displacements (the adjoint formula); for a unit load this is the derivative of one displacement. For the loads themselves the derivative is minus twice the weighted strain energy, and for physical materials the tangent bounds the work of the loads from below for every change of the moduli. For trusses the forms are the products of the stresses stress_truss gives for the two load cases, times volume over modulus (the unit load method). When the loads grow along y, the derivative of the strain energy is the work of y on the displacements (Castigliano).", "quantifier": "every stable plane or truss model over the reals, every direction of change of the moduli, every pair of load tables, every exact solver", "why_tests_cant": "Derivatives are limits over all small changes; finite differences of a few runs carry rounding errors and cannot establish the formula, nor the bound for all changes.", "anchors": ["solidspy/solids_GUI.py:solids_auto", "solidspy/postprocesor.py:stress_truss", "solidspy/uelutil.py:truss2D", "solidspy/uelutil.py:elast_quad4"]}
{"id": "C165", "title": "Trusses computed with rounding arithmetic", "statement": "Let every operation of the bar routine and of the sparse assembly have a relative error of at most u (additions in any order), and let the solver be backward stable with unit eta. Every entry of a bar stiffness then has a relative error of at most 1/(1-u)^31 - 1. The assembly returns whenever the exact one does, with entries off by at most (1+u)^(16 nels)/(1-u)^31 - 1 times the sizes that meet there. For a stable truss there is a number kappa such that the run returns whenever kappa*theta < 1 and its displacements are off by at most kappa*theta/(1-kappa*theta) times the largest exact one; to first order the error is at most C (u + eta). With u = 0 the rounding program is the exact model.", "quantifier": "for all stable plane trusses, all loads, all rounding units, all roundings of every single operation within the unit, all orders of summation, and all backward stable solvers", "why_tests_cant": "A test sees one floating point format on one structure; the bound holds for every way of rounding and every order of summation, and says how the error scales with the unit.", "anchors": ["solidspy/uelutil.py:truss2D", "solidspy/assemutil.py:sparse_assem", "solidspy/assemutil.py:retriever", "solidspy/solids_GUI.py:solids_auto"]}
{"id": "C166", "title": "What an inexact linear solver does to the displacements of frames and of the user's own elements", "statement": "For a frame of beams (DME, assembler, loadasem, static_sol and complete_disp with three degrees of freedom per node) and for a model made of the user's own element routine (any number of nodes and of degrees of freedom per node, so also the library's tetrahedra, bricks, eight-node and axisymmetric elements), stable on its supports, sparse or dense: (a) a solver whose answers leave a residual of at most eps leaves forces out of balance by at most eps at every free degree of freedom, and displacements that vanish at the supports; (b) there is one number C of the structure such that, whatever the solver returned and whatever the loads, forces out of balance by at most eps mean displacements within C eps of the exact ones; (c) two runs of the same model, with different solvers, sparse or dense, differ by at most C times the sum of their unbalanced forces; (d) there is a condition number kappa such that a backward stable solver of unit eta, kappa eta < 1, makes an error of at most kappa eta/(1 - kappa eta) times the largest displacement; (e) every tolerance is met by a small enough unit; (f) a run returns as soon as the solver answers nonsingular systems and every row of the loads names a node and has all its columns.", "quantifier": "All stable frames, all stable models of any user element, all loads, all solvers, all tolerances, sparse and dense.", "why_tests_cant": "A test sees one solver on one structure; the bounds hold for every solver and all loads at once.", "anchors": ["solidspy/solutil.py:static_sol", "solidspy/assemutil.py:assembler", "solidspy/assemutil.py:loadasem", "solidspy/postprocesor.py:complete_disp", "solidspy/uelutil.py:beam2D", "solidspy/uelutil.py:elast_tet4"]}
{"id": "C167", "title": "Frames and models of the user's own elements depend continuously on their data", "statement": "Take a stable frame, or a stable model of the user's own elements whose routine depends continuously on coordinates and material numbers, and fix its elements, supports and loaded nodes. If coordinates, material numbers and loads tend to those of the model (along any filter), then finally every perturbed model is accepted, stable and solved, and every displacement tends to that of the model. Equivalently, for every tolerance on the displacements there is a precision of the data that guarantees it. Both beam routines (with every length of material row they accept), the plane routines, the axisymmetric routine and both solid routines depend continuously on coordinates and material numbers wherever they return, in their stiffness and in their mass matrix, and keep returning nearby.", "quantifier": "all stable frames and user models, all filters / sequences of perturbed data, all tolerances, sparse and dense, all exact solvers; all coordinates and material rows the routines accept", "why_tests_cant": "A test compares finitely many perturbed runs; continuity and the existence of a sufficient precision speak about all data near the given ones.", "anchors": ["solidspy/uelutil.py:beam2DU", "solidspy/uelutil.py:beam2D", "solidspy/uelutil.py:elast_quad8", "solidspy/uelutil.py:elast_axi_quad9", "solidspy/uelutil.py:elast_tet4", "solidspy/uelutil.py:elast_hex8", "solidspy/assemutil.py:assembler", "solidspy/assemutil.py:loadasem", "solidspy/solutil.py:static_sol", "solidspy/postprocesor.py:complete_disp"]}
{"id": "C168", "title": "The natural frequencies depend continuously on coordinates and materials", "statement": "The squared natural frequencies of the pair (stiffness, mass) that assembler returns are stable under small errors of the data. Plane models and trusses: if coordinates and material numbers tend to those of a model that vibrates, all near models finally vibrate with the same number of modes, and each squared frequency, counted in order, tends to that of the given model; for every tolerance there is a precision of the data that suffices for all frequencies. The same holds for frames of either beam and for models of the element routines that must be passed as uel (quad8, axisymmetric quad9, tet4, hex8), and for every user element whose matrices depend continuously on its data. Quantitatively: if the energies in the springs and in the masses of two structures with the same supports differ, for every admissible field, by at most the fraction e <= 1/2 of the kinetic energy, then every squared frequency w changes by at most 2 e (1 + |w|), whatever the meshes.", "quantifier": "all models of plane elements and bars, all frames of heavy beams, all models of the library's or continuous user elements; all filters along which the data tend to theirs; all tolerances", "why_tests_cant": "It is a statement about all perturbations of all models and about eigenvalues, that a test compares only for one matrix at a time and to a tolerance chosen by hand.", "anchors": ["solidspy/assemutil.py:assembler", "solidspy/uelutil.py:truss2D", "solidspy/uelutil.py:beam2D", "solidspy/uelutil.py:beam2DU", "solidspy/uelutil.py:elast_tet4", "solidspy/assemutil.py:DME"]}
{"id": "C169", "title": "Order of elements, numbers of nodes and band for frames, user elements and vibration", "statement": "For frames (three degrees of freedom per node) and for models of the user's own elements: (1) listing the elements in another order changes neither whether the static analysis returns nor what it returns, whatever the tables and solvers; (2) after the nodes are renumbered (rows of coordinates and supports moved, connectivity and loads rewritten) a stable model is still solved and returns the renumbered displacements and rotations; (3) for these and for plane models, stable or not, the stiffness and mass matrices of the renumbered model are the given ones with the equations renumbered by one permutation, the equation of component j of node p becoming that of component j of the moved node, so all natural frequencies are the same and the modes are renumbered; (4) the matrices couple only nodes of a common element, and if node numbers in an element differ by at most w, entries nd*(w+1) or more places off the diagonal vanish.", "quantifier": "all frames, plane models and models of user elements, all permutations of elements and of nodes, all exact solvers (order of elements: all solvers), sparse and dense, all numbers nd of degrees of freedom per node", "why_tests_cant": "There are factorially many orders and numberings of every model, and every model would have to be tried.", "anchors": ["solidspy/assemutil.py:eqcounter", "solidspy/assemutil.py:DME", "solidspy/assemutil.py:assembler", "solidspy/assemutil.py:dense_assem", "solidspy/assemutil.py:sparse_assem", "solidspy/assemutil.py:loadasem", "solidspy/solutil.py:static_sol", "solidspy/postprocesor.py:complete_disp"]}
{"id": "C170", "title": "The rates at which natural frequencies change with materials and sections", "statement": "Take a model that vibrates and let modulus and density of the material in row q of the table grow by the fractions t*g(q) and t*r(q). Models near it assemble and vibrate, and if the k-th squared frequency w of the model is simple, the k-th squared frequency of the changed models has at t = 0 a derivative: the sum over elements of g times the strain energy product of the mode, less w times the sum of r times its kinetic energy product. If all elements share a and b this is (a-b)*w; stiffening raises and loading lowers the frequencies of a physical model. For frames of beams the same holds of any differentiable change of the flexural and axial stiffnesses and masses per length, and for elements passed as uel whose stiffness and mass are proportional to modulus and density, which those of uelutil are.", "quantifier": "All plane models of library elements and trusses, all frames of beams with differentiable sections, all models with a proportional user's element (8-node quad, axisymmetric 9-node quad, tetrahedron, brick), all fractions g and r, all simple frequencies.", "why_tests_cant": "A derivative is a limit over infinitely many models; finite differences on examples cannot give it, nor cover all models, modes and fractions.", "anchors": ["solidspy/assemutil.py:assembler", "solidspy/assemutil.py:DME", "solidspy/femutil.py:umat", "solidspy/femutil.py:elast_mat", "solidspy/femutil.py:elast_mat_axi", "solidspy/uelutil.py:elast_quad4", "solidspy/uelutil.py:elast_tri3", "solidspy/uelutil.py:elast_tri6", "solidspy/uelutil.py:elast_quad9", "solidspy/uelutil.py:elast_quad8", "solidspy/uelutil.py:elast_axi_quad9", "solidspy/uelutil.py:elast_tet4", "solidspy/uelutil.py:elast_hex8", "solidspy/uelutil.py:truss2D", "solidspy/uelutil.py:beam2D", "solidspy/uelutil.py:beam2DU"]}
{"id": "C171", "title": "The rates at which displacements of frames and of user's elements change with stiffness", "statement": "Let the flexural and axial stiffnesses of the beams of a stable frame vary differentiably with t. Frames near t = 0 are solved, and the work of any loads G on the computed displacements and rotations has at t = 0 a derivative: minus the sum over the beams of the rate of EI times the integrated product of curvatures, and of the rate of EA times that of elongations, of the displacements and of the computed response to G. With a unit load for G this is the rate of one displacement or rotation; with the loads of the frame it is the rate of their work, which is never positive if no stiffness decreases. The same holds of models of elements passed as uel whose stiffness is proportional to the modulus, as those of uelutil are, when the modulus of row q grows by the fraction t*g(q): minus the sum of g times the strain energy products of the elements.", "quantifier": "All stable frames of beams with differentiable stiffnesses, all stable models with a proportional and continuous user's element (8-node quad, axisymmetric 9-node quad, tetrahedron, brick), all loads, all rates, both kinds of assembly, all correct solvers.", "why_tests_cant": "A derivative is a limit over infinitely many models; finite differences on examples cannot give it, nor cover all structures and loads.", "anchors": ["solidspy/assemutil.py:assembler", "solidspy/assemutil.py:loadasem", "solidspy/solutil.py:static_sol", "solidspy/postprocesor.py:complete_disp", "solidspy/uelutil.py:beam2D", "solidspy/uelutil.py:beam2DU", "solidspy/uelutil.py:elast_quad8", "solidspy/uelutil.py:elast_axi_quad9", "solidspy/uelutil.py:elast_tet4", "solidspy/uelutil.py:elast_hex8"]}
{"id": "C172", "title": "Nodal strains and stresses depend linearly, and only locally, on the displacements", "statement": "For a given mesh and materials there are fixed coefficients such that strain_nodes returns, for every table of displacements, the strains and stresses they give as linear functions of the displacements; the coefficients at a node are zero for every node with which it has no element in common, so displacements elsewhere, or a rigid motion of the elements around the node, change nothing. Whether strain_nodes returns does not depend on the displacements. A bound on the change of the displacements bounds that of strains and stresses by a constant of the mesh. Hence the strains and stresses that solids_auto returns for superposed loads are the superposed strains and stresses, and if a solver leaves unbalanced forces of at most eps, they differ by at most a constant times eps from those of an exact solver.", "quantifier": "All meshes, materials and displacement tables for which strain_nodes returns; all nodes; all rigid motions; all stable models and load tables run by solids_auto; all correct solvers, and all inexact ones with any bound on the unbalanced forces.", "why_tests_cant": "Linearity and locality speak of all displacement tables at once, and the constant must serve every solver and every tolerance; runs on examples fix all of them.", "anchors": ["solidspy/postprocesor.py:strain_nodes", "solidspy/femutil.py:str_el3", "solidspy/femutil.py:str_el4", "solidspy/femutil.py:str_el6", "solidspy/solids_GUI.py:solids_auto", "solidspy/solutil.py:static_sol"]}
{"id": "C173", "title": "Separate frames, bodies and other structures in one model: displacements, matrices and frequencies", "statement": "Let the tables of d be those of a followed by those of b, with the numbers of nodes and materials in the rows of b shifted accordingly. For frames of beams and for models of the user's own elements: the supports hold d exactly when they hold both a and b, and then the analysis of d returns, with the displacements and rotations of a in the rows of a and those of b in the rows of b. For these and for plane models, stable or not, the stiffness and mass matrices assembled for d are, up to the order of the equations, block diagonal with the matrices of a and of b as blocks, an equation of a node belonging to the block of its structure. Hence the characteristic polynomial of d is the product of those of a and b, the squared natural frequencies of d are those of a and of b with their multiplicities, and displacements of d are a mode exactly when their parts satisfy the equations of a and of b.", "quantifier": "All pairs of plane models, frames, or models of one user's element routine, with nonnegative node and material numbers; all supports, materials, loads, correct solvers, both kinds of assembly.", "why_tests_cant": "A leak between structures may depend on the sizes and numbering of both; two models in a test show nothing of all pairs, and the factorization speaks of all values of the frequency.", "anchors": ["solidspy/assemutil.py:eqcounter", "solidspy/assemutil.py:DME", "solidspy/assemutil.py:assembler", "solidspy/assemutil.py:dense_assem", "solidspy/assemutil.py:sparse_assem", "solidspy/assemutil.py:loadasem", "solidspy/postprocesor.py:complete_disp", "solidspy/uelutil.py:beam2D", "solidspy/uelutil.py:elast_tet4"]}
{"id": "C174", "title": "Bar stresses are linear, local and independent of the frame of reference", "statement": "For a truss, whether stress_truss returns does not depend on the displacements: it returns if and only if no bar has zero area. The stress of a bar is a linear function of the displacements of its two ends alone: combined end displacements give the combined stress, and a translation or a small rotation added at both ends, or any change at other nodes, leaves it unchanged. Through the driver: the stresses of a stable truss under combined loads are the combined stresses; turning, shifting or reflecting the truss with its supports and loads leaves every stress unchanged; and for every stable truss there is a number c such that a linear solver leaving unbalanced forces of at most eps gives stresses within c eps of the exact ones, whatever the loads.", "quantifier": "every truss, displacement table, load table, orthogonal matrix, shift and solver", "why_tests_cant": "all trusses, loads, placements and solvers", "anchors": ["solidspy/postprocesor.py:stress_truss", "solidspy/solids_GUI.py:solids_auto", "solidspy/uelutil.py:truss2D"]}
{"id": "C175", "title": "Principal values are the extreme normal components, within the tolerance of the shortcuts, and strains are not a fit input", "statement": "Away from the shortcuts the two values returned by eigvals are the largest and the smallest normal component of the tensor over all directions, and half their distance is the largest shear. Whatever branch is taken, null and diagonal shortcuts included, they are within tol times max(2, largest entry) of these extremes; hence, up to that tolerance, entries changed by at most eps change the values by at most 2 eps, turned or reflected axes change nothing, and for every stable plane model a solver leaving unbalanced forces of at most eps gives principal stresses at the nodes within c eps of the exact ones. The same holds for every row of principal_dirs, with the value of larger magnitude first. That order is not continuous: in pure shear the first value is the compression and after the slightest tension added in both directions it is the tension. Given the strains of strain_nodes, whose third column is the engineering shear, principal_dirs does not return the principal strains: away from the shortcuts its larger value is too large and its smaller one too small.", "quantifier": "every symmetric tensor, tolerance, direction, rotation, field, plane model and solver", "why_tests_cant": "all tensors and directions; tests compare a few matrices with a library", "anchors": ["solidspy/postprocesor.py:eigvals", "solidspy/postprocesor.py:principal_dirs", "solidspy/postprocesor.py:strain_nodes"]}
{"id": "C176", "title": "The highest frequency of a model is bounded by its elements", "statement": "For the matrices returned by assembler with mass, no squared frequency exceeds t if and only if no admissible field stores more than t times as much energy in the springs as in the masses. It is enough that this holds element by element for motions of the single free element: plane models, frames and the user's own elements have no frequency above the highest of their elements. For bars this means 12 E / (rho L^2), and for a bar no smaller number will do; for triangles of three nodes 12.001 E s / (rho (1 - |nu|) a^2), with s the sum of the squared sides and a twice the area, the factor showing that the weights of the quadrature do not give the mass exactly; for beams the larger of 8400 E I / (gamma L^4) and 12 E A / (gamma L^2).", "quantifier": "every plane model, frame and user model with positive mass, every number t", "why_tests_cant": "all meshes, materials and eigenvectors", "anchors": ["solidspy/assemutil.py:assembler", "solidspy/uelutil.py:truss2D", "solidspy/uelutil.py:elast_tri3", "solidspy/uelutil.py:beam2D", "solidspy/uelutil.py:beam2DU"]}
{"id": "C177", "title": "Bounds from both sides for the displacement under a load", "statement": "For a stable model with elastic elements (plane models, frames, the user's own elements), the square of the work of the loads on any admissible field is at most the work of the loads on the displacements returned times twice the energy the elements store in that field. Hence a single load moves its own component in the direction of the load, and at least by the load divided by the force needed for a unit displacement there with everything else held; in a truss this force is the sum of E A / L times the squared cosine over the bars at the joint. From above: the work of the loads on a truss is at most the sum of N^2 L / (E A) over the bars, for any tensions N that balance the loads, elastic or not.", "quantifier": "every stable model, load table, admissible field, balanced set of tensions and solver that solves", "why_tests_cant": "all structures, loads and comparison states", "anchors": ["solidspy/solids_GUI.py:solids_auto", "solidspy/assemutil.py:assembler", "solidspy/solutil.py:static_sol", "solidspy/uelutil.py:truss2D"]}
{"id": "C178", "title": "Frequencies estimated from static analyses", "statement": "Let a held model vibrate with the stiffness and mass matrices of assembler, and let X j be the displacements static_sol returns for column j of the mass matrix taken as load. The sum s of the entries X j j equals the sum of the reciprocals of the squared frequencies; every squared frequency is at least 1/s and the first is at most neq/s. If static_sol is given the inertia forces M v of a shape v, the displacements it returns have a quotient of strain to kinetic energy that is no larger than that of v and no smaller than the first squared frequency. This holds for plane models, frames and the user's own elements.", "quantifier": "for all held models with elastic elements and mass, all modes of their matrices, all shapes v, all correct solvers and both matrix formats", "why_tests_cant": "It relates every frequency of every model to the answers of static analyses; a test compares one model with one table of frequencies.", "anchors": ["solidspy/solutil.py:static_sol", "solidspy/assemutil.py:assembler", "solidspy/assemutil.py:sparse_assem", "solidspy/assemutil.py:dense_assem"]}
{"id": "C179", "title": "The bands of a periodic mesh lie between the frequencies of the floating and of the clamped cell", "statement": "Let assembler give the stiffness and mass matrices of a vibrating cell and let bloch_transform_mat give the matrix T that ties its image degrees of freedom to their references at some wave vector. The reduced matrices T* K T and T* M T have exactly as many squared frequencies as degrees of freedom are left; all are real and there are no others. Whatever the wave vector, number k of them in rising order is at least number k of the cell by itself, at most number k of the cell with the tied degrees of freedom held, and none is above the highest squared frequency of the cell or the bound its elements give (12E/(rho L^2) for bars). This holds for plane cells and for frames.", "quantifier": "for all vibrating cells, all wave vectors, all sets of tied nodes with a consistent numbering, all modes of the cell and all k", "why_tests_cant": "Band diagrams are computed at finitely many wave vectors of one cell; the claim encloses every branch at every wave vector of every cell.", "anchors": ["solidspy/blochutil.py:bloch_transform_mat", "solidspy/blochutil.py:reassign_dof_bloch", "solidspy/assemutil.py:assembler", "solidspy/assemutil.py:DME"]}
{"id": "C180", "title": "The branches of the dispersion diagram are continuous, even and periodic functions of the wave vector", "statement": "If bloch_transform_mat works for a vibrating cell at one wave vector it works at every wave vector of the same dimension, and the rising values of the reduced matrices define the branches of the dispersion diagram in exactly one way. Every branch is a continuous function of the wave vector, so on the straight way from one wave vector to another it takes all values between its end values; opposite wave vectors have the same values; and so have wave vectors that differ by one whose product with every vector from a reference node to its image is a multiple of 2 pi. This holds for plane cells and frames.", "quantifier": "for all vibrating cells with consistent ties, all wave vectors of any dimension, all branches and all reciprocal lattice vectors", "why_tests_cant": "Continuity and the absence of jumps between sampled wave vectors cannot be observed on samples.", "anchors": ["solidspy/blochutil.py:bloch_transform_mat", "solidspy/assemutil.py:assembler"]}
{"id": "C181", "title": "How the branches of the dispersion diagram depend on materials and on the size of the cell", "statement": "If every modulus of a plane cell is multiplied by a number between a and a' and every density by one between b and b', every branch of its dispersion diagram is multiplied at every wave vector by a number between a/b' and a'/b; if all moduli are multiplied by a and all densities by b, by a/b exactly. A cell of continuum elements, or of bars, that is s times as large has the same diagram with the wave vectors divided by s and the squared frequencies by s squared.", "quantifier": "for all vibrating plane cells with physical data, all ties, wave vectors, branches, factors and sizes", "why_tests_cant": "The claims compare whole diagrams of pairs of cells for all factors; a test compares a few points of one pair.", "anchors": ["solidspy/blochutil.py:bloch_transform_mat", "solidspy/assemutil.py:assembler", "solidspy/uelutil.py:elast_quad4", "solidspy/uelutil.py:truss2D"]}
{"id": "C182", "title": "Slope of a dispersion branch is the power through the border of the cell", "statement": "Let l be the branches of a periodic cell and let branch k not meet another branch at the wave vector kappa. Then l_k has a derivative at kappa in every direction e. It equals 2 * sum over image degrees of freedom i of (e . (x_image - x_reference)) * Im(conj(u_i) r_i), where u = T q_k is the unfolded normalised Bloch mode and r = K u - l_k M u the force on it. Degrees of freedom that are not images do not contribute. At a wave vector that is half of a reciprocal one (zero included) such a branch is flat in all directions. The same holds for cells made of beams.", "quantifier": "all plane meshes and all frames accepted by the assembler whose mass matrix is positive on the free degrees of freedom, all tyings of image nodes to reference nodes, all dimensions of the wave vector, all wave vectors and directions, all branches that are simple at the wave vector", "why_tests_cant": "a test can compare finite differences of computed frequencies at a few wave vectors; the derivative and its value for all cells and wave vectors need a proof", "anchors": ["solidspy/blochutil.py:bloch_transform_mat", "solidspy/blochutil.py:reassign_dof", "solidspy/assemutil.py:assembler"]}
{"id": "C183", "title": "Two acoustic branches and a finite speed of sound", "statement": "For a connected unsupported mesh of plane elements with physical materials and mass, used as a periodic cell in which two of the pairs of tied nodes have different midpoints: no value of a branch is negative; the value of branch k at a wave vector is zero exactly when the wave vector keeps all images in phase with their references (as zero does) and k is one of the first two; the first two branches stay below a constant times the square of the wave vector, at all wave vectors; near the wave vector zero a fixed level separates them from all other branches. For any vibrating plane cell, with trusses or supports too, the motions of the cell without forces that are equal at images and references bound branches: if r of them are independent, the first r branches stay below a constant times the square of the wave vector. The same holds for cells made of beams; for a frame without supports whose ties keep the directions, the first two branches do.", "quantifier": "for all such cells, materials, ties, dimensions of the wave vector, wave vectors and branches", "why_tests_cant": "The bound holds at all wave vectors of all cells and the count of the branches at zero depends on the connection of the whole mesh; a test evaluates a few wave vectors of one cell.", "anchors": ["solidspy/blochutil.py:bloch_transform_mat", "solidspy/assemutil.py:assembler", "solidspy/uelutil.py:elast_quad4", "solidspy/uelutil.py:elast_tri3"]}
{"id": "C184", "title": "Branches have bounded steepness, so samples bound them", "statement": "For every vibrating plane cell or cell of beams with tied nodes there is one constant such that the values of every branch at any two wave vectors differ by at most the constant times their distance. So if every wave vector of a region is within r of one of a sample, an upper bound of a branch on the sample that leaves a margin of the constant times r holds on the whole region, and so does a lower bound with such a margin.", "quantifier": "for all such cells, ties, dimensions of the wave vector, pairs of wave vectors, branches, regions, samples and distances", "why_tests_cant": "A dispersion diagram is computed at finitely many wave vectors; what holds between them, for a continuum of wave vectors of all cells, cannot be seen by evaluating more of them.", "anchors": ["solidspy/blochutil.py:bloch_transform_mat", "solidspy/assemutil.py:assembler"]}
{"id": "C185", "title": "No group velocity is above a constant of the cell", "statement": "For every vibrating plane cell with physical materials, and every cell of elastic beams that vibrates, with tied nodes, there is one constant such that the frequencies (the square roots of the values) of every branch at any two wave vectors differ by at most the constant times their distance, also where a branch touches zero or another branch; wherever a frequency has a slope along a direction, the group velocity, the slope is at most the constant times the length of the direction.", "quantifier": "for all such cells, ties, dimensions of the wave vector, pairs of wave vectors, branches and directions", "why_tests_cant": "The square root is steepest where a branch touches zero and branches have kinks where they cross; a bound for all pairs of wave vectors of all cells cannot come from finitely many of them.", "anchors": ["solidspy/blochutil.py:bloch_transform_mat", "solidspy/assemutil.py:assembler"]}
{"id": "C186", "title": "The first branch of a strip is a bending branch", "statement": "For a connected unsupported mesh of plane elements with physical materials and mass, used as a cell that repeats along a line (all tied nodes differ by one vector, other than zero): the first branch stays, at all wave vectors, below a constant times the fourth power of the phase from cell to cell, as for a beam, and not only below the square; so its frequency has the slope zero at the wave vector zero in every direction. The same holds for frames without supports whose nodes are tied along one vector, with the translation across the vector replaced by the one that the beams of the code match with their turning.", "quantifier": "for all such cells and frames, materials, ties, wave vectors and directions", "why_tests_cant": "The order of a branch at zero is a limit and the bound holds at all wave vectors of all cells; a test evaluates a few wave vectors of one cell, where rounding hides the fourth power.", "anchors": ["solidspy/blochutil.py:bloch_transform_mat", "solidspy/assemutil.py:assembler", "solidspy/uelutil.py:elast_quad4", "solidspy/uelutil.py:elast_tri3", "solidspy/uelutil.py:beam2D"]}
