{
 "C03": "The intended property fails for positive codes: the negation and the aliasing are proved; the part that holds (codes 0 and negative) is the _partial theorem.",
 "C14": "loadasem overwrites, so superposition fails when a node is named by both lists (negation proved). C14_superposition_iff_partial says exactly when it holds: free components of nodes named in the second list have load 0 in the first. Linearity in the values is proved.",
 "C37": "The intended statement (the axisymmetric and plane strain matrices follow Hooke's law) is false of the code: elast_mat_axi and elast_mat_2d omit the coupling lambda between normal strains. C37_agrees_iff_partial says exactly when the code's law agrees; C37_axisymmetric_law_wrong is the negation.",
 "C50": "False of the code: the integral has no radius factor. C50_axi_mass_is_plane_partial gives the mass the code computes, C50_axi_mass_ignores_radius the negation (mass unchanged when the element moves away from the axis).",
 "C78": "False of the code: both columns of the second output are computed from the x coordinates (femutil.py:709-710, 741-742, 773-774). Proved: the first column is right, the second always repeats it, and so the position is wrong off the line x = y.",
 "C84": "False of the code in general: reassign_dof_bloch counts positions among the degrees of freedom instead of looking the reference up. C84_agrees_iff_partial says exactly when an image gets the number of its reference; C84_counterexample is the docstring mesh."
}