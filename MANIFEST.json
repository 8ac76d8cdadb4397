{
 "claims": [
  {
   "property": "C01",
   "status": "proved",
   "theorems": [
    "Bempp.C01_numbering_bijection"
   ],
   "note": ""
  },
  {
   "property": "C02",
   "status": "proved",
   "theorems": [
    "Bempp.C02_conformity",
    "Bempp.C02_shared_entity"
   ],
   "note": ""
  },
  {
   "property": "C03",
   "status": "proved",
   "theorems": [
    "Bempp.C03_cell_dofs",
    "Bempp.C03_every_dof",
    "Bempp.C18_serial_space"
   ],
   "note": "absence of panics for several processes is part of C21"
  },
  {
   "property": "C04",
   "status": "proved",
   "theorems": [
    "Bempp.C04_shared_dofs"
   ],
   "note": ""
  },
  {
   "property": "C05",
   "status": "proved",
   "theorems": [
    "Bempp.C05_size"
   ],
   "note": ""
  },
  {
   "property": "C06",
   "status": "proved",
   "theorems": [
    "Bempp.C06_colouring_partition"
   ],
   "note": ""
  },
  {
   "property": "C07",
   "status": "proved",
   "theorems": [
    "Bempp.C07_same_colour_disjoint"
   ],
   "note": ""
  },
  {
   "property": "C08",
   "status": "proved",
   "theorems": [
    "Bempp.C08_tasks_disjoint",
    "Bempp.C08_no_race"
   ],
   "note": "one common cell type; see C36 for the rest"
  },
  {
   "property": "C09",
   "status": "proved",
   "theorems": [
    "Bempp.C09_schedule_independent",
    "Bempp.C09_assemble",
    "Bempp.C09_assemble_singular"
   ],
   "note": ""
  },
  {
   "property": "C10",
   "status": "proved",
   "theorems": [
    "Bempp.C10_batch_size",
    "Bempp.C10_assemble",
    "Bempp.C10_singular"
   ],
   "note": "one common cell type; see C36 for the rest"
  },
  {
   "property": "C11",
   "status": "partial",
   "theorems": [
    "Bempp.C11_terminates_partial",
    "Bempp.C11_sections_terminate",
    "Bempp.C11_batch_zero_diverges",
    "Bempp.C11_assemble_iff",
    "Bempp.C11_singular_terminates_partial",
    "Bempp.C11_singular_iff"
   ],
   "note": "proved for batch sizes of at least one; for batch size zero, which set_batch_size accepts, the property is false and the negation is proved; the iff theorems say exactly when assembly terminates"
  },
  {
   "property": "C12",
   "status": "proved",
   "theorems": [
    "Bempp.C12_pairs_once"
   ],
   "note": ""
  },
  {
   "property": "C13",
   "status": "proved",
   "theorems": [
    "Bempp.C13_one_method",
    "Bempp.C13_task_does_visits"
   ],
   "note": ""
  },
  {
   "property": "C14",
   "status": "proved",
   "theorems": [
    "Bempp.C14_galerkin",
    "Bempp.C14_operators"
   ],
   "note": "one common cell type; see C36 for the rest"
  },
  {
   "property": "C15",
   "status": "proved",
   "theorems": [
    "Bempp.C15_adds_to_buffer"
   ],
   "note": "one common cell type; see C36 for the rest"
  },
  {
   "property": "C16",
   "status": "partial",
   "theorems": [
    "Bempp.C16_sparse_partial",
    "Bempp.C16_error_bound_partial",
    "Bempp.C16_small_entries_lost",
    "Bempp.C16_exact"
   ],
   "note": "proved if some singular value is above the cut-off 1e-10 or all are zero; otherwise the property is false and the negation is proved; C16_exact says for every entry when it is right; the error is bounded by the cut-off times the number of triplets of the entry"
  },
  {
   "property": "C17",
   "status": "proved",
   "theorems": [
    "Bempp.C17_no_singular_part",
    "Bempp.C17_only_regular"
   ],
   "note": "one common cell type; see C36 for the rest"
  },
  {
   "property": "C18",
   "status": "proved",
   "theorems": [
    "Bempp.C18_serial_space"
   ],
   "note": ""
  },
  {
   "property": "C19",
   "status": "proved",
   "theorems": [
    "Bempp.C19_global_numbering"
   ],
   "note": ""
  },
  {
   "property": "C20",
   "status": "proved",
   "theorems": [
    "Bempp.C20_ghosts",
    "Bempp.C20_local_injective"
   ],
   "note": ""
  },
  {
   "property": "C21",
   "status": "partial",
   "theorems": [
    "Bempp.C21_terminates_partial",
    "Bempp.C21_rendezvous_deadlock",
    "Bempp.C21_eager_safe",
    "Bempp.C21_eager_terminates_partial",
    "Bempp.C21_eager_deadlock",
    "Bempp.C21_fan_in_deadlock",
    "Bempp.C21_chain_deadlock",
    "Bempp.C21_two_processes"
   ],
   "note": "proved for sends that complete without waiting for the receiver; for synchronous sends the property is false and the negation is proved for every distributed grid on two or more processes; if MPI buffers messages of up to L numbers, termination is proved if at most one process asks others for more than L DOFs, deadlock on cycles, fan-in and chains of longer requests, and both directions on two processes; C64 has the exact criterion for every distribution"
  },
  {
   "property": "C23",
   "status": "proved",
   "theorems": [
    "Bempp.C23_options_map"
   ],
   "note": ""
  },
  {
   "property": "C24",
   "status": "proved",
   "theorems": [
    "Bempp.C24_reads_in_bounds",
    "Bempp.C24_operator_formulas"
   ],
   "note": ""
  },
  {
   "property": "C25",
   "status": "proved",
   "theorems": [
    "Bempp.C25_singular_memoryless",
    "Bempp.C25_regular_memoryless"
   ],
   "note": ""
  },
  {
   "property": "C26",
   "status": "proved",
   "theorems": [
    "Bempp.C26_laplace",
    "Bempp.C26_helmholtz"
   ],
   "note": "one common cell type; see C36 for the rest"
  },
  {
   "property": "C27",
   "status": "proved",
   "theorems": [
    "Bempp.C27_laplace",
    "Bempp.C27_helmholtz"
   ],
   "note": "one common cell type; see C36 for the rest"
  },
  {
   "property": "C28",
   "status": "proved",
   "theorems": [
    "Bempp.C28_constants",
    "Bempp.C28_rows",
    "Bempp.C28_columns"
   ],
   "note": "one common cell type; see C36 for the rest"
  },
  {
   "property": "C29",
   "status": "proved",
   "theorems": [
    "Bempp.C29_sum",
    "Bempp.C29_scalar",
    "Bempp.C29_helmholtz_hypersingular"
   ],
   "note": "one common cell type; see C36 for the rest"
  },
  {
   "property": "C30",
   "status": "proved",
   "theorems": [
    "Bempp.C30_sizes"
   ],
   "note": ""
  },
  {
   "property": "C31",
   "status": "proved",
   "theorems": [
    "Bempp.C31_closed_oriented"
   ],
   "note": ""
  },
  {
   "property": "C32",
   "status": "proved",
   "theorems": [
    "Bempp.C32_on_sphere_outward"
   ],
   "note": "exact real arithmetic"
  },
  {
   "property": "C33",
   "status": "proved",
   "theorems": [
    "Bempp.C33_triangles",
    "Bempp.C33_quadrilaterals"
   ],
   "note": ""
  },
  {
   "property": "C34",
   "status": "partial",
   "theorems": [
    "Bempp.C34_triangles_partial",
    "Bempp.C34_quadrilaterals_partial",
    "Bempp.C34_not_unit_square"
   ],
   "note": "the cells cover exactly [0, n/(n+1)]^2; the property as documented is false and its negation is proved for every n"
  },
  {
   "property": "C35",
   "status": "proved",
   "theorems": [
    "Bempp.C35_triangles",
    "Bempp.C35_quadrilaterals"
   ],
   "note": "exact real arithmetic; the covered square is that of C34"
  },
  {
   "property": "C39",
   "status": "proved",
   "theorems": [
    "Bempp.C39_wrong_length",
    "Bempp.C39_not_serial",
    "Bempp.C39_is_serial"
   ],
   "note": ""
  },
  {
   "property": "C40",
   "status": "proved",
   "theorems": [
    "Bempp.C40_rule_matches",
    "Bempp.C40_rule_used",
    "Bempp.C40_rejected"
   ],
   "note": ""
  },
  {
   "property": "C41",
   "status": "proved",
   "theorems": [
    "Bempp.C41_laplace",
    "Bempp.C41_helmholtz"
   ],
   "note": "one common cell type; see C36 for the rest"
  },
  {
   "property": "C42",
   "status": "proved",
   "theorems": [
    "Bempp.C42_no_gaps_no_overlaps"
   ],
   "note": "exact real arithmetic"
  },
  {
   "property": "C36",
   "status": "proved",
   "theorems": [
    "Bempp.C36_missing_type",
    "Bempp.C36_panics",
    "Bempp.C36_both_types",
    "Bempp.C36_element"
   ],
   "note": "states what the code does; that mixed cell types work, as a user may expect, is false"
  },
  {
   "property": "C37",
   "status": "proved",
   "theorems": [
    "Bempp.C37_never_freed_early"
   ],
   "note": "the contents of grids and families are not modelled; whether a conversion succeeds is an input"
  },
  {
   "property": "C38",
   "status": "proved",
   "theorems": [
    "Bempp.C38_frozen"
   ],
   "note": ""
  },
  {
   "property": "C43",
   "status": "partial",
   "theorems": [
    "Bempp.C43_nothing_leaked_partial",
    "Bempp.C43_failed_family_leaks_grid"
   ],
   "note": "true if no conversion of an element family fails; false otherwise, which the second theorem proves; C66 says exactly what exists after every history"
  },
  {
   "property": "C22",
   "status": "proved",
   "theorems": [
    "Bempp.C22_parts_add_up",
    "Bempp.C22_matrices_add_up",
    "Bempp.C22_without_layer",
    "Bempp.C22_layer_needed"
   ],
   "note": "exact arithmetic; the matrices of assemble_singular add up unless the cut-off of C16 drops everything on some process; C22_without_layer says what is missing on distributions without a complete ghost layer and C22_layer_needed that it is not always zero"
  },
  {
   "property": "C45",
   "status": "proved",
   "theorems": [
    "Bempp.C45_renumbering"
   ],
   "note": "cells have the same type and order of sub-entities on the parts and on the whole grid"
  },
  {
   "property": "C44",
   "status": "proved",
   "theorems": [
    "Bempp.C44_python_options"
   ],
   "note": "objects are used through their methods only"
  },
  {
   "property": "C46",
   "status": "proved",
   "theorems": [
    "Bempp.C46_sphere",
    "Bempp.C46_screen_triangles",
    "Bempp.C46_screen_quadrilaterals"
   ],
   "note": "one process; the grid builder is a contract, shown to be satisfiable for every n"
  },
  {
   "property": "C47",
   "status": "proved",
   "theorems": [
    "Bempp.C47_conforming",
    "Bempp.C47_assembles"
   ],
   "note": "one process; the grid builder and the other external functions are contracts"
  },
  {
   "property": "C48",
   "status": "proved",
   "theorems": [
    "Bempp.C48_approximates_sphere"
   ],
   "note": "exact real arithmetic"
  },
  {
   "property": "C49",
   "status": "proved",
   "theorems": [
    "Bempp.C49_nested",
    "Bempp.C49_midpoints"
   ],
   "note": "coordinates of new points in exact real arithmetic"
  },
  {
   "property": "C50",
   "status": "proved",
   "theorems": [
    "Bempp.C50_no_wasted_colour",
    "Bempp.C50_number_of_colours"
   ],
   "note": "all entities of the dimensions that carry DOFs carry DOFs"
  },
  {
   "property": "C51",
   "status": "proved",
   "theorems": [
    "Bempp.C51_numbering_order",
    "Bempp.C51_discontinuous"
   ],
   "note": ""
  },
  {
   "property": "C52",
   "status": "proved",
   "theorems": [
    "Bempp.C52_renumbering"
   ],
   "note": "surfaces of one cell type"
  },
  {
   "property": "C53",
   "status": "proved",
   "theorems": [
    "Bempp.C53_similarity",
    "Bempp.C53_laplace",
    "Bempp.C53_helmholtz"
   ],
   "note": "exact arithmetic; surfaces of one cell type; the geometry of the moved cells is a hypothesis (C75 derives it from the vertices)"
  },
  {
   "property": "C54",
   "status": "proved",
   "theorems": [
    "Bempp.C54_wavenumber_zero"
   ],
   "note": "exact arithmetic; both kernels evaluate the same function at wavenumber 0 (true of the Green's functions: helmholtzGreen_zero)"
  },
  {
   "property": "C55",
   "status": "proved",
   "theorems": [
    "Bempp.C55_python_accessors",
    "Bempp.C55_python_space"
   ],
   "note": "the bindings are not compiled at the pinned commit (commented out in src/lib.rs)"
  },
  {
   "property": "C56",
   "status": "proved",
   "theorems": [
    "Bempp.C56_python_assemble",
    "Bempp.C56_python_singular",
    "Bempp.C56_dtype_mismatch",
    "Bempp.C56_laplace",
    "Bempp.C56_other_operators"
   ],
   "note": "as C55; a space that Rust assembles is assumed (C14 and C16 say when)"
  },
  {
   "property": "C57",
   "status": "proved",
   "theorems": [
    "Bempp.C57_serial_space"
   ],
   "note": "the serial space is not compiled at the pinned commit (commented out in src/function.rs)"
  },
  {
   "property": "C58",
   "status": "proved",
   "theorems": [
    "Bempp.C58_nested_spaces",
    "Bempp.C58_broken_spaces"
   ],
   "note": "exact arithmetic; surfaces of one cell type"
  },
  {
   "property": "C59",
   "status": "proved",
   "theorems": [
    "Bempp.C59_locality",
    "Bempp.C59_components"
   ],
   "note": "exact arithmetic; surfaces of one cell type"
  },
  {
   "property": "C60",
   "status": "proved",
   "theorems": [
    "Bempp.C60_form",
    "Bempp.C60_constants"
   ],
   "note": "exact arithmetic; surfaces of one cell type"
  },
  {
   "property": "C61",
   "status": "proved",
   "theorems": [
    "Bempp.C61_conjugate"
   ],
   "note": "exact arithmetic; surfaces of one cell type"
  },
  {
   "property": "C62",
   "status": "proved",
   "theorems": [
    "Bempp.C62_single_layer"
   ],
   "note": "exact arithmetic; surfaces of one cell type; quadrature weights, integration elements and basis functions at the quadrature points are not negative"
  },
  {
   "property": "C63",
   "status": "proved",
   "theorems": [
    "Bempp.C63_rounding",
    "Bempp.C63_gamma"
   ],
   "note": "surfaces of one cell type without degenerate cells; standard model of floating point arithmetic (no overflow or underflow), exact values are those of the external crates; C63_gamma puts the factor in the usual form"
  },
  {
   "property": "C64",
   "status": "proved",
   "theorems": [
    "Bempp.C64_returns_iff",
    "Bempp.C64_all_return_iff"
   ],
   "note": "the waiting relation is in Spec/Waiting; an example on four processes in which one returns and three do not"
  },
  {
   "property": "C65",
   "status": "proved",
   "theorems": [
    "Bempp.C65_singular_settings",
    "Bempp.C65_dense_settings"
   ],
   "note": "any grids, mixed ones included; no contract on external functions"
  },
  {
   "property": "C66",
   "status": "proved",
   "theorems": [
    "Bempp.C66_what_exists"
   ],
   "note": "refinement of a ledger without reference counts; completes C43"
  },
  {
   "property": "C67",
   "status": "proved",
   "theorems": [
    "Bempp.C67_regular_part",
    "Bempp.C67_singular_part",
    "Bempp.C67_out_of_bounds"
   ],
   "note": "a second semantics of the same functions in which an unchecked access outside of an array is undefined behaviour and a panic keeps what was written; proved to agree with the first"
  },
  {
   "property": "C68",
   "status": "proved",
   "theorems": [
    "Bempp.C68_safe",
    "Bempp.C68_includes_normal",
    "Bempp.C68_returns_iff",
    "Bempp.C68_stop_after_return",
    "Bempp.C68_never_returns"
   ],
   "note": "sends complete without waiting for the receiver; the exact criterion is for executions without lost messages, safety also covers lost messages; MPI ending the other processes when one stops is not modelled"
  },
  {
   "property": "C69",
   "status": "proved",
   "theorems": [
    "Bempp.C69_sequence",
    "Bempp.C69_order_matters"
   ],
   "note": "sends complete without waiting for the receiver; the second theorem is a witness that the same order is needed"
  },
  {
   "property": "C70",
   "status": "proved",
   "theorems": [
    "Bempp.C70_batches",
    "Bempp.C70_dense",
    "Bempp.C70_singular",
    "Bempp.C70_overflow_checked",
    "Bempp.C70_overflow_wrapping",
    "Bempp.C70_screen",
    "Bempp.C70_sphere"
   ],
   "note": "index arithmetic of assembly and shapes; counters and sums bounded by the length of an existing array are not modelled again"
  },
  {
   "property": "C71",
   "status": "proved",
   "theorems": [
    "Bempp.C71_norms",
    "Bempp.C71_close",
    "Bempp.C71_outward",
    "Bempp.C71_screens"
   ],
   "note": "standard model of floating point arithmetic (no overflow or underflow); 0, 1, -1 and 1/2 are exact"
  },
  {
   "property": "C72",
   "status": "proved",
   "theorems": [
    "Bempp.C72_symmetric",
    "Bempp.C72_adjoint",
    "Bempp.C72_constants"
   ],
   "note": "surfaces of one cell type without degenerate cells; standard model of floating point arithmetic; the sums of rows and columns are exact sums of the computed entries"
  },
  {
   "property": "C73",
   "status": "proved",
   "theorems": [
    "Bempp.C73_triplets",
    "Bempp.C73_matrix"
   ],
   "note": "no degenerate cells; standard model of floating point arithmetic; from_aij adds up duplicates with one rounding each; the DOF numbers of the space are in range (C19, C20)"
  },
  {
   "property": "C74",
   "status": "proved",
   "theorems": [
    "Bempp.C74_values",
    "Bempp.C74_defined",
    "Bempp.C74_what_exists",
    "Bempp.C74_matrix",
    "Bempp.C74_nothing_lost",
    "Bempp.C74_lost_options",
    "Bempp.C74_lost_assembler",
    "Bempp.C74_lost_assembly"
   ],
   "note": "objects are used through the public functions only; what Rust makes from a grid and a family is a parameter; C74_matrix: kernels and spaces as in C14; sums in exact arithmetic"
  },
  {
   "property": "C75",
   "status": "proved",
   "theorems": [
    "Bempp.C75_laplace",
    "Bempp.C75_helmholtz",
    "Bempp.C75_sign",
    "Bempp.C75_cells"
   ],
   "note": "exact arithmetic; surfaces of one cell type; that the geometry is computed from the vertices in this way is the contract of ndgrid"
  },
  {
   "property": "C76",
   "status": "proved",
   "theorems": [
    "Bempp.C76_convergence",
    "Bempp.C76_laplace",
    "Bempp.C76_helmholtz"
   ],
   "note": "exact real and complex arithmetic; surfaces of one cell type; that the rules of the quadrature crates converge is their contract (regular rules: for continuous functions; singular rules: for the integrands of touching cells)"
  },
  {
   "property": "C77",
   "status": "proved",
   "theorems": [
    "Bempp.C77_accuracy"
   ],
   "note": "arithmetic as in C63 (relative error at most u per operation, the values of kernel, geometry and basis functions given exactly); rules, geometry and kernel as in C76"
  },
  {
   "property": "C78",
   "status": "proved",
   "theorems": [
    "Bempp.C78_inexact",
    "Bempp.C78_accuracy"
   ],
   "note": "arithmetic without overflow and underflow as in C63"
  },
  {
   "property": "C79",
   "status": "proved",
   "theorems": [
    "Bempp.C79_surface",
    "Bempp.C79_integrable_laplace",
    "Bempp.C79_integrable_helmholtz",
    "Bempp.C79_integrable_triangles",
    "Bempp.C79_laplace",
    "Bempp.C79_helmholtz"
   ],
   "note": "coordinates in exact arithmetic as in C32 and C35; cells are flat triangles and bilinear quadrilaterals (element of degree 1); convergence of the rules is a hypothesis on the quadrature crates"
  },
  {
   "property": "C80",
   "status": "proved",
   "theorems": [
    "Bempp.C80_range",
    "Bempp.C80_moderate",
    "Bempp.C80_complex"
   ],
   "note": "what is returned after an overflow is arbitrary in the model (infinities and NaN are not distinguished); sums are accurate also below the smallest normal number, because sums of floating point numbers are exact there; kernel, geometry and basis values are taken as given (their errors: C78)"
  },
  {
   "property": "C81",
   "status": "proved",
   "theorems": [
    "Bempp.C81_form",
    "Bempp.C81_definite",
    "Bempp.C81_nearby",
    "Bempp.C81_solvable",
    "Bempp.C81_triangles"
   ],
   "note": "exact real arithmetic for the Galerkin matrix; rounding errors enter through C81_nearby with C77 and C78; that the quadrature rules converge is a hypothesis (they come from an external crate)"
  },
  {
   "property": "C82",
   "status": "proved",
   "theorems": [
    "Bempp.C82_form",
    "Bempp.C82_kernel",
    "Bempp.C82_solvable"
   ],
   "note": "exact real arithmetic; that the quadrature rules converge is a hypothesis (they come from an external crate); as on open surfaces the space contains the functions that do not vanish on the boundary, the kernel on screens is that of the matrix the library assembles"
  },
  {
   "property": "C83",
   "status": "proved",
   "theorems": [
    "Bempp.C83_screens",
    "Bempp.C83_double_layer",
    "Bempp.C83_hypersingular",
    "Bempp.C83_laplace",
    "Bempp.C83_helmholtz"
   ],
   "note": "exact arithmetic: in floating point the same zeros arise from products with exact zeros, which is not modelled here; C83_double_layer and C83_hypersingular hold for all pairs of surfaces at one height with upward normals"
  },
  {
   "property": "C84",
   "status": "proved",
   "theorems": [
    "Bempp.C84_rows",
    "Bempp.C84_columns",
    "Bempp.C84_double_layer",
    "Bempp.C84_adjoint"
   ],
   "note": "exact real arithmetic; that the quadrature rules converge is a hypothesis of the two theorems on assembled matrices (they come from an external crate)"
  },
  {
   "property": "C85",
   "status": "proved",
   "theorems": [
    "Bempp.C85_well_shaped"
   ],
   "note": "exact real arithmetic; C71 bounds the effect of rounding on the points"
  },
  {
   "property": "C86",
   "status": "proved",
   "theorems": [
    "Bempp.C86_area",
    "Bempp.C86_integrals",
    "Bempp.C86_total",
    "Bempp.C86_double_layer",
    "Bempp.C86_adjoint"
   ],
   "note": "exact real arithmetic; that the quadrature rules converge is a hypothesis of the two theorems on assembled matrices (they come from an external crate)"
  },
  {
   "property": "C87",
   "status": "proved",
   "theorems": [
    "Bempp.C87_laplace",
    "Bempp.C87_helmholtz",
    "Bempp.C87_single_layer",
    "Bempp.C87_solution",
    "Bempp.C87_hypersingular",
    "Bempp.C87_hypersingular_solution",
    "Bempp.C87_double_layer",
    "Bempp.C87_adjoint"
   ],
   "note": "the order of quantifiers is: tolerance, number of quadrature points, accuracy of the arithmetic and of the data; that the exact quadrature rules converge is a hypothesis (they come from an external crate), and that the computed data are close to the exact ones is part of FloatAssembly"
  },
  {
   "property": "C88",
   "status": "proved",
   "theorems": [
    "Bempp.C88_sphere",
    "Bempp.C88_degree",
    "Bempp.C88_triangles",
    "Bempp.C88_quadrilaterals"
   ],
   "note": "what the builder accepts is a contract of an external crate (BuilderState.call); that it refuses cells with a wrong number of points is part of the contract"
  },
  {
   "property": "C89",
   "status": "proved",
   "theorems": [
    "Bempp.C89_data",
    "Bempp.C89_shape",
    "Bempp.C89_grid",
    "Bempp.C89_laplace",
    "Bempp.C89_helmholtz",
    "Bempp.C89_solution"
   ],
   "note": "the singular quadrature rules must not have nodes that are the same point of the surface (SeparateNodes), as the rules of the quadrature library do not; overflow and underflow are not modelled"
  },
  {
   "property": "C90",
   "status": "proved",
   "theorems": [
    "Bempp.C90_energy",
    "Bempp.C90_screens",
    "Bempp.C90_wavenumbers",
    "Bempp.C90_small",
    "Bempp.C90_converges",
    "Bempp.C90_solution"
   ],
   "note": "solvability is proved for the single layer operator; for the other Helmholtz operators solvability of the exact system is a hypothesis of C90_converges and C90_solution"
  },
  {
   "property": "C91",
   "status": "partial",
   "theorems": [
    "Bempp.C91_sphere_partial",
    "Bempp.C91_batches_partial",
    "Bempp.C91_never_right",
    "Bempp.C91_waste"
   ],
   "note": "proved for triplets and points; false for the cells of regular_sphere: round l reserves 8*6^l and uses 8*4^(l+1), which is never equal (C91_never_right), and the ratio to the grid is unbounded (C91_waste)"
  },
  {
   "property": "C92",
   "status": "proved",
   "theorems": [
    "Bempp.C92_triplets",
    "Bempp.C92_matrices"
   ],
   "note": "combines C22, C45 and C73; the cut-off of assemble_singular is part of the bound, so no hypothesis on the sizes of the values is needed"
  },
  {
   "property": "C93",
   "status": "proved",
   "theorems": [
    "Bempp.C93_determined",
    "Bempp.C93_safe",
    "Bempp.C93_barrier",
    "Bempp.C93_returns_iff",
    "Bempp.C93_all_return_iff",
    "Bempp.C93_single"
   ],
   "note": "C93_single is the link to C64, which says when a process returns from one construction in terms of the numbers of DOFs that the processes need of each other"
  },
  {
   "property": "C94",
   "status": "proved",
   "theorems": [
    "Bempp.C94_turns",
    "Bempp.C94_arithmetic",
    "Bempp.C94_cube",
    "Bempp.C94_laplace",
    "Bempp.C94_helmholtz"
   ],
   "note": "0 and -0 are one number in the model; the matrices are those in exact arithmetic"
  },
  {
   "property": "C95",
   "status": "proved",
   "theorems": [
    "Bempp.C95_similar_parts",
    "Bempp.C95_laplace",
    "Bempp.C95_helmholtz",
    "Bempp.C95_blocks",
    "Bempp.C95_screens_laplace",
    "Bempp.C95_screens_helmholtz",
    "Bempp.C95_shifts_laplace",
    "Bempp.C95_shifts_helmholtz",
    "Bempp.C95_interior",
    "Bempp.C95_inner"
   ],
   "note": "a DOF is inside of the part if no cell outside of the part has it; C95_interior and C95_inner say which DOFs are"
  },
  {
   "property": "C96",
   "status": "proved",
   "theorems": [
    "Bempp.C96_elements",
    "Bempp.C96_sphere",
    "Bempp.C96_screen_triangles",
    "Bempp.C96_screen_quadrilaterals",
    "Bempp.C96_distributed"
   ],
   "note": "the elements come from ndelement; what is used of them is how many DOFs they have on vertices, edges and cells (StandardFamily.counts)"
  },
  {
   "property": "C97",
   "status": "proved",
   "theorems": [
    "Bempp.C97_values",
    "Bempp.C97_defined",
    "Bempp.C97_laplace",
    "Bempp.C97_helmholtz",
    "Bempp.C97_freed_grid",
    "Bempp.C97_freed_options",
    "Bempp.C97_freed_matrix",
    "Bempp.C97_small_memory",
    "Bempp.C97_changed_options",
    "Bempp.C97_wrong_pointer",
    "Bempp.C97_outside",
    "Bempp.C97_set_options"
   ],
   "note": "c_api_tools is not in the repository: its lookup of types is modelled by the lists in the attributes; a pointer into a matrix is modelled by the matrix and the array"
  },
  {
   "property": "C98",
   "status": "proved",
   "theorems": [
    "Bempp.C98_run_test",
    "Bempp.C98_sizes",
    "Bempp.C98_sizes_of_families",
    "Bempp.C98_colouring_p1",
    "Bempp.C98_colouring_dp0",
    "Bempp.C98_colouring_rt1",
    "Bempp.C98_python_accessors",
    "Bempp.C98_python_dofs",
    "Bempp.C98_create_assembler",
    "Bempp.C98_one_cell",
    "Bempp.C98_assemble_singular",
    "Bempp.C98_example"
   ],
   "note": "tests that compare with numbers computed by another program are not modelled; the test of the colouring of P1 spaces indexes the list of cells, so its theorem asks that cells are iterated in the order of their numbers; from_aij is assumed to store each position once and only positions of triplets"
  },
  {
   "property": "C99",
   "status": "partial",
   "theorems": [
    "Bempp.C99_grid",
    "Bempp.C99_family",
    "Bempp.C99_family_right_iff",
    "Bempp.C99_space_partial",
    "Bempp.C99_rejected",
    "Bempp.C99_dtype",
    "Bempp.C99_other_families"
   ],
   "note": "proved for Lagrange families; for Raviart-Thomas and Nedelec families the property is false and the negation is proved: a Lagrange space is made without any error; C99_family_right_iff says exactly when the family is right; what ndgrid and ndelement make from the data that they are given is a parameter"
  },
  {
   "property": "C100",
   "status": "proved",
   "theorems": [
    "Bempp.C100_messages",
    "Bempp.C100_between",
    "Bempp.C100_totals",
    "Bempp.C100_steps"
   ],
   "note": "sends complete without waiting for the receiver (see C21 for other cases)"
  },
  {
   "property": "C101",
   "status": "proved",
   "theorems": [
    "Bempp.C101_same",
    "Bempp.C101_same_singular",
    "Bempp.C101_galerkin",
    "Bempp.C101_nodes",
    "Bempp.C101_shapes",
    "Bempp.C101_operators",
    "Bempp.C101_two_grids"
   ],
   "note": "over the reals; with rounding two different points may be mapped to the same numbers. C101_two_grids shows that the condition on the nodes fails if a surface is given as two grid objects"
  },
  {
   "property": "C102",
   "status": "proved",
   "theorems": [
    "Bempp.C102_continuous_iff",
    "Bempp.C102_edges",
    "Bempp.C102_jump"
   ],
   "note": "exact criterion; the basis functions of the element (equally spaced points, on each edge from its first to its second end) are a contract of ndelement"
  },
  {
   "property": "C103",
   "status": "proved",
   "theorems": [
    "Bempp.C103_values",
    "Bempp.C103_unique",
    "Bempp.C103_basis",
    "Bempp.C103_entities",
    "Bempp.C103_single",
    "Bempp.C103_helmholtz",
    "Bempp.C103_hypersingular"
   ],
   "note": "the points of the DOFs and the polynomials are a contract of ndelement; that there are such elements of all degrees is proved"
  },
  {
   "property": "C104",
   "status": "proved",
   "theorems": [
    "Bempp.C104_discontinuous",
    "Bempp.C104_nested",
    "Bempp.C104_continuous_iff",
    "Bempp.C104_energy",
    "Bempp.C104_galerkin",
    "Bempp.C104_data"
   ],
   "note": "the points and polynomials of the elements are the contract of C103; matrices with exact integrals"
  },
  {
   "property": "C105",
   "status": "proved",
   "theorems": [
    "Bempp.C105_script",
    "Bempp.C105_asks",
    "Bempp.C105_written",
    "Bempp.C105_processes",
    "Bempp.C105_success",
    "Bempp.C105_failure",
    "Bempp.C105_not_written"
   ],
   "note": "that a shell reads the joined commands as commands joined by && is assumed: no example has shell syntax such as a comment sign in its options"
  },
  {
   "property": "C106",
   "status": "proved",
   "theorems": [
    "Bempp.C106_results",
    "Bempp.C106_untouched",
    "Bempp.C106_no_race",
    "Bempp.C106_finish",
    "Bempp.C106_plans"
   ],
   "note": "calls whose arguments are such that they return when they run alone; the singular part of a call is computed in memory of its own and appears as one step"
  },
  {
   "property": "C107",
   "status": "proved",
   "theorems": [
    "Bempp.C107_laplace_single_layer",
    "Bempp.C107_laplace_double_layer",
    "Bempp.C107_laplace_adjoint",
    "Bempp.C107_laplace_hypersingular",
    "Bempp.C107_helmholtz_single_layer",
    "Bempp.C107_helmholtz_double_layer",
    "Bempp.C107_helmholtz_adjoint",
    "Bempp.C107_helmholtz_hypersingular",
    "Bempp.C107_normals"
   ],
   "note": "exact arithmetic; C63 bounds the rounding errors"
  },
  {
   "property": "C108",
   "status": "proved",
   "theorems": [
    "Bempp.C108_single_layer",
    "Bempp.C108_double_layer",
    "Bempp.C108_adjoint",
    "Bempp.C108_hypersingular",
    "Bempp.C108_continuous",
    "Bempp.C108_small_single_layer",
    "Bempp.C108_small_double_layer",
    "Bempp.C108_small_adjoint",
    "Bempp.C108_small_hypersingular"
   ],
   "note": "exact arithmetic; C63 bounds the rounding errors"
  },
  {
   "property": "C109",
   "status": "proved",
   "theorems": [
    "Bempp.C109_sequence",
    "Bempp.C109_polite",
    "Bempp.C109_shared",
    "Bempp.C109_values",
    "Bempp.C109_any_order",
    "Bempp.C109_race"
   ],
   "note": "a call looks at each object at any time while it goes on and changes objects when it ends; memory of the caller that is passed as a buffer belongs to the thread; C109_race is the counterexample without the condition"
  },
  {
   "property": "C110",
   "status": "proved",
   "theorems": [
    "Bempp.C110_analytic",
    "Bempp.C110_wavenumbers",
    "Bempp.C110_solutions",
    "Bempp.C110_low",
    "Bempp.C110_library"
   ],
   "note": "exact arithmetic, complex values; solvability at one wavenumber is a hypothesis of C110_wavenumbers and is proved for the single layer operator on the library shapes in C110_library"
  },
  {
   "property": "C111",
   "status": "proved",
   "theorems": [
    "Bempp.C111_any_allocator",
    "Bempp.C111_exists",
    "Bempp.C111_two_allocators",
    "Bempp.C111_defined",
    "Bempp.C111_memory",
    "Bempp.C111_use_after_free"
   ],
   "note": "the calls of a program name variables; the allocator is any relation that gives out free addresses and may depend on the whole history; C111_use_after_free is the counterexample without the condition"
  },
  {
   "property": "C112",
   "status": "proved",
   "theorems": [
    "Bempp.C112_results",
    "Bempp.C112_alone",
    "Bempp.C112_panicked",
    "Bempp.C112_singular_panic",
    "Bempp.C112_untouched",
    "Bempp.C112_no_race",
    "Bempp.C112_finish",
    "Bempp.C112_plans",
    "Bempp.C112_decided"
   ],
   "note": "extends C106 to calls that panic; the tables are assumed to be large enough (TablesFit, as in C67: otherwise a read outside of an array is possible)"
  },
  {
   "property": "C113",
   "status": "proved",
   "theorems": [
    "Bempp.C113_sphere_points",
    "Bempp.C113_sphere_pairs",
    "Bempp.C113_quadrilaterals",
    "Bempp.C113_triangles",
    "Bempp.C113_bounded",
    "Bempp.C113_stored",
    "Bempp.C113_sphere_stored",
    "Bempp.C113_touching_colours",
    "Bempp.C113_colours",
    "Bempp.C113_piecewise_constant",
    "Bempp.C113_benchmark",
    "Bempp.C113_any_grid",
    "Bempp.C113_parts_stored",
    "Bempp.C113_parts_bounded"
   ],
   "note": "counts on the shapes are transferred to the grids that the builder makes (contract Built of C46/C47)"
  },
  {
   "property": "C114",
   "status": "proved",
   "theorems": [
    "Bempp.C114_section",
    "Bempp.C114_call",
    "Bempp.C114_additions",
    "Bempp.C114_singular",
    "Bempp.C114_shapes",
    "Bempp.C114_sphere_singular",
    "Bempp.C114_sphere_regular"
   ],
   "note": "the tasks of a call that does not panic; batch size 0 is C11"
  },
  {
   "property": "C115",
   "status": "proved",
   "theorems": [
    "Bempp.C115_sequence",
    "Bempp.C115_numbers",
    "Bempp.C115_values",
    "Bempp.C115_tidy",
    "Bempp.C115_memory",
    "Bempp.C115_alone",
    "Bempp.C115_thread_values",
    "Bempp.C115_any_order",
    "Bempp.C115_double_free"
   ],
   "note": "combines C109 and C111; C115_double_free is the negation without the condition"
  },
  {
   "property": "C116",
   "status": "proved",
   "theorems": [
    "Bempp.C116_results",
    "Bempp.C116_values",
    "Bempp.C116_defined",
    "Bempp.C116_memory",
    "Bempp.C116_spaces"
   ],
   "note": "the allocator is a parameter that may depend on the memory and on the number of allocations; programs that run out of memory are left out"
  },
  {
   "property": "C117",
   "status": "proved",
   "theorems": [
    "Bempp.C117_alone",
    "Bempp.C117_alone_everywhere",
    "Bempp.C117_apart",
    "Bempp.C117_apart_memory",
    "Bempp.C117_one_at_a_time",
    "Bempp.C117_gone",
    "Bempp.C117_lost_count",
    "Bempp.C117_made_twice",
    "Bempp.C117_collected",
    "Bempp.C117_collected_last",
    "Bempp.C117_deleted_in_use",
    "Bempp.C117_ends",
    "Bempp.C117_can_finish"
   ],
   "note": "each read or write of an attribute and each call of Rust is one step; Rust functions do not overlap each other here"
  }
 ]
}