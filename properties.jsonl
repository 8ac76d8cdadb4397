{"id": "C01", "title": "DOF numbering is a bijection", "statement": "For a function space on any grid, every DOF number 0..local_size()-1 is returned by get_local_dof_numbers(d, e) for exactly one entity (d, e) and exactly one position in it, and get_local_dof_numbers returns no other numbers.", "quantifier": "every grid with topology dimension 2 that meets the grid contract, every element family compatible with it", "why_tests_cant": "a test fixes a handful of grids and degrees; the claim is for every mesh topology, size and element", "anchors": ["src/function.rs:assign_dofs", "src/function.rs:FunctionSpace::get_local_dof_numbers"]}
{"id": "C02", "title": "Cell DOFs and entity DOFs agree (conformity)", "statement": "If the element puts its reference DOF number l at position k of sub-entity i of dimension d, then cell_dofs(cell)[l] equals get_local_dof_numbers(d, e)[k] where e is that sub-entity of the cell. Hence two cells that contain the same entity see the same DOF numbers on it.", "quantifier": "every grid, element family, cell, sub-entity and position", "why_tests_cant": "the order in which cells visit shared entities differs for every mesh; tests only sample it", "anchors": ["src/function.rs:assign_dofs", "src/function.rs:FunctionSpace::cell_dofs"]}
{"id": "C03", "title": "Cell DOF lists are well formed", "statement": "cell_dofs(c) is Some exactly when c is a cell of the grid; the list then has length element.dim(), its entries are pairwise distinct and all are below local_size(). Conversely every number below local_size() is in the list of some cell. Building the space on a valid grid never panics.", "quantifier": "every grid, element family and cell index", "why_tests_cant": "tests/test_space.rs checks this for one 8x8 screen and a few degrees", "anchors": ["src/function.rs:assign_dofs", "src/function.rs:FunctionSpace::cell_dofs"]}
{"id": "C04", "title": "Cells share DOFs exactly through shared entities", "statement": "Two different cells have a DOF in common if and only if they have a common sub-entity that carries at least one DOF.", "quantifier": "every grid, element family, pair of cells", "why_tests_cant": "depends on all pairs of cells of all meshes", "anchors": ["src/function.rs:assign_dofs"]}
{"id": "C05", "title": "The number of DOFs is the sum over entities", "statement": "local_size() is the sum over all entities of the number of DOFs the element places on that entity (so vertices for P1, cells for DP0, vertices+edges for P2).", "quantifier": "every grid and element family", "why_tests_cant": "tests check a few grids only", "anchors": ["src/function.rs:assign_dofs", "src/function.rs:FunctionSpace::local_size"]}
{"id": "C06", "title": "The cell colouring is a partition of the cells", "statement": "In cell_colouring(), every cell of the grid appears exactly once, under its own cell type, and nothing else appears.", "quantifier": "every grid and element family", "why_tests_cant": "any greedy-loop slip only shows on particular meshes", "anchors": ["src/function.rs:FunctionSpace::cell_colouring"]}
{"id": "C07", "title": "Cells of one colour share no DOFs", "statement": "Two different cells with the same colour never have a DOF in common (also when they are of different cell types).", "quantifier": "every grid and element family, every pair of cells", "why_tests_cant": "needs all pairs of cells of all meshes", "anchors": ["src/function.rs:FunctionSpace::cell_colouring", "src/function.rs:assign_dofs"]}
{"id": "C08", "title": "Parallel dense assembly has no data race and stays in bounds", "statement": "Inside one parallel section of dense assembly, two different tasks never touch the same matrix entry, and every raw-pointer write is inside the output buffer.", "quantifier": "every pair of spaces, batch size >= 1, colour pair and pair of tasks, all cells of both grids being of one common cell type (C36 is about the other grids)", "why_tests_cant": "races depend on schedules that tests cannot enumerate; the write goes through a raw pointer", "anchors": ["src/boundary_assemblers.rs:assemble_nonsingular_part", "src/boundary_assemblers.rs:assemble_batch_nonadjacent", "src/boundary_assemblers/helpers.rs:RawData2D"]}
{"id": "C09", "title": "Dense assembly does not depend on the thread schedule", "statement": "For every interleaving of the loads and stores of the worker tasks and for every way the parallel reduction is split, the assembled matrix is the same, entry by entry, with no assumption on the arithmetic (so also bit for bit in floating point).", "quantifier": "every interleaving, every reduction tree, every input", "why_tests_cant": "the number of schedules is astronomically large", "anchors": ["src/boundary_assemblers.rs:assemble_nonsingular_part", "src/boundary_assemblers.rs:assemble_singular_part"]}
{"id": "C10", "title": "The batch size never changes the result", "statement": "For any two batch sizes >= 1 dense assembly returns the same matrix, entry by entry, with no assumption on the arithmetic; the singular triplets are the same list.", "quantifier": "every batch size >= 1, every input, all cells of both grids being of one common cell type (C36 is about the other grids)", "why_tests_cant": "tests run with the default batch size 128 on tiny grids, where only one batch exists", "anchors": ["src/boundary_assemblers.rs:assemble_nonsingular_part", "src/boundary_assemblers.rs:make_cell_blocks", "src/boundary_assemblers.rs:BoundaryAssemblerOptions"]}
{"id": "C11", "title": "Assembly terminates for every batch size the options accept", "statement": "set_batch_size accepts any number and assembly then terminates.", "quantifier": "every batch size, every grid", "why_tests_cant": "non-termination cannot be observed by a test; batch size 0 is never tested (the property fails there)", "anchors": ["src/boundary_assemblers.rs:make_cell_blocks", "src/boundary_assemblers.rs:assemble_nonsingular_part", "src/boundary_assemblers.rs:set_batch_size"]}
{"id": "C12", "title": "Every adjacent pair of cells is enumerated exactly once", "statement": "The batches given to the singular quadrature contain each ordered pair (owned test cell, trial cell) that shares at least one vertex exactly once and no other pair, in batches of at most batch_size, and each in a batch whose rule was built for the cell types and the list of shared local vertices of that very pair.", "quantifier": "every conforming grid, every batch size >= 1, every ordered pair of cells", "why_tests_cant": "the smallest-shared-vertex trick depends on the global numbering of the whole mesh", "anchors": ["src/boundary_assemblers.rs:make_cell_blocks", "src/boundary_assemblers.rs:get_pairs_if_smallest", "src/boundary_assemblers.rs:assemble_singular_part"]}
{"id": "C13", "title": "Every cell pair is integrated by exactly one method", "statement": "For test and trial spaces on one grid, each ordered pair of cells contributes either through the singular rules or through the regular rule, never both and never neither.", "quantifier": "every grid, every ordered pair of cells", "why_tests_cant": "a double count or omission shows only for particular adjacency patterns", "anchors": ["src/boundary_assemblers.rs:neighbours", "src/boundary_assemblers.rs:make_cell_blocks", "src/boundary_assemblers.rs:assemble_batch_nonadjacent"]}
{"id": "C14", "title": "Dense assembly computes the Galerkin double sum", "statement": "Entry (i, j) of assemble(trial, test) is the sum over all cell pairs and all local basis pairs whose test DOF is i and trial DOF is j of that pair's local quadrature value, and nothing else.", "quantifier": "every grid, pair of spaces, operator, entry, all cells of both grids being of one common cell type (C36 is about the other grids)", "why_tests_cant": "tests compare 8x8 matrices on one octahedron", "anchors": ["src/boundary_assemblers.rs:assemble", "src/boundary_assemblers.rs:assemble_into_memory"]}
{"id": "C15", "title": "assemble_into_memory adds to the caller's buffer and touches nothing else", "statement": "assemble_into_memory replaces each entry of the column-major buffer by its old value plus the matrix entry; assemble returns the matrix for a zero buffer.", "quantifier": "every initial buffer content and every input, all cells of both grids being of one common cell type (C36 is about the other grids)", "why_tests_cant": "tests never pass a non-zero buffer", "anchors": ["src/boundary_assemblers.rs:assemble_into_memory", "src/boundary_assemblers.rs:assemble"]}
{"id": "C16", "title": "The sparse singular part is the singular part of the dense matrix", "statement": "The matrix returned by assemble_singular, added to the regular part, equals the dense matrix; all row and column indices are in range and the shape is (test global size, trial global size).", "quantifier": "every input", "why_tests_cant": "the Python test only checks equality on entries that the 8-cell grid makes purely singular; the 1e-10 cut-off makes the full claim false", "anchors": ["src/boundary_assemblers.rs:assemble_singular", "src/boundary_assemblers.rs:assemble_singular_part"]}
{"id": "C17", "title": "Spaces on different grids use only the regular rule", "statement": "If the two spaces live on different grids, the singular part is the empty matrix of the right shape and every pair of cells is integrated with the regular rule.", "quantifier": "every pair of grids, all cells of both grids being of one common cell type (C36 is about the other grids)", "why_tests_cant": "no test uses two grids", "anchors": ["src/boundary_assemblers.rs:assemble_singular_part", "src/boundary_assemblers.rs:neighbours", "src/boundary_assemblers/helpers.rs:equal_grids"]}
{"id": "C18", "title": "A space on one process numbers globally as it numbers locally", "statement": "On a one-process communicator global_dof_index is the identity, every DOF is Owned, and global_size() = local_size().", "quantifier": "every grid and element family", "why_tests_cant": "tests sample a few grids", "anchors": ["src/function.rs:FunctionSpace::new"]}
{"id": "C19", "title": "Owned global DOF numbers partition 0..global_size", "statement": "Over all processes, the global numbers of owned DOFs are pairwise different and are exactly 0..global_size()-1; all processes report the same global_size().", "quantifier": "every number of processes, every distributed grid, every message schedule", "why_tests_cant": "depends on every partition of every mesh and on the process count; the parallel example is commented out", "anchors": ["src/function.rs:FunctionSpace::new"]}
{"id": "C20", "title": "Ghost DOFs agree with their owner", "statement": "If ownership(i) on process r is Ghost(p, l), then p != r, DOF l is Owned on p, and global_dof_index(i) on r equals global_dof_index(l) on p; two DOFs anywhere have the same global number iff they are the same DOF of the same mesh entity.", "quantifier": "every number of processes, every distributed grid", "why_tests_cant": "as C19", "anchors": ["src/function.rs:FunctionSpace::new"]}
{"id": "C21", "title": "Building a distributed space terminates with the same result for every message schedule", "statement": "For every number of processes and every interleaving of the processes' sends and receives, construction neither deadlocks nor mismatches messages, and gives the same result.", "quantifier": "every process count, every interleaving", "why_tests_cant": "schedules cannot be enumerated; MPI's freedom to delay a send until it is received makes the full claim false", "anchors": ["src/function.rs:FunctionSpace::new"]}
{"id": "C22", "title": "Distributed singular assembly adds up to the serial one", "statement": "The sum over processes of the singular triplets assembled on each process (in global numbering) equals the singular part assembled on the whole grid. If processes do not have all cells that touch their own, then what is missing are exactly the contributions of the pairs of touching cells of which the owner of the test cell does not have the trial cell.", "quantifier": "every number of processes and distribution with a complete ghost layer", "why_tests_cant": "the only parallel check is commented out and used one grid", "anchors": ["src/boundary_assemblers.rs:make_cell_blocks", "src/boundary_assemblers.rs:assemble_singular_part"]}
{"id": "C23", "title": "Assembler options behave like a map with fixed keys", "statement": "After any sequence of setter calls, each getter returns the last value set for a key that default options contain, the default otherwise, and None for any other key (setters on unknown keys do nothing).", "quantifier": "every sequence of calls", "why_tests_cant": "histories are unbounded", "anchors": ["src/boundary_assemblers.rs:BoundaryAssemblerOptions"]}
{"id": "C24", "title": "Every operator reads only data that was computed for it", "statement": "For each Laplace and Helmholtz operator constructor, the unchecked reads of kernel components and basis derivatives made by its integrand stay inside the arrays whose sizes the constructor chose.", "quantifier": "every operator, quadrature size, element and cell pair", "why_tests_cant": "reads are unchecked; an out-of-bounds read may go unnoticed in a test", "anchors": ["src/laplace.rs", "src/helmholtz.rs", "src/boundary_assemblers/integrands.rs", "src/boundary_assemblers/cell_pair_assemblers.rs"]}
{"id": "C25", "title": "A cell-pair integrator has no memory", "statement": "The local matrix computed for a pair of cells depends only on that pair: not on the cells processed before, nor on the previous contents of the local matrix.", "quantifier": "every sequence of set/assemble calls", "why_tests_cant": "histories are unbounded", "anchors": ["src/boundary_assemblers/cell_pair_assemblers.rs"]}
{"id": "C26", "title": "The adjoint double layer matrix is the transpose of the double layer matrix", "statement": "For a kernel whose gradient is odd under exchange of its arguments, the matrix of the adjoint double layer operator is the transpose of the double layer matrix with test and trial spaces exchanged.", "quantifier": "every grid and space, every such kernel, rules that are symmetric, all cells of both grids being of one common cell type (C36 is about the other grids)", "why_tests_cant": "tests compare two fixed 8x8 matrices to 1e-4", "anchors": ["src/boundary_assemblers/integrands/double_layer.rs", "src/boundary_assemblers/integrands/adjoint_double_layer.rs"]}
{"id": "C27", "title": "The single layer matrix is symmetric", "statement": "For a symmetric kernel the single layer matrix with equal test and trial space is symmetric.", "quantifier": "every grid, space and symmetric kernel, symmetric rules, all cells of both grids being of one common cell type (C36 is about the other grids)", "why_tests_cant": "as C26", "anchors": ["src/boundary_assemblers/integrands/single_layer.rs"]}
{"id": "C28", "title": "The Laplace hypersingular operator annihilates constants", "statement": "If the basis functions of the trial element sum to one, every row of the Laplace hypersingular matrix sums to zero (and dually for columns).", "quantifier": "every grid and element with that property, every kernel, all cells of both grids being of one common cell type (C36 is about the other grids)", "why_tests_cant": "tests compare one 6x6 matrix", "anchors": ["src/boundary_assemblers/integrands/hypersingular.rs", "src/laplace.rs"]}
{"id": "C29", "title": "Assembly is linear in the integrand", "statement": "The matrix of a sum of integrands is the sum of the matrices and a scalar factor pulls out; so the Helmholtz hypersingular matrix is the curl-curl matrix minus wavenumber squared times the normal-normal matrix.", "quantifier": "every pair of integrands, scalar, grid and space, all cells of both grids being of one common cell type (C36 is about the other grids)", "why_tests_cant": "all inputs", "anchors": ["src/boundary_assemblers/integrands.rs:BoundaryIntegrandSum", "src/boundary_assemblers/integrands.rs:BoundaryIntegrandTimesScalar", "src/helmholtz.rs:hypersingular"]}
{"id": "C30", "title": "Sizes of the regular sphere", "statement": "regular_sphere(n) has 4^(n+1)+2 points, 8*4^n cells (exactly the reserved capacities), numbered in order, every cell refers to existing points and every point is used.", "quantifier": "every refinement level", "why_tests_cant": "tests use levels 0..3", "anchors": ["src/shapes.rs:regular_sphere"]}
{"id": "C31", "title": "The regular sphere is a closed, consistently oriented surface", "statement": "In regular_sphere(n), every edge belongs to exactly two triangles, which traverse it in opposite directions; triangles have three distinct vertices and no two triangles have the same vertices.", "quantifier": "every refinement level", "why_tests_cant": "needs induction over refinement", "anchors": ["src/shapes.rs:regular_sphere"]}
{"id": "C32", "title": "The regular sphere lies on the unit sphere with outward normals", "statement": "All points of regular_sphere(n) have distance 1 from the origin (in exact arithmetic), no midpoint is the origin, and each triangle is positively oriented as seen from outside.", "quantifier": "every refinement level", "why_tests_cant": "needs induction over refinement", "anchors": ["src/shapes.rs:regular_sphere"]}
{"id": "C33", "title": "Screen grids are numbered without gaps or clashes", "statement": "screen_triangles(n) and screen_quadrilaterals(n) add points with ids 0..(n+1)^2-1 and cells with ids 0..2n^2-1 (resp. n^2-1), each exactly once and in order, cells refer to existing points, and n = 0 is rejected.", "quantifier": "every n", "why_tests_cant": "tests use n = 8", "anchors": ["src/shapes.rs:screen_triangles", "src/shapes.rs:screen_quadrilaterals"]}
{"id": "C34", "title": "Screen grids cover the unit square", "statement": "As documented, the grid covers [0,1]^2.", "quantifier": "every n", "why_tests_cant": "(the property fails: the points are scaled by 1/(n+1))", "anchors": ["src/shapes.rs:screen_triangles", "src/shapes.rs:screen_quadrilaterals"]}
{"id": "C35", "title": "Screen cells tile their square", "statement": "The triangles (resp. quadrilaterals) of a screen all have the same positive orientation, their areas add up to the area of the covered square, two cells have in common only points spanned by common corners, and every edge lies in one or two cells, two exactly when it is interior.", "quantifier": "every n", "why_tests_cant": "every n", "anchors": ["src/shapes.rs:screen_triangles", "src/shapes.rs:screen_quadrilaterals"]}
{"id": "C36", "title": "Dense assembly never returns a matrix for cell types it cannot handle", "statement": "If one of the two grids has a cell of a type that the other grid lacks, assemble and assemble_into_memory never complete: they panic. If both grids have both types and the test element has more functions on one type than on another (P1 on triangles and quadrilaterals), a pair of such cells that do not touch makes assembly panic or read outside the tables of basis values, so that it never yields a matrix either. The reason is what element of a space returns: the element of the family for the cell types of its grid, and a panic for all others.", "quantifier": "every pair of grids, spaces, kernels, quadrature rules and options; every schedule", "why_tests_cant": "no test mixes cell types (the code swaps the cell types of the two arguments)", "anchors": ["src/boundary_assemblers.rs:assemble_nonsingular_part", "src/boundary_assemblers.rs:assemble_batch_nonadjacent"]}
{"id": "C37", "title": "Python function spaces never free a Rust grid or family early or twice", "statement": "For every order of creating, using and deleting Python function spaces on any grids and families, in which any creation may fail, a live space's Rust space, grid and element family have not been freed, nothing is freed twice or used after it was freed, deleting and using a space never raise, and a creation raises only if one of its conversions fails.", "quantifier": "every history of create, delete and use operations", "why_tests_cant": "histories are unbounded", "anchors": ["python/bempp/function_space.py:FunctionSpace.__del__", "python/bempp/function_space.py:function_space"]}
{"id": "C38", "title": "Options used by a Python assembler never change", "statement": "Once an assembler has been created with an options object, no sequence of calls changes any value that object reports.", "quantifier": "every history", "why_tests_cant": "histories are unbounded", "anchors": ["python/bempp/assembly/boundary.py:BoundaryAssemblerOptions", "python/bempp/assembly/boundary.py:BoundaryAssembler"]}
{"id": "C39", "title": "Misuse is rejected before anything is written", "statement": "assemble and assemble_into_memory panic, leaving the buffer unchanged, if either space is distributed over more than one process or if the buffer has the wrong length.", "quantifier": "every input", "why_tests_cant": "all inputs", "anchors": ["src/boundary_assemblers.rs:assemble", "src/boundary_assemblers.rs:assemble_into_memory"]}
{"id": "C40", "title": "The singular rule matches the adjacency", "statement": "The rule chosen for a pair of cells has connectivity dimension 0, 1 or 2 according to whether the cells share one vertex, an edge, or are the same cell, is for the right pair of cell types, and is defined for every pair that can occur on a conforming triangle or quadrilateral grid; a non-adjacent request or other cell type is rejected.", "quantifier": "every conforming grid and adjacent pair", "why_tests_cant": "depends on every local numbering of every pair", "anchors": ["src/boundary_assemblers.rs:get_singular_quadrature_rule", "src/boundary_assemblers.rs:assemble_singular_part"]}
{"id": "C41", "title": "The hypersingular matrix is symmetric", "statement": "For a symmetric kernel the Laplace and Helmholtz hypersingular matrices with equal test and trial space are symmetric.", "quantifier": "every grid of one cell type, space, wavenumber and symmetric kernel, symmetric rules", "why_tests_cant": "tests compare one 6x6 matrix", "anchors": ["src/boundary_assemblers/integrands/hypersingular.rs", "src/laplace.rs:hypersingular", "src/helmholtz.rs:hypersingular"]}
{"id": "C42", "title": "The regular sphere has no gaps and no overlaps", "statement": "Seen from the origin the triangles of regular_sphere(n) cover every direction, two triangles have in common only directions spanned by common corners, and all points are different.", "quantifier": "every refinement level", "why_tests_cant": "needs induction over refinement", "anchors": ["src/shapes.rs:regular_sphere"]}
{"id": "C43", "title": "Python function spaces leak nothing", "statement": "After any history of creating and deleting Python function spaces, every Rust object that exists is a live space or the grid or family of a live space, so that nothing is left when all spaces are deleted.", "quantifier": "every history of create and delete operations", "why_tests_cant": "histories are unbounded", "anchors": ["python/bempp/function_space.py:FunctionSpace.__del__", "python/bempp/function_space.py:function_space"]}
{"id": "C44", "title": "A Python options object reports exactly what was set before it was used", "statement": "After any program with any number of options objects, each object reports the last value set for each supported key by the setter calls made on it before the first assembler was created with it, and the defaults otherwise; a setter raises exactly if an assembler was created with the object or the key is not supported.", "quantifier": "every program", "why_tests_cant": "histories are unbounded", "anchors": ["python/bempp/assembly/boundary.py:BoundaryAssemblerOptions", "python/bempp/assembly/boundary.py:BoundaryAssembler", "python/bempp/assembly/boundary.py:create_laplace_assembler"]}
{"id": "C45", "title": "The global numbering on a distributed grid is a renumbering of the serial one", "statement": "If a grid is distributed over processes, the global size of a space is that of the space on the undistributed grid, and there is one bijection between the global DOF numbers and the serial DOF numbers such that on every process basis function a of a cell has the DOF that basis function a of the same cell has on the undistributed grid.", "quantifier": "every number of processes, every distribution in which ghosts refer to their owners, every local numbering on the processes, every element family", "why_tests_cant": "the tests run on one process", "anchors": ["src/function.rs:FunctionSpace::new", "src/function.rs:assign_dofs"]}
{"id": "C46", "title": "Sizes of function spaces on the shapes", "statement": "An element with a, b and c degrees of freedom on each vertex, on each edge and in each cell gives a space with a(4^(n+1)+2) + 12b4^n + 8c4^n degrees of freedom on a grid made from regular_sphere(n), a(n+1)^2 + b(3n^2+2n) + 2cn^2 on one from screen_triangles(n) and a(n+1)^2 + 2bn(n+1) + cn^2 on one from screen_quadrilaterals(n).", "quantifier": "every n, every element, every numbering that the grid builder chooses", "why_tests_cant": "tests use a few n and elements", "anchors": ["src/shapes.rs:regular_sphere", "src/shapes.rs:screen_triangles", "src/shapes.rs:screen_quadrilaterals", "src/function.rs:FunctionSpace::new", "src/function.rs:global_size"]}
{"id": "C47", "title": "Grids made from the shapes are fit for assembly", "statement": "For every n, the shapes are conforming (two different cells share nothing, a corner or a common edge), so that every operator can be assembled on every grid made from them with elements of any degree; the matrix has the size of the spaces and the Galerkin entries of C14.", "quantifier": "every n, shape, element, operator, numbering chosen by the grid builder and schedule", "why_tests_cant": "tests assemble on a few small spheres", "anchors": ["src/shapes.rs:regular_sphere", "src/shapes.rs:screen_triangles", "src/shapes.rs:screen_quadrilaterals", "src/boundary_assemblers.rs:assemble", "src/boundary_assemblers.rs:assemble_singular_part"]}
{"id": "C48", "title": "The regular sphere approximates the unit sphere", "statement": "In regular_sphere(n) no edge is longer than sqrt(6/(4^n+2)), and every point of every flat cell has a distance from the origin between sqrt(4^n/(4^n+2)) and 1 (exact arithmetic); both bounds are attained, so the grid converges with order 4^-n and no faster.", "quantifier": "every refinement level, every edge and every point of every cell", "why_tests_cant": "needs induction over refinement; tests build levels 0..3 and check no distances", "anchors": ["src/shapes.rs:regular_sphere"]}
{"id": "C49", "title": "The levels of the regular sphere are nested", "statement": "regular_sphere(n+1) keeps the points of regular_sphere(n) with their numbers and coordinates, adds exactly one point for every edge, the projection of its middle to the sphere, and cuts cell k into the cells 4k..4k+3.", "quantifier": "every refinement level", "why_tests_cant": "needs induction over refinement", "anchors": ["src/shapes.rs:regular_sphere"]}
{"id": "C50", "title": "Colours are not wasted", "statement": "A cell of colour k shares, for every lower colour j, a DOF with another cell of colour j; so the number of colours is at most one more than the largest number of other cells with which a cell shares a DOF, no colour is empty, and every cell type has the same number of colour lists.", "quantifier": "every grid, element family and order of the cells", "why_tests_cant": "depends on the order in which an arbitrary grid lists its cells", "anchors": ["src/function.rs:FunctionSpace::cell_colouring", "src/function.rs:FunctionSpace::new"]}
{"id": "C51", "title": "The order of DOF numbers", "statement": "Local DOF numbers are given out in the order in which the DOFs are met when going through the cells in the order of the grid, through vertices, edges and interior of each, and through the positions on the entity; in particular the DOFs of a discontinuous element are consecutive blocks in the order of the cells.", "quantifier": "every grid, element family and number of processes", "why_tests_cant": "tests check only sizes", "anchors": ["src/function.rs:assign_dofs", "src/function.rs:get_local_dof_numbers", "src/function.rs:cell_dofs"]}
{"id": "C52", "title": "Results do not depend on how entities are numbered", "statement": "If the vertices, edges and cells of the surfaces get other numbers and are listed in another order, the matrix of every operator is the same up to one renumbering of its rows and one of its columns, and the renumberings are those of the DOFs of the two spaces.", "quantifier": "every pair of grids, every renumbering, element family, operator, kernel and batch size", "why_tests_cant": "tests use one numbering of one grid", "anchors": ["src/function.rs:assign_dofs", "src/boundary_assemblers.rs:BoundaryAssembler::assemble", "src/boundary_assemblers/cell_pair_assemblers.rs:SingularCellPairAssembler::assemble"]}
{"id": "C53", "title": "Rigid motions and scaling", "statement": "If the surfaces and their normals are moved by x -> s A x + b with orthogonal A, the matrices of the Laplace operators are multiplied by s^3 (single layer), s^2 (double layer and adjoint) and s (hypersingular), and the same holds for the Helmholtz operators if the wavenumber is divided by s; with s = 1 nothing changes.", "quantifier": "every s > 0, every rotation and shift, every pair of surfaces, operator and wavenumber", "why_tests_cant": "a relation between two runs for a continuum of motions", "anchors": ["src/boundary_assemblers/integrands.rs", "src/boundary_assemblers.rs:BoundaryAssembler::assemble", "src/laplace.rs", "src/helmholtz.rs"]}
{"id": "C54", "title": "Helmholtz with wavenumber 0 is Laplace", "statement": "With wavenumber 0 each Helmholtz operator has the matrix of the Laplace operator of the same kind.", "quantifier": "every pair of spaces, every option", "why_tests_cant": "a relation between two families of constructors for all grids", "anchors": ["src/helmholtz.rs", "src/laplace.rs", "src/boundary_assemblers/integrands.rs"]}
{"id": "C55", "title": "Python function spaces report what Rust reports", "statement": "get_local_dof_numbers and cell_dofs of a Python function space return exactly the lists Rust returns and never write or read outside the arrays they allocate; cell_dofs of a number that is not a cell is None; on a space on one process no argument in range raises or ends the process.", "quantifier": "every space and every argument", "why_tests_cant": "memory safety of the copying for every length", "anchors": ["python/bempp/function_space.py:FunctionSpace", "src/bindings/space.rs"]}
{"id": "C56", "title": "Python's assembled matrices are Rust's", "statement": "assemble returns an array of shape (test size, trial size) whose element [i, j] is entry (i, j) of the matrix Rust assembles, for the Laplace operators the Galerkin sum of C14; assemble_singular returns a SciPy matrix with the arrays of Rust's matrix, which is freed once, after copying; arguments with different or complex scalar types raise before Rust is called.", "quantifier": "every operator, pair of spaces, option and schedule", "why_tests_cant": "memory layout and lifetimes for every size", "anchors": ["python/bempp/assembly/boundary.py:BoundaryAssembler.assemble", "python/bempp/assembly/boundary.py:_convert_to_scipy", "python/bempp/assembly/boundary.py:create_laplace_assembler", "src/bindings/boundary_assemblers.rs", "src/bindings/matrices.rs"]}
{"id": "C57", "title": "The serial function space is the distributed one on one process", "statement": "A LocalFunctionSpace and a FunctionSpace on a communicator with one process, made from the same surface grid and element family, agree in the DOFs of every entity and cell, sizes, elements, colouring, global numbers and ownership.", "quantifier": "every surface grid and element family", "why_tests_cant": "two implementations compared on all inputs", "anchors": ["src/function/function_space/serial.rs:LocalFunctionSpace", "src/function/function_space/common.rs:assign_dofs", "src/function.rs:FunctionSpace::new"]}
{"id": "C58", "title": "Matrices of nested spaces", "statement": "If every basis function of the test (trial) space is a combination of basis functions of a larger space on the same grid, with coefficients P (S), then the matrix of every operator for the small spaces is P M' S^T with M' the matrix for the large spaces. In particular the matrix of a continuous space is obtained from that of the discontinuous space with the same cell functions by adding up rows and columns of identified DOFs.", "quantifier": "every pair of spaces, every operator, every option", "why_tests_cant": "a linear relation between matrices of different spaces for all grids and elements", "anchors": ["src/boundary_assemblers.rs:BoundaryAssembler::assemble", "src/boundary_assemblers/cell_pair_assemblers.rs", "src/function.rs:FunctionSpace::cell_dofs"]}
{"id": "C59", "title": "Entries depend only on the cells that carry the functions", "statement": "If a surface is part of a larger one, the DOFs of a space on the part are DOFs of the space on the whole, and for DOFs whose cells all lie in the part every operator has the same matrix entry on the part as on the whole, whatever else the larger surface contains. So the matrix for a surface of several components contains the matrices of the components, and of pairs of components, as blocks.", "quantifier": "every pair of grids, every part, every operator, option and element family", "why_tests_cant": "a relation between runs on all pairs of nested grids", "anchors": ["src/boundary_assemblers.rs:BoundaryAssembler::assemble", "src/function.rs:assign_dofs", "src/boundary_assemblers/cell_pair_assemblers.rs"]}
{"id": "C60", "title": "u^T M v depends only on the functions", "statement": "For coefficient vectors u, v the number u^T M v depends only on the functions that u and v represent, not on the spaces that contain them: two pairs of spaces on the same surface with coefficients of the same functions give the same number. In particular the row sums of the matrix are the same for all trial elements whose basis functions add up to one.", "quantifier": "every pair of spaces, operator, coefficient vectors and option", "why_tests_cant": "a relation between matrices for all spaces and vectors", "anchors": ["src/boundary_assemblers.rs:BoundaryAssembler::assemble", "src/boundary_assemblers/cell_pair_assemblers.rs", "src/boundary_assemblers/integrands.rs"]}
{"id": "C61", "title": "Opposite wavenumbers give conjugate matrices", "statement": "The matrix of a Helmholtz operator with wavenumber -k is the complex conjugate of the matrix with wavenumber k, for elements with real basis functions.", "quantifier": "every surface, pair of spaces, operator, wavenumber and option", "why_tests_cant": "a relation between two runs for a continuum of wavenumbers", "anchors": ["src/helmholtz.rs", "src/boundary_assemblers/integrands.rs", "src/boundary_assemblers.rs:BoundaryAssembler::assemble"]}
{"id": "C62", "title": "Size of the entries of single layer matrices", "statement": "The entries of the Laplace single layer matrix are not negative, and the entries of the Helmholtz single layer matrix are not larger in absolute value than those of the Laplace one, for every wavenumber, if quadrature weights and basis functions are not negative.", "quantifier": "every surface, pair of spaces, wavenumber and option", "why_tests_cant": "an inequality for a continuum of wavenumbers and surfaces", "anchors": ["src/laplace.rs:single_layer", "src/helmholtz.rs:single_layer", "src/boundary_assemblers.rs:BoundaryAssembler::assemble"]}
{"id": "C63", "title": "Rounding errors are bounded", "statement": "If every addition, subtraction, multiplication and division returns its exact result up to a relative error u, every entry of the matrix assembled for any of the eight operators differs from the exact sum over the given kernel, basis, geometry and quadrature values by at most ((1+u)^k - 1) S, where S is the sum of the absolute values of the terms and k is 2, 5, 5, 10 (Laplace) or 11 (Helmholtz) for single layer, double layer, adjoint and hypersingular operators, plus 4, plus the number of quadrature terms per pair of cells, plus the number of pairs of cells that contribute to the entry.", "quantifier": "every arithmetic in the standard model, surface, pair of spaces, operator, option and schedule", "why_tests_cant": "rounding patterns of all inputs cannot be enumerated", "anchors": ["src/boundary_assemblers.rs:BoundaryAssembler::assemble", "src/boundary_assemblers/cell_pair_assemblers.rs", "src/boundary_assemblers/integrands.rs", "src/boundary_assemblers.rs:assemble_nonsingular_part"]}
{"id": "C64", "title": "Which processes return with limited message buffers", "statement": "If MPI buffers messages up to some length and hands longer ones over only to a waiting receiver, whether a process returns from FunctionSpace::new does not depend on the relative speed of the processes: it returns either in every execution or in none. It returns, with the same space as with unlimited buffers, exactly if nothing it has to do waits, directly or not, for a step that waits for itself, where the waiting relation depends only on how many DOFs the processes need of each other.", "quantifier": "every number of processes, distributed grid, element family, buffer length and schedule", "why_tests_cant": "hangs depend on schedules and message sizes; all must be covered", "anchors": ["src/function.rs:FunctionSpace::new"]}
{"id": "C65", "title": "A setting affects only what it is for", "statement": "assemble_singular depends on the options only through the batch size and the singular degrees set for pairs of cell types of the grid, never on a regular degree; dense assembly depends only on the batch size, the regular degrees of cell types of the two grids and, if test and trial grid are the same object, the singular degrees of pairs of their cell types. Settings for other cell types and overwritten settings never matter, also not for panics or non-termination.", "quantifier": "every two histories of setter calls, every grid, space, kernel and external function", "why_tests_cant": "relates runs for all histories and inputs", "anchors": ["src/boundary_assemblers.rs:BoundaryAssemblerOptions", "src/boundary_assemblers.rs:BoundaryAssembler::assemble_singular", "src/boundary_assemblers.rs:BoundaryAssembler::assemble_into_memory", "src/boundary_assemblers.rs:assemble_singular_part", "src/boundary_assemblers.rs:assemble_nonsingular_part"]}
{"id": "C66", "title": "Exactly which Rust objects the Python wrappers keep", "statement": "After any history of function_space calls, deletions and uses of spaces, in which any conversion may raise, the Rust objects that exist are exactly: one space per live Python space, one grid per grid that has a live space or for which some function_space call raised in the conversion of its element family, and one family per family that has a live space. A call raises exactly if the grid is not in Rust yet and its conversion fails, or the family is not in Rust yet and its conversion fails.", "quantifier": "every history of create, delete and use operations and every pattern of failing conversions", "why_tests_cant": "histories are unbounded", "anchors": ["python/bempp/function_space.py:FunctionSpace.__del__", "python/bempp/function_space.py:function_space"]}
{"id": "C67", "title": "No access outside of arrays, also when tasks panic", "statement": "Whatever values the kernel, the elements, the geometry and the quadrature rules return, and whenever they panic, the tasks of assembly do not read arrays outside of their bounds by unchecked access, as long as the external functions keep the shape of the arrays they are given; entries that a task has written to the shared matrix before it completes or panics are inside of the matrix, and no two tasks of a parallel section ever write to the same entry. This holds for the singular part on every grid and for the regular part if all cells have one type. If cells have several types and the element has more functions on one of them, the regular part does read outside of the tables, although every call is safe Rust.", "quantifier": "every operator, grid, space, option, schedule, external function and panic of an external function", "why_tests_cant": "undefined behaviour need not show in a test, and panics at every point must be covered", "anchors": ["src/boundary_assemblers.rs:assemble_batch_singular", "src/boundary_assemblers.rs:assemble_batch_nonadjacent", "src/boundary_assemblers/cell_pair_assemblers.rs", "src/boundary_assemblers/integrands.rs", "src/boundary_assemblers.rs:RawData2D"]}
{"id": "C68", "title": "Processes that stop while a space is created", "statement": "If processes stop at any point while all processes create a function space, and messages of stopped processes may be lost, every execution still comes to an end, no process panics, and a process that returns has the same space as if none had stopped and has got all messages of all others. If no message is lost, a process that goes on returns exactly if every stopped process had sent it all its messages; otherwise it waits for ever. Processes that stop after they have returned keep no other process from returning.", "quantifier": "every number of processes, every distributed grid, every element family, every schedule, every set of processes that stop and every point at which they do, every loss of messages of stopped processes", "why_tests_cant": "crashes at every point of every schedule cannot be tried out", "anchors": ["src/function.rs:FunctionSpace::new"]}
{"id": "C69", "title": "Spaces created one after the other do not mix up their messages", "statement": "If all processes create any number of function spaces one after the other in the same order, without waiting for each other in between, every execution ends, no process panics or hangs, no message is left over, and each space is the one that is got when it is created alone. If the processes create them in different orders, construction can end without any error although DOFs of different processes get the same global number.", "quantifier": "every number of processes, every list of distributed grids and element families, every schedule", "why_tests_cant": "one process may be any number of constructions ahead of another, and all messages have the same tag", "anchors": ["src/function.rs:FunctionSpace::new"]}
{"id": "C70", "title": "Machine integers do not change results", "statement": "On a machine with words of any size and in builds with and without overflow checks, dense and sparse assembly behave exactly as with unbounded integers for every batch size (also usize::MAX), as long as the matrix has fewer entries than there are machine words and the lists of cells and of pairs of cells fit into memory. If the matrix has more entries, a build with overflow checks panics and leaves the buffer unchanged; a build without them accepts exactly the buffers whose length is the number of entries modulo the word size, and for some pair of cells the unchecked writes are outside of that buffer. The screens get the right numbers if points and cells can be numbered, and panic otherwise in builds with overflow checks; regular_sphere can compute its capacities on 64-bit machines with overflow checks exactly up to level 24.", "quantifier": "every word size, both kinds of builds, every pair of serial spaces, every behaviour of kernels, geometry maps and quadrature rules, every schedule", "why_tests_cant": "an overflow needs a matrix larger than the memory, or a batch size that no test uses", "anchors": ["src/boundary_assemblers.rs:assemble_into_memory", "src/boundary_assemblers.rs:assemble_batch_nonadjacent", "src/boundary_assemblers.rs:make_cell_blocks", "src/shapes.rs:screen_triangles", "src/shapes.rs:screen_quadrilaterals", "src/shapes.rs:regular_sphere"]}
{"id": "C71", "title": "Rounding does not spoil the shapes", "statement": "If every arithmetic operation, square root and conversion of a number has a relative error of at most u: at every level, all points of regular_sphere have a norm between (1-u)/(1+u)^3 and (1+u)/(1-u)^3, however many levels came before, and no division is by zero (u at most 1/64); as long as n^2 u is at most 1/128, the sphere of level n has exactly the cells of the exact one and every point is within 16 n u of the exact point; as long as 64 n 4^n u is at most 1 (level 21 in double precision), all normals still point outwards. As long as (n+1) u is at most 1/8, the points of the screens are a grid of strictly increasing coordinates within a relative error of 4 u of the exact ones, and all cells have a positive area and face the same side.", "quantifier": "every arithmetic with relative errors of at most u, every level or size within the bound", "why_tests_cant": "rounding errors could add up over the levels; tests look at a few levels in one precision", "anchors": ["src/shapes.rs:regular_sphere", "src/shapes.rs:screen_triangles", "src/shapes.rs:screen_quadrilaterals"]}
{"id": "C72", "title": "Symmetry, transposition and constants up to rounding", "statement": "If every arithmetic operation returns its exact result up to a relative error u: on one space, entries (i,j) and (j,i) of the single layer and hypersingular matrices (Laplace and Helmholtz, symmetric kernel and singular rules) differ by at most 2((1+u)^k - 1) S, with S the sum of the absolute values of the terms of the entry and k the number of roundings of C63; the matrix of the adjoint double layer operator differs by at most that from the transpose of the matrix of the double layer operator; and the entries in each row and column of the Laplace hypersingular matrix add up to at most the sum of ((1+u)^k - 1) S over the row or column.", "quantifier": "every arithmetic in the standard model, surface, pair of spaces, option and schedule", "why_tests_cant": "rounding patterns of all inputs cannot be enumerated; tests compare with a tolerance found by trial", "anchors": ["src/boundary_assemblers.rs:BoundaryAssembler::assemble", "src/boundary_assemblers/cell_pair_assemblers.rs", "src/boundary_assemblers/integrands.rs"]}
{"id": "C73", "title": "Rounding errors of the sparse singular part", "statement": "If every arithmetic operation returns its exact result up to a relative error u, the triplets computed for the singular part of any operator, on a grid that may be distributed and have several cell types, are the same for all schedules, and those of an entry add up to the exact singular part up to ((1+u)^k - 1) S; each entry of the matrix returned by assemble_singular differs from it by at most ((1+u)^(k+t) - 1) S + 1e-10 t, with t the number of triplets of the entry.", "quantifier": "every arithmetic in the standard model, grid, pair of spaces, operator, option and schedule", "why_tests_cant": "rounding patterns of all inputs cannot be enumerated", "anchors": ["src/boundary_assemblers.rs:BoundaryAssembler::assemble_singular", "src/boundary_assemblers.rs:assemble_singular_part", "src/boundary_assemblers.rs:assemble_batch_singular", "src/boundary_assemblers/cell_pair_assemblers.rs", "src/boundary_assemblers/integrands.rs"]}
{"id": "C74", "title": "Python sessions behave as if everything were a value", "statement": "Whatever a Python program does with function spaces, options objects and Laplace assemblers (create, change, read, delete, assemble, in any order, also after exceptions): no call uses or frees a Rust object that was freed or never existed; the results of all calls are those of a program in which each assembler owns a copy of the options it was created with; an assembler assembles with these options, with its own operator and scalar type, the sum of C14 for the spaces it is given, whatever happened in between; and the Rust objects that exist are one assembler per live Python assembler, one options object per Python options object ever made (these are never freed), and the spaces, grids and families of C66.", "quantifier": "every program (sequence of calls with any arguments), all ways in which calls can end", "why_tests_cant": "histories are unbounded, and the mistakes to be excluded (a reference to options that change or go away, a double free) show only in particular histories", "anchors": ["python/bempp/assembly/boundary.py: BoundaryAssemblerOptions, BoundaryAssembler, create_laplace_assembler", "src/bindings/boundary_assemblers.rs: laplace_boundary_assembler_new, boundary_assembler_assemble_into_memory", "src/boundary_assemblers.rs: BoundaryAssembler.options"]}
{"id": "C75", "title": "Moving, scaling and mirroring the vertices", "statement": "If every vertex of the surfaces is mapped by x -> s A x + b with s > 0 and orthogonal A, and points, tangents, normals and integration elements are computed from the vertices, the matrices of the Laplace operators are multiplied by s^3 (single layer), det(A) s^2 (double layer and adjoint) and s (hypersingular); the same holds for the Helmholtz operators if the wavenumber is divided by s. So a mirror image (det A = -1) changes the sign of the double layer and adjoint matrices only, because the normals computed from mirrored vertices point to the other side.", "quantifier": "every s > 0, every rotation, reflection and shift, every pair of surfaces with triangles, quadrilaterals or other cells whose shape functions add up to 1, operator and wavenumber", "why_tests_cant": "a relation between two runs for a continuum of motions", "anchors": ["src/boundary_assemblers/integrands.rs", "src/boundary_assemblers.rs:BoundaryAssembler::assemble", "src/laplace.rs", "src/helmholtz.rs"]}
{"id": "C76", "title": "More quadrature points: the matrices converge to the Galerkin matrix", "statement": "Assembling the same operator on the same spaces with more and more quadrature points: if the regular rules converge for every continuous function (nodes in the reference cell, bounded sums of absolute weights) and the singular rules for the integrands of touching cells, then every entry of the returned matrices converges to the sum over all pairs of cells of the double integral of kernel, basis functions and integration elements. For the Laplace and Helmholtz Green's functions on surfaces of flat triangles or bilinear quadrilaterals this needs only that no cell is degenerate and that cells which do not touch are disjoint.", "quantifier": "every pair of surfaces, space, operator, wavenumber and convergent sequence of rules", "why_tests_cant": "a limit statement; tests compare with reference values for one number of points", "anchors": ["src/boundary_assemblers/integrands.rs", "src/boundary_assemblers.rs:BoundaryAssembler::assemble", "src/boundary_assemblers.rs:BoundaryAssemblerOptions::set_regular_quadrature_degree"]}
{"id": "C77", "title": "Any accuracy can be reached", "statement": "Assembling an operator with floating point numbers: for every tolerance there is a number of quadrature points from which on, in every arithmetic with enough digits, every entry of the returned matrix differs from the Galerkin entry (the sum of the double integrals over all pairs of cells) by at most the tolerance, for every schedule of the threads. The assumptions are those of C76: convergent rules, continuous non-degenerate geometry and basis functions, and cells that do not touch are disjoint.", "quantifier": "every tolerance, pair of surfaces, space, operator, kernel, convergent sequence of rules and arithmetic with a small enough relative error per operation", "why_tests_cant": "a limit in the number of points and of digits at once; tests run one precision and one number of points", "anchors": ["src/boundary_assemblers/integrands.rs", "src/boundary_assemblers.rs:BoundaryAssembler::assemble", "src/boundary_assemblers.rs:BoundaryAssemblerOptions::set_regular_quadrature_degree"]}
{"id": "C78", "title": "Errors of kernel, geometry, basis functions and quadrature rules", "statement": "Besides the rounding errors of assembly itself, the values that the kernel, the geometry maps and the elements return and the nodes and weights of the quadrature rules have errors. If they are accurate up to e times given scales (for instance relative to the length of a vector) and every operation up to u, then every returned entry differs from the entry in exact arithmetic with exact data and rules by at most ((1+u)^k (1+e)^m - 1) times the sum of the scales of all terms, where m is 7 for single layer, 8 for double layer and adjoint and 11 for hypersingular operators. Hence for every tolerance there is a number of quadrature points from which on accurate enough libraries and arithmetic give every entry of the Galerkin matrix within the tolerance.", "quantifier": "every operator, space, arithmetic, data with errors, schedule; every tolerance", "why_tests_cant": "tests run with one implementation of the libraries and one precision", "anchors": ["src/boundary_assemblers/integrands.rs", "src/boundary_assemblers.rs:BoundaryAssembler::assemble", "src/boundary_assemblers/cell_pair_assemblers.rs"]}
{"id": "C79", "title": "Operators on spheres and screens: the integrals exist and the matrices converge", "statement": "On every surface made by the shape functions, of any level or size and with any numbering by the grid builder, no cell is degenerate, and two cells without a common vertex have no point in common. The double integrals that define the entries of the Galerkin matrices of all Laplace and Helmholtz operators converge absolutely on every pair of cells, also if they touch or are the same. If the regular rules converge for continuous functions and the singular rules for these integrands, then the matrices that assembly returns converge entry by entry to the Galerkin matrix as more points are used; nothing else is asked of the surface.", "quantifier": "every level or size, numbering, operator, wavenumber, pair of spaces, sequence of rules", "why_tests_cant": "there are infinitely many surfaces and sequences of rules, and no test sees a limit", "anchors": ["src/shapes.rs", "src/boundary_assemblers.rs:BoundaryAssembler::assemble", "src/boundary_assemblers/integrands.rs"]}
{"id": "C80", "title": "Overflow and underflow", "statement": "With arithmetic of a bounded range, as IEEE 754 single and double precision (a result above the largest number is lost, products and quotients below the smallest normal number lose accuracy), dense assembly of every operator still returns one matrix for all schedules, and each entry whose intermediate results stay in the range differs from the value in exact arithmetic by at most ((1+u)^k - 1) times the sum of the absolute values of all terms, with the smallest normal number added to each product and quotient. If kernel, geometry, basis functions, weights and wavenumber are at most C and the integration elements at least 1/C, then all entries stay in the range as long as 16384 N T C^11 does (N quadrature points per pair of cells, T cell pairs per entry). The complex operations made of real ones, as those of the number type for Helmholtz operators, have the same form of error with 44 u, if one divides by real numbers of moderate size.", "quantifier": "every arithmetic of this form, operator, pair of spaces, data, schedule", "why_tests_cant": "overflow and underflow occur for data that no test contains; the bound must hold for all data in the range", "anchors": ["src/boundary_assemblers.rs:BoundaryAssembler::assemble_into_memory", "src/boundary_assemblers/cell_pair_assemblers.rs", "src/boundary_assemblers/integrands.rs"]}
{"id": "C81", "title": "Single layer systems are solvable", "statement": "On every sphere and screen the library can make, and on every surface of flat triangles that do not overlap, the Galerkin matrix A of the Laplace single layer operator satisfies u^T A u >= 0 for every vector u, with equality only if the function with coefficients u is 0 everywhere. If the basis functions of the element are independent, A is positive definite, and so is every matrix whose entries are close enough to those of A. In particular, if the quadrature rules converge, then from some number of quadrature points on the assembled matrices are positive definite and every linear system with them has exactly one solution.", "quantifier": "every sphere level, screen size, grid numbering, element with continuous basis functions, coefficient vector, right-hand side", "why_tests_cant": "definiteness is a statement about all vectors, and about a matrix given by singular integrals; tests solve single systems", "anchors": ["src/boundary_assemblers.rs:BoundaryAssembler::assemble_into_dense", "src/boundary_assemblers/integrands/single_layer.rs:SingleLayerBoundaryIntegrand", "src/shapes.rs"]}
{"id": "C82", "title": "Hypersingular systems are solvable up to constants", "statement": "On every sphere and screen the library can make, the Galerkin matrix A of the Laplace hypersingular operator satisfies u^T A u >= 0 for every vector u, with equality only if the derivatives of the function with coefficients u are 0 on every cell. For continuous elements (DOFs on the vertices) this means: only vectors with equal entries are in the kernel. The assembled matrices have rows and columns that add up to 0 whatever the quadrature rules, and if the rules converge, then from some number of quadrature points on every linear system with a right-hand side that adds up to 0 has exactly one solution that adds up to 0.", "quantifier": "every sphere level, screen size, grid numbering, element with continuous basis functions, coefficient vector, right-hand side", "why_tests_cant": "the kernel of a matrix of every size, given by singular integrals; connectedness of the surface of every level enters", "anchors": ["src/boundary_assemblers.rs:BoundaryAssembler::assemble_into_dense", "src/boundary_assemblers/integrands/hypersingular.rs:HypersingularCurlCurlBoundaryIntegrand", "src/shapes.rs"]}
{"id": "C83", "title": "Flat screens: double layer matrices are exactly zero", "statement": "On every screen the library can make, the double layer and adjoint double layer matrices of the Laplace and the Helmholtz operators consist of zeros only, for every element, wavenumber and quadrature rule. The Helmholtz hypersingular matrix is the curl-curl part minus the square of the wavenumber times the single layer matrix.", "quantifier": "every screen size, cell type, grid numbering, element, quadrature rule, wavenumber", "why_tests_cant": "every entry of matrices of every size; a wrong sign or a component of the normal taken from the wrong place shows only on some cells", "anchors": ["src/boundary_assemblers.rs:BoundaryAssembler::assemble_into_dense", "src/boundary_assemblers/integrands/double_layer.rs", "src/boundary_assemblers/integrands/adjoint_double_layer.rs", "src/boundary_assemblers/integrands/hypersingular.rs", "src/shapes.rs"]}
{"id": "C84", "title": "Gauss' law on spheres", "statement": "On every sphere the library can make, the rows of the Galerkin matrix of the Laplace double layer operator add up to minus one half of the integrals of the test functions, if the trial functions add up to 1; so do the columns of the matrix of the adjoint double layer operator, with test and trial exchanged. If the quadrature rules converge, the row and column sums of the assembled matrices converge to these values. This fixes the sign and the factor of the kernel, and the direction of the normals.", "quantifier": "every sphere level, grid numbering, test and trial element with continuous basis functions, row and column", "why_tests_cant": "the sum of singular integrals over all cells of surfaces of every level; the reason is the solid angle of the closed surface, seen from every point of every cell", "anchors": ["src/boundary_assemblers.rs:BoundaryAssembler::assemble_into_dense", "src/boundary_assemblers/integrands/double_layer.rs", "src/boundary_assemblers/integrands/adjoint_double_layer.rs", "src/shapes.rs"]}
{"id": "C85", "title": "The triangles of the spheres are well shaped", "statement": "In every regular sphere, the squares of the sides of the triangles are between 2 / 4^n and 6 / (4^n + 2), all angles are at least 30 degrees and less than 90 degrees, and the planes of the triangles have a distance of at least sqrt(4^n / (4^n + 2)) from the origin (all in exact arithmetic). So the grids stay shape regular and quasi-uniform under refinement.", "quantifier": "every level n, triangle, side and corner", "why_tests_cant": "the claim is about every level; the smallest angle tends to a limit from above and the largest to 90 degrees, so that no finite number of levels shows that they stay in these bounds", "anchors": ["src/shapes.rs:regular_sphere"]}
{"id": "C86", "title": "The area of the spheres", "statement": "The area of regular_sphere(n) is at most 4 pi and at least 4 pi 4^n / (4^n + 2). The integrals of basis functions that add up to 1 add up to the area. The sum of all entries of the Laplace double layer matrix, and of its adjoint, is minus one half of the area; if the quadrature rules converge, the sums of the assembled matrices converge to a number between -2 pi and -2 pi 4^n / (4^n + 2).", "quantifier": "every sphere level, grid numbering, test and trial element with continuous basis functions", "why_tests_cant": "sums over surfaces of every level, in the limit of infinitely many quadrature points", "anchors": ["src/shapes.rs:regular_sphere", "src/boundary_assemblers.rs:BoundaryAssembler::assemble_into_dense", "src/boundary_assemblers/integrands/double_layer.rs", "src/boundary_assemblers/integrands/adjoint_double_layer.rs"]}
{"id": "C87", "title": "Matrices and solutions in floating point arithmetic", "statement": "On regular spheres and flat screens: for every tolerance there is a number of quadrature points from which on all entries of the assembled Laplace and Helmholtz matrices are within the tolerance of the Galerkin matrix, if the arithmetic is accurate enough and vertices, geometry, basis functions, kernel and quadrature rules have small enough errors. Then the computed single layer matrices are positive definite and their linear systems uniquely solvable, and the solutions are within any tolerance of the exact Galerkin solution; the same holds for the hypersingular operator and vectors that add up to 0. On spheres the row sums of the computed double layer matrices, and the column sums of the adjoint ones, obey Gauss' law up to the tolerance.", "quantifier": "every sphere level, screen size, numbering of the grid, element, arithmetic with small relative errors, errors of the data, right-hand side and tolerance", "why_tests_cant": "the claim ranges over all arithmetics and all errors of the data; a test sees one rounding of one matrix", "anchors": ["src/boundary_assemblers.rs:BoundaryAssembler::assemble_into_dense", "src/shapes.rs:regular_sphere", "src/shapes.rs:screen_triangles", "src/shapes.rs:screen_quadrilaterals", "src/laplace.rs", "src/helmholtz.rs"]}
{"id": "C88", "title": "The shapes use the grid builder correctly on all processes", "statement": "screen_triangles and screen_quadrilaterals give the builder points and cells that it accepts (new numbers, existing points, as many points per cell as the element has), in a number that is exactly the capacity it was made with, and all processes then enter the collective creation of the grid with process 0 as the root and the same element; without cells all processes panic before any communication. regular_sphere does so if and only if the degree is 1: with any other degree the builder refuses the first cell on process 0 while the other processes wait for it.", "quantifier": "every refinement level, number of cells, degree, process and number of processes", "why_tests_cant": "the claim is about every level, size and degree, and about what all processes do together", "anchors": ["src/shapes.rs:regular_sphere", "src/shapes.rs:screen_triangles", "src/shapes.rs:screen_quadrilaterals"]}
{"id": "C89", "title": "From the shape to the matrix and the solution in floating point arithmetic", "statement": "The points of a sphere or screen are computed in floating point arithmetic and given to the libraries, which return geometry, basis functions, kernel values and quadrature rules with errors, for these points. Then the grid is the one of the exact shape, and for every tolerance there is a number of quadrature points from which on the assembled Laplace and Helmholtz matrices, and the solution of the Laplace single layer system, are within the tolerance of those on the exact sphere or screen, if arithmetic and libraries are accurate enough.", "quantifier": "every sphere level, screen size, element family, operator, tolerance, batch size, arithmetic with small enough rounding errors, and libraries with small enough errors", "why_tests_cant": "the claim is about all levels and all errors, and about what is close to an exact integral that cannot be computed", "anchors": ["src/shapes.rs:regular_sphere", "src/shapes.rs:screen_triangles", "src/shapes.rs:screen_quadrilaterals", "src/boundary_assemblers.rs:assemble_into_memory", "src/laplace.rs", "src/helmholtz.rs"]}
{"id": "C90", "title": "Helmholtz systems can be solved", "statement": "Let A be the Galerkin matrix of the Helmholtz single layer operator. On every sphere and screen the imaginary part of z^H A z has the sign of the wavenumber or is 0, for all complex vectors z. The linear systems with A have exactly one solution for every wavenumber on screens, and on spheres for all wavenumbers except finitely many in every bounded interval, in particular for all small ones. Whenever the systems with the Galerkin matrix of a Helmholtz operator have exactly one solution, so have the systems with the matrices that assembly returns, also from computed shapes in floating point arithmetic with inexact libraries, and their solutions are within every tolerance of the exact ones, with enough quadrature points and digits.", "quantifier": "every sphere level, screen size, element family with independent continuous basis functions, real wavenumber, right-hand side, tolerance, batch size and arithmetic with small enough rounding errors", "why_tests_cant": "that a matrix of every size and every wavenumber can be inverted is not visible in tests at a few wavenumbers, and resonances are isolated points that tests miss", "anchors": ["src/helmholtz.rs", "src/boundary_assemblers.rs:assemble_into_memory", "src/shapes.rs:regular_sphere", "src/shapes.rs:screen_triangles", "src/shapes.rs:screen_quadrilaterals"]}
{"id": "C91", "title": "Memory is reserved for what is stored", "statement": "Vectors that are created with a capacity get exactly the memory that they need: the vectors of triplets of every batch in the assembly of the singular part, and the vectors of points and of cells in regular_sphere. In particular regular_sphere needs memory in proportion to the grid that it returns.", "quantifier": "every grid, pair of spaces, batch size and batch, and every refinement level", "why_tests_cant": "capacities have no effect on results, so tests do not see them; the reserved memory grows faster than the grid only at levels that no test reaches", "anchors": ["src/shapes.rs:regular_sphere", "src/boundary_assemblers.rs:assemble_batch_singular", "src/boundary_assemblers/helpers.rs:SparseMatrixData::new_known_size"]}
{"id": "C92", "title": "Distributed singular assembly in floating point arithmetic", "statement": "The singular matrices that the processes assemble on their parts of a distributed grid in floating point arithmetic add up, entry by entry and up to a renumbering of the DOFs, to the matrix that one process assembles on the whole grid, up to rounding errors and values that are cut off as too small. Both are within the same bound of the value in exact arithmetic, and the bound does not depend on the number of processes, the distribution of the grid, the schedule and the batch size.", "quantifier": "every distribution of every conforming grid with a ghost layer, number of processes, operator, batch size, schedule and arithmetic with operations of bounded relative error", "why_tests_cant": "processes add different terms in different orders, so results differ in the last digits, and tests with a tolerance on a few grids cannot tell rounding from lost or doubled contributions", "anchors": ["src/boundary_assemblers.rs:assemble_singular", "src/boundary_assemblers.rs:assemble_batch_singular", "src/function.rs:FunctionSpace::new"]}
{"id": "C93", "title": "Several spaces with limited message buffers", "statement": "If MPI buffers messages up to some length and hands longer ones over only to a waiting receiver, and all processes create several spaces one after the other: every execution stops, no process panics, and a process that returns in some execution returns in every one, with the spaces that it gets with unlimited buffers. It returns exactly if it would return from the last construction alone and all processes would return from each of the others alone. So creating several spaces hangs only if creating one of them does, and no process returns from a construction before all processes have called it.", "quantifier": "every number of processes, every list of distributed grids and element families, every buffer length and schedule", "why_tests_cant": "a process may be several constructions ahead or hang in one while others go on; messages of different constructions look alike, so all interleavings of all constructions must be covered", "anchors": ["src/function.rs:FunctionSpace::new"]}
{"id": "C94", "title": "Symmetric spheres and their matrices", "statement": "The spheres that regular_sphere makes are mapped to themselves by the eight turns of a square in the plane of the first two coordinates, with corners of cells in the same order. This is exact also in floating point arithmetic, if rounding is odd and leaves rounded numbers alone, whatever square root is used. In exact arithmetic the spheres have all 48 symmetries of the cube. For every turn there is a renumbering of cells and DOFs such that the matrices of all Laplace and Helmholtz operators have the same entry for turned DOFs as for the DOFs themselves, whatever numbers the grid builder gives to points and cells.", "quantifier": "every refinement level, every turn, every odd rounding, all operators, elements, quadrature rules and options, every numbering by the grid builder", "why_tests_cant": "refinement adds points in an order that has nothing to do with the symmetries, and levels are unbounded", "anchors": ["src/shapes.rs:regular_sphere", "src/boundary_assemblers.rs:BoundaryAssembler::assemble_into_dense"]}
{"id": "C95", "title": "Similar parts of surfaces and blocks of screens", "statement": "If a similarity maps one shape to a part of another one (points to points and cells to cells with their corners in order), then the matrix entries on the large surface for DOFs inside of the part are those on the small surface times a power of the scale that depends only on the operator (for Helmholtz operators with the wavenumber divided by the scale). In particular a square block of a screen is a smaller screen, so the entries for it are those of a screen of its own size, and entries on one screen do not change if both DOFs are shifted to another block. With discontinuous elements all DOFs of the part are inside of it; with other elements, on screens, those of cells that are not in the outermost rows and columns of the block.", "quantifier": "all shapes with a similarity from one to a part of the other; all sizes of screens and positions of blocks, triangles and quadrilaterals, all operators, elements, quadrature rules and options, every numbering by the grid builder", "why_tests_cant": "relates runs on two different grids with unrelated numberings, batches and colours, for all sizes", "anchors": ["src/shapes.rs:screen_triangles", "src/shapes.rs:screen_quadrilaterals", "src/boundary_assemblers.rs:BoundaryAssembler::assemble_into_dense"]}
{"id": "C96", "title": "Dimensions of the standard function spaces", "statement": "For Lagrange elements (continuous and discontinuous), Raviart-Thomas and Nedelec elements of every degree p, the spaces on the shapes can be created and their global size is: on the sphere of level n, p^2 4^(n+1) + 2 for continuous Lagrange, (p+1)(p+2) 4^(n+1) for discontinuous, p(2p+1) 4^(n+1) for Raviart-Thomas and Nedelec; on the screens of n times n squares (pn+1)^2 for continuous Lagrange on triangles and quadrilaterals, and similar formulas for the others. On a distributed grid every process reports this number.", "quantifier": "every degree, every level or size, every grid that the builder makes from the shape, every number of processes", "why_tests_cant": "tests check a few degrees on a few grids; the formulas are for all", "anchors": ["src/function.rs:FunctionSpace::new", "src/function.rs:assign_dofs", "src/shapes.rs:regular_sphere", "src/shapes.rs:screen_triangles", "src/shapes.rs:screen_quadrilaterals"]}
{"id": "C97", "title": "Programs that use the C interface", "statement": "A C program that passes each pointer only to functions for this kind of object and before it frees it, frees an object only after everything that was made from it, changes options only while there is no assembler with them and passes large enough buffers gets exactly the results it would get if pointers were values: a space contains what the grid and the family contained, an assembler contains a copy of its options. None of its calls has undefined behaviour: each returns or panics. With a Laplace operator and spaces of its scalar type on grids of the same kind the call to assemble makes a dense matrix with the sums of the quadrature values as entries. In no program does a call to assemble with a Helmholtz assembler return. Pointers to the numbers of a matrix remain valid until the matrix is freed, whatever else is freed. A program that frees the grid and then uses the space, frees the options and then uses the assembler, or frees a matrix and then reads its numbers has undefined behaviour; more generally every call with a pointer to an object that was freed, never existed or is of another kind, a read beyond the numbers of a matrix and a change of options of a live assembler are undefined behaviour, in every state.", "quantifier": "every sequence of calls of the interface, all contents of grids and families, all options, all buffers", "why_tests_cant": "a test is one program; the rules are about all orders of calls", "anchors": ["src/bindings/space.rs:function_space", "src/bindings/boundary_assemblers.rs:laplace_boundary_assembler_new", "src/bindings/boundary_assemblers.rs:helmholtz_boundary_assembler_new", "src/bindings/boundary_assemblers.rs:boundary_assembler_assemble", "src/bindings/boundary_assemblers.rs:boundary_assembler_assemble_into_memory", "src/bindings/matrices.rs:matrix_dense_data_copy", "src/bindings/matrices.rs:matrix_dense_data", "src/bindings/matrices.rs:matrix_csr_data", "src/bindings/matrices.rs:matrix_csr_indices", "src/bindings/matrices.rs:matrix_csr_indptr"]}
{"id": "C98", "title": "The project's own tests and example hold for all parameters", "statement": "The assertions of the project's tests of function spaces, in Rust and in Python, hold for all grids and degrees and not only for the ones in the tests: numbers of DOFs are in range and distinct on each cell, sizes are the numbers of entities with a DOF, colourings are partitions of the cells into sets without a common vertex or edge, every DOF of a space on one process is owned and has itself as its global number, entities have the expected numbers of DOFs. The test of the options passes for all degrees but the default ones. The test of the singular part passes for the four Laplace operators whenever every DOF belongs to one cell: what the sparse matrix stores is the entry of the dense matrix. The example program never panics and prints on the sphere of level n a square matrix with 4^(n+1)+2 lines whose entries are the Galerkin sums.", "quantifier": "all grids built by the grid builder, all levels of spheres, all degrees and elements, all batch sizes, all schedules of the assembly", "why_tests_cant": "the tests themselves fix the grid, the level and the degree; the assertions are claimed for all of them", "anchors": ["tests/test_space.rs:run_test", "tests/test_space.rs:test_dofmap_lagrange2", "tests/test_space.rs:test_colouring_p1", "python/test/test_function_space.py:test_get_local_dof_numbers", "python/test/test_boundary_assembler.py:test_create_assembler", "python/test/test_boundary_assembler.py:test_assemble_singular", "examples/assembly.rs:main"]}
{"id": "C99", "title": "A Python space is made from the given grid and family", "statement": "The Rust space behind a Python function space is the space that Rust makes from the grid and the element family that the user gave, whatever numbers the C interfaces of the two libraries have for cell types, scalar types and continuities. Its element method returns the elements whose DOFs it has. Grids or scalar types that are not supported raise exceptions.", "quantifier": "all grids of one cell type, all families, degrees, continuities and scalar types, all numberings of the enumerations", "why_tests_cant": "a test uses one family and the numbers of one build; the Python tests use Lagrange families only", "anchors": ["python/bempp/function_space.py:function_space", "python/bempp/function_space.py:recreate_element_family", "python/bempp/function_space.py:recreate_grid", "src/bindings/ndelement.rs:create_lagrange_family_bempp", "src/bindings/ndgrid.rs:single_element_grid_borrowed_create_bempp"]}
{"id": "C100", "title": "How much is sent while a space is created", "statement": "When n processes create a space, each message goes from one of them to another one. The messages from process s to process d have, in this order, these lengths: one number if d follows s, one number if s is the last process, three lists as long as the number of DOFs that s has of d, and two as long as the number of DOFs that d has of s. Altogether exactly 2(n-1)+5n(n-1) messages are sent, with 2(n-1) numbers and five numbers for each DOF that a process has of another one, and at no time before the end more. Every execution ends after exactly two steps for each message. None of this depends on the relative speed of the processes.", "quantifier": "every number of processes, every distributed grid and family, every schedule", "why_tests_cant": "tests run with few processes and do not record messages; the counts are about all schedules", "anchors": ["src/function.rs:FunctionSpace::new"]}
{"id": "C101", "title": "The kernel is not evaluated where it is singular", "statement": "On a grid made of a sphere or screen of any level or size, with quadrature rules whose nodes are inside of the cells, assembly never asks the kernel for a value at two coinciding points: what the kernel object does there, even a panic, has no effect on any outcome of the assembly of any operator, and the matrix is the one of C14. The same holds on every grid if the rules do not pair a point of a test cell with the same point of a trial cell. If the same surface is given as two grid objects then the kernel is evaluated at coinciding points.", "quantifier": "every sphere and screen, every numbering by the grid builder, every family, operator, kernel object, rule with inner nodes, batch size and schedule", "why_tests_cant": "a value at coinciding points (infinity, zero or NaN) only shows for the grid and rule that hit it", "anchors": ["src/boundary_assemblers.rs:BoundaryAssembler", "src/boundary_assemblers/cell_pair_assemblers.rs:SingularCellPairAssembler", "src/boundary_assemblers/helpers.rs:KernelEvaluator", "src/boundary_assemblers/helpers.rs:equal_grids"]}
{"id": "C102", "title": "When functions of a continuous Lagrange space are continuous", "statement": "On the spheres and screens of the library, a coefficient vector in a Lagrange space with standard continuity gives one function on the surface, and this function is continuous, for every vector of coefficients, if the degree is 1 or 2 or if all cells go through their common edges in the same direction. The cells do so on all screens of quadrilaterals and on the screen of two triangles; they do not on larger screens of triangles and on all spheres. There, from degree 3 on, there is a basis function that has the value 1 at a point of the surface seen from one cell and 0 at the same point seen from the neighbour: the DOFs of an edge are not reordered for cells that go through the edge in the other direction.", "quantifier": "every sphere and screen, every numbering by the grid builder, every degree, every coefficient vector, every point", "why_tests_cant": "a test evaluates some functions at some points of one grid; continuity is about all points of all common edges", "anchors": ["src/function.rs:assign_dofs", "src/function.rs:FunctionSpaceTrait::cell_dofs", "src/shapes.rs:regular_sphere", "src/shapes.rs:screen_triangles", "src/shapes.rs:screen_quadrilaterals"]}
{"id": "C103", "title": "Coefficients of Lagrange functions are point values, and systems of every degree are solvable", "statement": "In a Lagrange space of any degree, with standard continuity or discontinuous, the coefficient of a DOF is the value of the function at the point of the DOF, on every cell that has the DOF; for standard continuity, DOF number k of a vertex or edge of the grid is the value at point number k of this vertex or edge. Different coefficients give different functions, and coefficients that are all 1 give the function 1. Consequently the Laplace single layer matrix is positive definite, the Helmholtz single layer systems are uniquely solvable except for finitely many wavenumbers in each bounded interval, and the Laplace hypersingular form is 0 exactly for the constants, for every degree on every sphere and screen.", "quantifier": "every degree (from 0 for discontinuous spaces), every serial grid for the values, every sphere and screen for the matrices, every coefficient vector, every cell and DOF", "why_tests_cant": "a test evaluates some functions of low degree; that all degrees are interpolating and give definite matrices is a statement about infinitely many elements and grids", "anchors": ["src/function.rs:assign_dofs", "src/function.rs:FunctionSpaceTrait::cell_dofs", "src/laplace.rs:single_layer", "src/laplace.rs:hypersingular", "src/helmholtz.rs:single_layer"]}
{"id": "C104", "title": "Which Lagrange spaces contain the spaces of lower degree, and how their solutions compare", "statement": "A discontinuous Lagrange space of degree q contains every Lagrange space of degree at most q on the same grid, continuous or not. With standard continuity, on the spheres and screens of the library, the space of degree q contains the space of a lower degree p >= 1 if and only if q <= 2 or all cells go through common edges in the same direction: on spheres, only degree 1 in degree 2; on screens of quadrilaterals, always. For spaces that contain each other the Laplace single layer form of a function does not depend on the space, the Galerkin solution of the smaller space is the best approximation, in the energy norm, of the solution of the larger space, and its energy is not larger.", "quantifier": "every pair of degrees, every serial grid for discontinuous spaces, every sphere and screen for continuous ones, every function and every right-hand side", "why_tests_cant": "a test raises the degree on one grid; that every function of one space belongs to another one, or that some function never does, ranges over all functions, degrees and grids", "anchors": ["src/function.rs:assign_dofs", "src/function.rs:FunctionSpaceTrait::cell_dofs", "src/shapes.rs:regular_sphere", "src/shapes.rs:screen_quadrilaterals", "src/laplace.rs:single_layer"]}
{"id": "C105", "title": "The script that runs the examples runs all of them", "statement": "The file examples.sh that find_examples.py writes contains, for every file of the examples directory that is an example, in the order of the directory, exactly the commands for it: cargo with the command and options of the first line that starts with //? (run without options if there is none), with the features of the command line added to its own ones, once, or on 2 and on 4 processes if {{NPROCESSES}} appears. The script succeeds if and only if all commands do, and nothing runs after a failure. The file is written unless features are given and some example has --features in its options in another form than once followed by a quoted list.", "quantifier": "every directory, every order of its files, every text of the examples, every list of features, every outcome of the commands", "why_tests_cant": "a test runs the script on the two examples of the repository; names, directives and features are arbitrary texts", "anchors": ["find_examples.py:files", "find_examples.py:lines", ".github/workflows/run-tests.yml:Run examples"]}
{"id": "C106", "title": "Assemblies that run at the same time do not influence each other", "statement": "When several calls of assemble_into_memory run at the same time, each with its own part of one memory, then a call that returns has left in its part exactly what it leaves there when it runs alone; memory outside the parts is not changed; two tasks, of the same call or of different ones, never access the same entry at the same time; no call waits for another one, and all calls return.", "quantifier": "every number of calls, all their arguments, all separate parts of a memory, every interleaving of the loads and stores of all tasks of all calls", "why_tests_cant": "a test sees one interleaving of a few calls; entries are written through raw pointers, so that neither the compiler nor a length check keeps a call inside its part", "anchors": ["src/boundary_assemblers.rs:BoundaryAssembler::assemble_into_memory", "src/boundary_assemblers.rs:assemble_nonsingular_part", "src/boundary_assemblers/helpers.rs:RawData2D"]}
{"id": "C107", "title": "Entries for functions that are far apart decay with the distance", "statement": "If the functions of two DOFs are at least d apart, their entry in the single layer matrix is at most A A' / (4 pi d), in the double layer and adjoint double layer matrices at most A A' / (4 pi d^2) (with wavenumber k: times the square root of 1 + k^2 d^2), and in the hypersingular matrix at most (C C' + k^2 A A') / (4 pi d), where A and A' are the quadratures of the absolute values of the two functions and C and C' those of the lengths of their surface curls.", "quantifier": "all grids, spaces, quadrature rules, surfaces, wavenumbers and distances, all eight operators, exact arithmetic", "why_tests_cant": "tests compare single entries with stored numbers; the bound must hold for every pair of functions and every distance (compression of far parts of matrices relies on it)", "anchors": ["src/boundary_assemblers.rs:BoundaryAssembler::assemble", "src/boundary_assemblers/cell_pair_assemblers.rs:NonsingularCellPairAssemblerWithTestCaching", "src/boundary_assemblers/integrands.rs", "src/laplace.rs:assembler::single_layer", "src/helmholtz.rs:assembler::single_layer"]}
{"id": "C108", "title": "Helmholtz matrices depend continuously on the wavenumber", "statement": "Every entry of each Helmholtz matrix is a continuous function of the wavenumber k, also for cells that touch or coincide, and for small k it tends to the entry of the Laplace matrix. For k and k' the single layer entries differ by at most |k - k'| / (4 pi) times the double quadrature of the absolute value of the product of the two functions, double layer and adjoint double layer entries by at most |k^2 - k'^2| / (8 pi) times it (k, k' not negative); for the hypersingular matrix the bound also has the surface curls and the Laplace kernel in it.", "quantifier": "all grids, spaces, quadrature rules, surfaces and all pairs of wavenumbers; exact arithmetic", "why_tests_cant": "tests use one wavenumber; continuity is a statement about all of them (frequency sweeps and low frequencies rely on it)", "anchors": ["src/helmholtz.rs:assembler::single_layer", "src/helmholtz.rs:assembler::hypersingular", "src/boundary_assemblers.rs:BoundaryAssembler::assemble", "src/boundary_assemblers/integrands.rs"]}
{"id": "C109", "title": "The C interface used from several threads", "statement": "The functions of the C interface take no locks. If no call frees or changes an object while a call of another thread uses it (or something it refers to), then all results and the memory at the end are those of the same calls made one after the other, in the order in which they ended, each thread making the calls of its own program. Threads that share the objects that were there when they started, and free or change only objects they made themselves, always meet this condition, and the shared objects stay as they were. Without the condition it fails: if two threads set the same options, one of the two changes can be lost although both calls return.", "quantifier": "all numbers of threads, all programs whose next call depends on the earlier results, all schedules of begins and ends of calls, all views of the memory a call can have while others end", "why_tests_cant": "tests run one thread; the claim is about all schedules of all programs", "anchors": ["src/bindings/boundary_assemblers.rs", "src/bindings/space.rs", "src/bindings/matrices.rs", "src/bindings.rs", "python/bempp/function_space.py"]}
{"id": "C110", "title": "Frequency sweeps", "statement": "The entries of the matrices assembled with the Helmholtz operators are analytic functions of the wavenumber. So for square matrices, if the systems of equations with the assembled matrix have exactly one solution for one wavenumber, they have exactly one for all wavenumbers except finitely many in each bounded interval; where they have exactly one, the solution depends continuously on the wavenumber and the right-hand side. If the systems with an assembled Laplace matrix have exactly one solution, so have those of the same Helmholtz operator for all small wavenumbers, and the solutions tend to the Laplace solution. On every sphere and screen of the library, with enough quadrature points, the assembled single layer systems have exactly one solution for all wavenumbers but finitely many in each bounded interval, and how many points are enough does not depend on the wavenumber.", "quantifier": "all pairs of spaces, quadrature rules, geometries, wavenumbers, right-hand sides and tolerances; all four operators", "why_tests_cant": "a test solves at a few wavenumbers; the claim is about all but finitely many, and about limits", "anchors": ["src/helmholtz.rs:assembler::single_layer", "src/helmholtz.rs:assembler::double_layer", "src/helmholtz.rs:assembler::adjoint_double_layer", "src/helmholtz.rs:assembler::hypersingular", "src/boundary_assemblers.rs:BoundaryAssembler::assemble"]}
{"id": "C111", "title": "Addresses of freed objects can be used again", "statement": "A C program that uses only pointers to objects that it has not freed, and frees nothing that is still used, gets the same results whichever free addresses the allocator gives out, also when it gives out the address of an object that was freed; only the addresses themselves differ. No call has undefined behaviour, two objects that are there at the same time have different addresses, and what is in memory at the end is what was made and not freed. A program that uses options after it freed them can read other options that were made later at the same address.", "quantifier": "all allocators that give out free addresses, all disciplined programs, all results of the assembly", "why_tests_cant": "tests run with one allocator, and whether an address is used again depends on the history of all calls", "anchors": ["src/bindings/boundary_assemblers.rs", "src/bindings/space.rs", "src/bindings/matrices.rs", "src/bindings.rs"]}
{"id": "C112", "title": "A panic in one of several assemblies that run at the same time does not influence the others", "statement": "Several calls of assemble_into_memory run at the same time, each on its own part of one memory, and some of them panic at any moment (an external function panics, or a rule does not exist). A call that can return when it runs alone returns, with exactly the result it has alone, whatever the others do; also the calls that panic write only inside their own parts and do there only what they could do alone; there is no data race; and no call needs another one to make a step.", "quantifier": "all lists of calls with operators of the library on spaces made on one process, all external functions with results of the right sizes that may panic at any call, all interleavings, all moments of panics", "why_tests_cant": "the panic would have to come at every possible moment of every interleaving; tests panic, if at all, in one call that runs alone", "anchors": ["src/boundary_assemblers.rs", "src/boundary_assemblers/helpers.rs"]}
{"id": "C113", "title": "The singular part is sparse and the number of colours does not grow with the grid", "statement": "On regular_sphere(n) exactly four triangles meet at each of the first six points and six at every other point, so that 104*4^n - 48 ordered pairs of triangles touch; on the screens (3n-2)^2 pairs of quadrilaterals and 26n^2 - 32n + 10 pairs of triangles touch; at most 13 triangles (9 quadrilaterals) touch a cell. Hence the sparse matrix that assemble_singular makes has exactly dim*dim entries (with duplicates) for each of these pairs, however the work is divided, and the colouring of every space on these grids has at most 13 (9) colours at every level. If the grid is distributed in any way, the processes store together exactly as many entries as one process with the whole grid, and none of them more than 13*dim*dim (9*dim*dim) for each cell that it owns.", "quantifier": "all levels n, all three functions of shapes, all elements with the same number of functions on all entities of a dimension, all operators, batch sizes and schedules", "why_tests_cant": "a test counts on a few small grids; the claim is about the growth with the level", "anchors": ["src/shapes.rs::regular_sphere", "src/shapes.rs::screen_triangles", "src/shapes.rs::screen_quadrilaterals", "src/boundary_assemblers.rs", "src/function.rs::cell_colouring"]}
{"id": "C114", "title": "The batch size bounds the tasks and determines how many there are", "statement": "With a batch size b of at least 1, every task of dense assembly has at least one and at most b test cells and at least one and at most b trial cells, and makes at most b*b*dim*dim additions; every batch of the singular part has at least one and at most b pairs of cells. There are not more tasks than needed: for a pair of colours the number of groups of b test cells times the number of groups of b trial cells, for a kind of touching pairs the number of groups of b pairs. On the shapes of any level a call runs at most 170 parallel sections (82 on quadrilaterals) one after the other, in them at most (N/b + 13)^2 + 1 tasks for N cells, and 64*16^n - 104*4^n + 48 pairs of triangles of regular_sphere(n) are integrated with the regular rule and the others in at most (104*4^n - 48)/b + 28 batches.", "quantifier": "all batch sizes of at least 1, all grids, spaces, operators; all levels of the shapes", "why_tests_cant": "a test does not see tasks, since results do not depend on them; and the claims are about all sizes", "anchors": ["src/boundary_assemblers.rs::assemble_nonsingular_part", "src/boundary_assemblers.rs::make_cell_blocks", "src/boundary_assemblers.rs::set_batch_size", "src/shapes.rs::regular_sphere"]}
{"id": "C115", "title": "Several threads can use the C interface although addresses of freed objects are used again", "statement": "With any allocator that never gives out the address of a live object, and any schedule: if no call changes an object that a call of another thread uses at the same time, and everything that calls use exists, then the calls of all threads, in the order in which they ended, are a program with one thread that has the same results and the same memory at the end; if this program is disciplined, the threads get what they would get if everything behind the pointers were a value, up to addresses, and no call has undefined behaviour. Threads that share what was there at the start, pass only pointers that they got and did not free, and free and change only what they made and only while they hold nothing made from it, never conflict; what was there at the start stays as it is, the memory contains exactly this and what the threads made and did not free, and each such thread gets the results that it could get if it were alone. Without this condition a thread that frees twice destroys an object of another thread without any error.", "quantifier": "all programs of any number of threads, all allocators, all interleavings of calls", "why_tests_cant": "the reuse of an address depends on the allocator and on the schedule; a test sees a few of them", "anchors": ["src/bindings.rs", "src/bindings/space.rs", "src/bindings/boundary_assemblers.rs", "src/bindings/matrices.rs"]}
{"id": "C116", "title": "Python programs do not see which addresses the allocator gives", "statement": "Whatever a Python program does with function spaces, options objects and Laplace assemblers, and whatever free addresses the allocator gives, also those of objects that were freed before: the calls end as they do when every object has an address of its own, so as if everything were a value (C74); no call uses or frees something that is gone or something else that is now at its address; afterwards there is one Rust assembler per assembler and one Rust options object per options object, at different addresses, each assembler refers to the options that it was created with, and the Rust space, grid and family of each space exist and belong together.", "quantifier": "every program (sequence of calls with any arguments), every allocator that gives only addresses that are not in use, every moment", "why_tests_cant": "a pointer kept too long does harm only if the allocator gives its address to another object, which depends on the allocator and on the history", "anchors": ["python/bempp/function_space.py: FunctionSpace, function_space", "python/bempp/assembly/boundary.py: BoundaryAssemblerOptions, BoundaryAssembler, create_laplace_assembler", "src/bindings/boundary_assemblers.rs: laplace_boundary_assembler_new", "src/bindings/space.rs"]}
{"id": "C117", "title": "Which calls of the Python interface may overlap", "statement": "A call that no other call interrupts does what it does in a program without threads (C37), after any calls before it. Any number of calls may overlap in any way if no two of those that make or delete spaces work on the same grid or the same family, and no space is deleted while one of its methods runs (methods of spaces may overlap with everything else, also on the same grid): no call is undefined, a call raises only if one of its conversions fails, and the Rust space, grid and family of every space exist at every moment; when all are over, nothing is lost, and if none raised the counts are the numbers of spaces. Calls that overlap, in threads or because the garbage collector deletes a space in the middle of function_space, are not safe on the same grid or family: a count can lose an update, so that the Rust grid of a space that is in use is freed and its use is undefined; a Rust grid can be made twice or be kept for ever; function_space can raise AttributeError. A method of a space that is deleted meanwhile is undefined. However calls overlap, no call waits for another one: after 16 steps of its own it is over. Calls that may overlap can be finished from every state that they get to.", "quantifier": "every sequence of calls before, every interleaving of the single steps (reads and writes of attributes, calls of Rust) of any number of calls", "why_tests_cant": "the result depends on where the interpreter switches between threads and when the garbage collector runs", "anchors": ["python/bempp/function_space.py: FunctionSpace, function_space"]}
