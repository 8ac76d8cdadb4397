# Formal model of bempp-rs: design

The model and its theorems are in `lean/Verif`. `properties.jsonl` lists the properties, `MANIFEST.json` says which
theorems state them, `seeded/LOG.jsonl` records wrong programs that were tried, `seeded/SWEEP.jsonl` small edits made by a script. `tools/` generates the two JSON files
and the table in section 7.

How to read `seeded/LOG.jsonl` (570 entries). `first_failures` are the declarations that no longer compile, `theorems_failed` the property theorems that are these or
depend on them. In 349 entries the first failures are only helper lemmas: there the run shows that the proof of the property broke, not that its statement is false of the
edited program, and some of the theorems listed (those whose claim the edit does not touch) failed only because they share a lemma. `survived` are the claimed properties
without such a theorem. Some of the later runs used a scratch tree with only the modules that were thought relevant (to save time), so theorems outside of it
are not listed. In 8 entries nothing failed at first; their notes say why or what was tightened. When an edit was planned before the theorem that catches it was written,
the note says so.

## 1. What is modelled, what is not

| source | model | remarks |
|--------|-------|---------|
| `src/function.rs` `assign_dofs` | `Model/AssignDofs` | whole function |
| `src/function.rs` `cell_colouring` | `Model/Colouring` | whole function; the `HashMap` is a partial function |
| `src/function.rs` `FunctionSpace::new`, accessors | `Model/FunctionSpace`, `Model/Mpi`, `Model/Crash`, `Model/Sequence` | one sequential program per process; three channel semantics (buffered, rendezvous, buffered up to a length), and the first one with processes that stop |
| `src/boundary_assemblers.rs` options | `Model/Options` | whole type |
| `src/boundary_assemblers.rs` enumeration, batching | `Model/Blocks` | all loops; the `while` loops are relations, so that divergence can be stated |
| `src/boundary_assemblers.rs` parallel sections | `Model/Parallel` | every interleaving of loads and stores; every shape of rayon's reduction tree |
| `src/boundary_assemblers.rs` `assemble*` | `Model/Assembly`, `Model/Concurrent` | all public assembly functions and the two batch functions |
| `src/boundary_assemblers/helpers.rs` | `Model/Assembly`, `Model/CellPair` | `RawData2D` is the shared buffer of `Model/Parallel` |
| `src/boundary_assemblers/cell_pair_assemblers.rs` | `Model/CellPair` | three assemblers as state machines |
| `src/boundary_assemblers/integrands.rs`, `integrands/*` | `Model/Integrands` | all integrands, sum and scalar multiple; `none` is an unchecked read outside its array |
| `src/laplace.rs`, `src/helmholtz.rs` | `Model/Operators` | all eight constructors |
| `src/shapes.rs` | `Model/Shapes`, `Model/ShapeCalls`, `Model/Reserve` | the points and cells that process 0 gives to the grid builder; the calls of all processes, with degree and capacities; reserved memory |
| `python/bempp/function_space.py`, `python/bempp/assembly/boundary.py` | `Model/Python` | the state the wrappers keep: reference counts, liveness, options |
| the same, `src/bindings/space.rs`, `matrices.rs`, `boundary_assemblers.rs` | `Model/PythonData` | the numerical data that passes from Rust to Python: arrays, strides, lifetimes; `c_api_tools` is not modelled |
| the same, whole programs | `Model/PythonSession` | life of the Rust options and assemblers; `helmholtz_boundary_assembler_new`, which no Python function calls, is in `Model/CInterface` |
| `recreate_grid`, `recreate_element_family`, `src/bindings/ndgrid.rs`, `ndelement.rs` | `Model/PythonRecreate` | the data and the numbers of enumerations that are passed; not the lifetimes of the pointers into `ndgrid`'s memory |
| `src/bindings/*` for programs in C | `Model/CInterface` | the heap of boxed objects with references between them, the lists of types of `concretise_types`, panics and undefined behaviour; a pointer into a matrix is modelled by the matrix and the array; addresses are not reused here (they are in `Model/Allocator`, C111) |
| dense assemblies at the same time, with panics | `Model/ConcurrentPanic` | a call that has panicked is one that makes no further step; unwinding (dropping of local values) does not touch the buffer and is not modelled |
| Python sessions, freed addresses used again | `Model/SessionAddresses` | the two parts of the memory (spaces with grids and families; options and assemblers) have an allocator each, so that equal addresses in both are allowed |
| Python calls that overlap | `Model/PyThreads` | Rust functions run one at a time; only `function_space.py` |
| threads that call the C interface, freed addresses used again | `Model/AllocThreads` | as for C109: each object is looked at once between the begin and the end of a call; the allocator is synchronised |
| the same, freed addresses used again | `Model/Allocator` | the allocator is a relation between the heap, the addresses given out so far and the next address; one thread |
| the same, several threads | `Model/CThreads` | calls are not atomic: between begin and end a call can see each object as it was at any time; changes take effect at the end; the allocator is synchronised |
| `tests/test_space.rs`, `python/test/*`, `examples/assembly.rs` | `Model/Tests` | the tests and the example as programs with grid, level and degree as parameters; not the comparisons with numbers from another program |
| `find_examples.py` | `Model/FindExamples` | the text of `examples.sh` for every directory of examples; not the parser of the command line |
| index arithmetic of `src/boundary_assemblers.rs`, `src/shapes.rs` | `Model/Words` | machine integers of any size, overflow panics or wraps around |
| `src/function/function_space/serial.rs`, `common.rs` | `Model/LocalSpace` | whole type; shares `assign_dofs` and the colouring loops, whose text is the same |

Not modelled:

* The bits of floating point numbers. Scalars are an arbitrary type with operations. A theorem that needs algebraic
  laws says so by a type class (`AddCommMonoid`, `Field`, ...). Theorems without laws (C08, C10, C25 and others) hold bit
  for bit also in floating point arithmetic. C63, C71, C72, C73, C77 and C78 bound what rounding changes in C14, the shapes, C26 to C28, C41, C16, the limit of C76 and the data of the libraries, in the standard model (each
  operation has a relative error of at most `u`; no overflow, no underflow); C80 adds a bounded range of exponents.
* The external crates `ndgrid`, `ndelement`, `green-kernels`, `bempp-quadrature`, `rlst`, `mpi`, `rayon`. They are
  parameters of the model; what is assumed of them is written down as a contract, section 3.
* Overflow of `usize`, except in `Model/Words` (C70), which has the index arithmetic again with machine integers; allocation failure, performance, `Display` and other trait plumbing.
* The writes a panicking task makes before it panics, except in C39 and in `Model/Memory` (C67), which has the batch functions
  again with panics and undefined behaviour told apart.
* Source files outside the crate's module tree: `boundary_assemblers/assemblers.rs`, the parallel space of
  `function/function_space/*` and `bindings*` (`pub mod bindings` is commented out in `src/lib.rs`). The bindings are
  modelled where the Python wrappers call them.
* `create_parallel_grid` (`ndgrid`).
* How long anything takes (what the benchmark computes, for any level, is `C113_benchmark`), and the tests that compare with numbers from another program.

## 2. Conventions

* A Rust panic is `none`, `Prog.panic` or `Outcome.panicked`. A loop is a fold or a recursive relation. `&mut` becomes a
  returned value. Nondeterminism (schedules, reduction trees, message orders) is a relation between inputs and outcomes;
  theorems speak about every outcome (`∀ out, Assemble .. out ↔ out = some M`), so they also say that there is one.
* `HashMap` is an association list or a partial function; a look-up of a missing key panics.
* `Model/*` models code and cites lines. `Spec/*` are contracts and specifications that do not mention the model's
  helpers. `Lemmas/*`, `Proofs/*` are proofs. `Props/*` contain the theorems `Cnn_*`, each file with `example`s that meet
  the hypotheses (an octahedron, two processes sharing it, a strip of triangles and quadrilaterals, ...).
* A theorem with suffix `_partial` proves part of its property; what is missing is said beside it.

## 3. Contracts of the external crates

| contract | about | where |
|----------|-------|-------|
| `Grid.WF`, `Grid.Edges`, `Grid.Vertices`, `Surface` | `ndgrid`: local indices count entities, sub-entities and connected entities are consistent | `Spec/Contract`, `Spec/Assembly` |
| `Grid.Conforming` | two cells meet in nothing, a vertex, an edge or coincide (an assumption about the user's grid, proved for the shapes: C47) | `Spec/Assembly` |
| `ElementDofs.WF`, `FamilyOn`, `Colourable` | `ndelement`: the DOFs of an element are numbered by its sub-entities, equal entities have equal numbers of DOFs; `cell_colouring` finds DOFs at the lowest dimension it looks at | `Spec/Contract` |
| `Distributed`, `PartOf`, `GhostLayer` | `ndgrid`'s parallel grids: ownership and global indices are consistent, local grids are parts of one grid with one layer of ghost cells | `Spec/Distributed`, `Spec/Partition` |
| `GeometryOk`, `TabulateOk` | geometry maps and element tables write the values of fixed functions into buffers of the right size | `Spec/Assembly` |
| `LagrangeElement` | `ndelement`: Lagrange elements have equally spaced points, on each edge from its first to its second end (C102, C103) | `Spec/Lagrange` |
| `NodalBasis` | `ndelement`: Lagrange elements, continuous and discontinuous, have one basis function for each equally spaced point, 1 at this point and 0 at the others, and derivatives to match (C103 only) | `Spec/Nodal` |
| `Kernel.Computes` | `green-kernels` overwrites its result buffer with kernel values | `Spec/Assembly` |
| `RegularOk`, `SingularOk` | the quadrature crates return the rules for degrees and connectivities asked for | `Spec/Assembly` |
| `FromAijOk` | `CsrMatrix::from_aij` sums triplets | `Spec/Sparse` |
| `Built` | `ndgrid`'s builder makes a grid with the points and cells it was given, in some numbering | `Spec/Builder` |
| `BuilderState.call` | `ndgrid`'s builder refuses numbers that are used twice, unknown points, and cells with a wrong number of points | `Spec/ShapeCalls` |
| MPI | messages between two processes arrive in order; sends complete at once (buffered), or wait for the receiver (rendezvous), or do the first for messages of at most L numbers and the second for longer ones (eager limit) | `Model/Mpi` |
| rayon | every task runs once; `reduce` uses some binary tree over the items in order | `Model/Parallel` |

Each contract is satisfiable: the `example`s construct instances.

## 4. Per property

| id | model | proof |
|----|-------|-------|
| C01-C05 | `assign_dofs` over the grid and element interface | loop invariant over the flattened list of visits; numbering invariant stated as a permutation of `range size` |
| C06-C07, C50 | `cell_colouring` | loop invariant: partition, and the colours recorded at entities; which lower colours were blocked |
| C51 | `assign_dofs` | loop invariant: the list of places numbered so far |
| C52 | dense assembly on two numberings of the grids | both matrices are the Galerkin sum (C14); the DOFs correspond by C45; the sum is transported along the bijection |
| C53 | dense assembly on a pair of surfaces and its image | the integrands scale pointwise (orthogonality of A), then as C52; the Green's functions are homogeneous |
| C54 | the two families of constructors | both matrices are the same Galerkin sum. Which point the derivatives of the Green's functions belong to is fixed by `laplaceGreen_gradient` and `helmholtzGreen_gradient`: the second point, which assembly passes as the trial point |
| C55 | the accessors of Python's `FunctionSpace`, arrays with unwritten elements, out-of-range writes | induction over the copying loop |
| C56 | Python's `assemble`, `assemble_singular`, `create_laplace_assembler`; strides of the array; the Rust matrix's lifetime | the layouts agree; C14 gives the entries |
| C57 | `LocalFunctionSpace` | same DOF map; C18 for numbers and owners |
| C58 | spaces that contain each other | entries as bilinear forms in the global basis functions (`doubleSum_terms`) |
| C59 | parts of surfaces (`Spec/Locality.lean`) | the cells outside contribute nothing to DOFs inside (`doubleSum_part`) |
| C60 | functions represented by coefficient vectors (`Spec/Nested.lean`) | the form as a double sum of represented functions (`form_terms`) |
| C61 | Helmholtz operators with `w` and `-w` | conjugation commutes with the sums (`doubleSum_hom`), `helmholtzGreen_conj` |
| C62 | Laplace and Helmholtz single layer | term by term with `helmholtzGreen_norm` |
| C63 | dense assembly over the number types `Fl A` of Spec/Rounding (operations with relative error `u`) | forward error analysis of the formulas and loops (`Apx`, `Rounded.apx`, `regularValue_apx`, `singularValue_apx`), accumulation in the matrix in the order of the additions (`applyOps_fold`, `Apx.ops`) |
| C64 | `FunctionSpace::new` with an eager limit; waiting relation between events (`Spec/Waiting`) | an event that is not accessible in the waiting relation never takes place (`never_done`, with `blocked_reach`); in an execution that cannot continue every accessible event has taken place (`free_done`); on finitely many events accessible means that no cycle can be reached (`free_iff`) |
| C65 | the options in the assembly functions | congruence of every stage in the values it asks the options for; C23 for what these values are |
| C08-C09 | tasks of dense assembly as lists of `+=`; interleaving of loads and stores; reduction trees | disjoint addresses from C04 and C07; generic interleaving theorem by invariant over steps |
| C10-C11 | batching loops | batches concatenate to the input; divergence for batch size 0 (C11 is partial: false for 0, negation proved) |
| C12-C13, C40 | `make_cell_blocks`, `get_pairs_if_smallest`, local vertex pairs, `neighbours` | a pair is pushed exactly at its smallest shared vertex; table of local pairs |
| C14, C15, C17, C39 | `assemble`, `assemble_into_memory`, column-major buffer | composition; sums in a commutative monoid. `C14_operators` starts from the public constructors |
| C16 | `assemble_singular` | partial: false if all singular values are below the cut-off 1e-10 (negation proved); proved otherwise, and the error is bounded in general |
| C18-C21 | `FunctionSpace::new` as message-passing programs | every reachable configuration is a prefix of fixed traces; C21 is partial: deadlock under rendezvous sends, negation proved; with an eager limit, safety always, termination if at most one process has long requests (`eager_progress`), deadlock if the set of actions that wait for each other is closed (`blocked_reach`); C64 has the exact criterion |
| C22, C45 | singular assembly and numbering per process | C12 on every process with the partition contract; without the ghost layer (`SplitSetting`) the same sum runs over the pairs that the owner of the test cell knows (`OwnerHas`), and two triangles without ghost cells show that the layer is needed |
| C23, C38, C44 | options as state machine | induction over operation lists |
| C24, C25 | integrands with checked reads; cell-pair assemblers as state machines | case analysis; invariant over call histories |
| C26-C29, C41 | operators over a commutative ring or field | algebra on the quadrature values, then C14 |
| C30-C32, C42, C48, C49 | `regular_sphere` | induction over the level with a mesh invariant; over the reals for geometry |
| C33-C35 | `screen_*` | arithmetic over all n. C34 is partial: the screens cover [0, n/(n+1)]² only, negation proved for every n |
| C36 | dense assembly on grids of several cell types | no run returns a matrix, for every such pair of spaces; `element` of a space, type by type |
| C66 | Python reference counts | refinement of a ledger of live spaces and failed calls (`Spec/Ledger.lean`), without reference counts or Rust objects |
| C67 | the per-pair assemblers and batch functions, with panic and undefined behaviour as different outcomes (`Model/Memory.lean`) | shape invariants of all buffers for externals that only keep shapes; postconditions of panicking runs; agreement with the model of the other properties |
| C68 | `FunctionSpace::new` with buffered sends, processes that stop and messages of these that are lost (`Model/Crash.lean`) | the invariant of C21 with lost messages appended to the channels (`CrashConfig.Inv`); a number that every step decreases; induction over time stamps shows what a stuck execution looks like (`inv_stuck`) |
| C69 | several calls of `FunctionSpace::new` as one program (`Model/Sequence.lean`) | matching traces followed by other matching traces match (`Matching.append`), so the general theorem about networks applies; the other order by running the two programs along a trace |
| C70 | batching, positions of entries, the length test of `assemble_into_memory`, numbers of points and cells, with machine integers (`Model/Words.lean`) | every intermediate result is bounded by the number of entries, twice the length of a list or the number of points; if the number of entries is too large, the largest word is the position of an entry |
| C71 | `regularSphere`, `screenTriangles`, `screenQuadrilaterals` with the scalars `Fl A`: operations with relative errors (`Spec/Rounding.lean`, `Spec/ShapeRounding.lean`) | a new point is the sum of the ends with three small factors in each coordinate and a positive factor, so norms depend on the last division only and dot products stay nonnegative; distances to the exact points grow by the inverse norms of the midpoints, whose product over all levels is below sqrt 3 (C48's cosines telescope); volumes over triangles shrink at most by 4 per level; for screens, all coordinates have the same denominator |
| C72 | dense assembly with the scalars `Fl A`, `Fl B` (as C63) | C63 for both entries; the exact entries and the sums of absolute values are symmetric by the lemmas of C26, C27, C41; exact row and column sums are zero by those of C28 |
| C73 | `assemble_singular_part` and `assemble_singular` with the scalars `Fl A`, `Fl B`; `from_aij` rounds once per triplet (`FromAijRounded`) | the triplets are those of C16 with rounded values; each value has the error of C63; sums over the triplets of an entry are sums over touching cells (`touchingSum`) |
| C74 | `Model/PythonSession`: options objects, assemblers (which refer to Rust options), spaces and assembly in one program; a heap of Rust objects, undefined behaviour explicit | refinement of sessions in which everything is a value (`Spec/Session`), both directions; the invariant `Agrees`; C56 for the last call. That no call is undefined says something because in any state, reachable or not, a call that does not find its Rust objects is (`Spec/SessionMisuse`: lost options, lost assemblers, assemblers whose options are lost) |
| C75 | as C53, with the geometry of a cell computed from its vertices (`Spec/Vertices`: shape functions, cross product, square root) | an orthogonal matrix maps cross products to cross products up to its determinant (adjugate); a reflection is a rotation with a negative scaling, then C53 |
| C76 | the matrix of C14 for a sequence of options and rules; the limit is stated with Mathlib's integral over the reference cells (`Spec/Convergence`) | the tensor product of two convergent rules converges on continuous functions (uniform continuity, finite cover); the integrands are continuous for disjoint cells; finite sums of limits. Convergent rules exist (lattice points, Mathlib's `tendsto_tsum_div_pow_atTop_integral`), so the hypotheses can be met |
| C77 | C63 and C76 together; the number type of the program is `Fl` of an arbitrary arithmetic, quantified after the tolerance and the number of points | triangle inequality between the computed entry, the entry in exact arithmetic and the integral; only finitely many entries and connectivities, so one number of points and one unit roundoff serve all of them. Example: arithmetic with any number of binary digits |
| C78 | C63 for the data that the libraries return, and exact data at the exact nodes, with exact weights (`Spec/Inexact`: `Within`, `OperatorData`, `Quadrature.Within`, `Quadrature.Nodes`, `scaleEntry`) | errors of products add up, errors of sums do not grow (`Factored`), division by an integration element with a relative error; then the triangle inequality with C63 and C76. Example: Laplace kernel and weights rounded to p digits |
| C79 | the shapes of C30–C35, grids made from them (C46, C47) with coordinates of the corners (`Spec/ShapeSurface`: `LibraryShape`, `HasCorners`), the integrals of C76 | cells with a common point have a common corner (C33, C35: coefficients of a point determine its cell); integrals of 1/r and of the normal derivative over a flat cell are bounded in coordinates along the cell (`PowerIntegrals`, `FlatIntegrals`); then C76. Example: Laplace single layer on spheres of all levels with a rule that is exact for the finitely many integrands (`ExactRules`) |
| C80 | arithmetic with a bounded range (`Spec/Range`: `Ranged`), the sizes of all intermediate results (`Scale`, a number type without signs that adds the smallest normal number to each product and records the largest intermediate result), complex operations made of real ones | induction over the formulas and loops as in C63, with the range condition in the invariant (`InNear`); moderate data: sizes of the formulas are at most 1024 C^7; complex products by Cauchy–Schwarz, quotients by the error of the squared modulus. Example: Helmholtz hypersingular operator on the octahedron with double precision, `roundDouble` with gradual underflow |
| C81 | the form `uᵀ A u` of the Galerkin matrix (`bilinear`), surfaces without overlaps (`NoOverlap`), independent basis functions, solutions of linear systems (`Solves`) | 1/r is an integral of Gaussians over their width, and a Gaussian is the expectation of waves, so that the form is an integral of squares (`PositiveKernel`); equality: all integrals over preimages of Borel sets of space vanish, cells are flat and do not overlap, hence the function is 0 almost everywhere, and by continuity everywhere (`PositiveSurface`); spheres and screens do not overlap by C35 and C42 (a common interior point would have all corners in common). Compactness of the unit sphere gives the constant (`PositiveMatrix`), C79 the assembled matrices. Example: P1 on spheres of all levels |
| C82 | as C81 for the curl-curl integrand; `GradientBasis` (derivatives 0 only for equal coefficients), `mean` | the integrand is the sum over three directions of products of surface curls, so that C81's squares apply (`curl_form`); tangents of cells that are not degenerate are independent; equal coefficients pass from cell to cell over shared vertices and edges, along the connected spheres (C47) and screens (`dofs_constant`); the form does not see constants by C28, the rest is C81's compactness on the vectors that add up to 0. Example: P1 on spheres of all levels |
| C83 | `Horizontal` (points at one height, normals upwards), `LevelKernel` (third derivative 0 for points at one height); screens with their vertex coordinates | screens are horizontal by their corner coordinates (`C83_screens`); the integrands are 0 at every pair of points, so every quadrature value and entry is 0; the normals' product is 1 in the Helmholtz hypersingular integrand, the rest is linearity (C14). Example: P1 on screens of all sizes |
| C84 | as C79 for the double layer integrands; `ValuesSumOne`, `surfaceIntegral` | the theorem of Stokes on a triangle for the field z / r^3 (`stokes`), so that the flux through a closed surface does not change along a ray that leaves the surface (`flux_hasDerivAt`, `sphere_closed`); along the ray from a point of a cell to infinity the other cells are not met (`sphere_ray`, by convexity of the spheres), the flux is 0 at infinity and that of the own cell tends to 2 pi at the start (`flux_limit`); hence the solid angle -2 pi (`sphere_flux`), then Fubini. Example: P1 on spheres of all levels |
| C85 | as C48; `distSq`, `angleAt` | invariant of the refinement (`NonObtuse`): no spherical angle is obtuse, and the squares of the sides are at least 2 / 4^n; it is kept by the four parts of a triangle (`NonObtuse.corner`, `NonObtuse.middle`). Angles and distances of the planes follow from the radius of the circle through the corners (`circumradius`, `plane_distance`) |
| C86 | as C84; `surfaceArea`, `matrixTotal` | from the origin, a sphere is seen under the solid angle 4 pi (`sphere_origin`, along the ray from a point of a cell to the origin); the solid angle of each triangle is compared with its area (`triangle_area`, with the bounds of C85); totals from C84 |
| C87 | as C78, C80, C81, C82 and C84, in any arithmetic with small relative errors (`FloatAssembly`) | the bound of C78 for fixed rules is a fixed multiple of u and e, so it is below any tolerance once both are small enough (`shape_accuracy`); positive definiteness and solutions by perturbation of coercive forms (`solution_near`, and `solvable_upTo` for the hypersingular operator, whose computed matrix need not have the constants in its kernel exactly); sums by C84 |
| C88 | the calls of each process to the builder (`regularSphereCalls`, `screenTrianglesCalls`, `screenQuadrilateralsCalls`); the builder as a state machine that may panic (`BuilderState.call`) | induction over the calls (`add_points`, `add_cells`), with the counts and numbers of C30 and C33; a triangle has three points only for degree 1 (`three_points`) |
| C89 | as C87, with the shapes as they are computed in the arithmetic (`ComputedShape`) and libraries that are accurate for the points they are given (`LibraryData`) | the errors of the points from C71, which go to 0 with the unit roundoff; points, normals, Jacobians and integration elements are continuous in the vertices, and the kernel away from the diagonal, so finitely many nodes have a common modulus (`near_geometry`, `near_kernel`); then C87 |
| C90 | Galerkin matrices with complex entries, their Hermitian forms and linear systems (`Spec/Helmholtz.lean`) | the imaginary part of the Green's function is `w/(4π)` times `sinc (w r)`, which is a mean of plane waves over the sphere (`wave_mean`), so the form is an integral of squares; on a screen it vanishes only if a Fourier transform vanishes on a disc, hence everywhere because it is analytic (`sincForm_definite`); the determinant is an analytic function of the wavenumber that is not 0 at wavenumber 0 by C81; nearby systems by continuity of Cramer's rule (`nearby_system`), with C79 and C89 |
| C91 | capacities and numbers of stored elements (`Model/Reserve.lean`); partial, because the capacity for the cells of the spheres is wrong | the invariant of the rounds (C30); the triplets of a batch are those of `SingularSetting.batch` |
| C92 | the setting of C22 in floating point arithmetic | the bounds of C73 on every process; exact values, absolute values and numbers of terms add up by the same sum over pairs of cells as in C22 (`PartSetting.touchingSum_of`) |
| C93 | several calls of `FunctionSpace::new` as one program, steps with limited buffers | any two steps that are possible can be done in either order (`Config.eager_diamond`), for all programs; an execution of two programs after each other is one execution of each (`Sim.step`), because neither leaves messages behind; the chain of offsets makes every process wait for all to start (`all_started`) |
| C94 | `regular_sphere` in any arithmetic with the laws of signs (`SignLaws`), `assemble_into_dense` | induction over the levels: a map of a mesh that commutes with `newPoint` is a map of the refined mesh (`MeshMap`), the start is checked on the octahedron; the turned sphere is a renumbering of the same surface (C75) |
| C95 | `screen_triangles`, `screen_quadrilaterals`, `assemble_into_dense` on two surfaces | a part of a grid with the same cells is a `PartIn`; entries for DOFs inside are sums over the cells of the part (C59), each of which is scaled (C53); blocks of screens by arithmetic of the point and cell numbers |
| C96 | `FunctionSpace::new` on the shapes with the families of `bindings/ndelement.rs` | C46 with the numbers of DOFs of the families; an element with these numbers satisfies the contract (`layered_wf`); C45 for distributed grids |
| C97 | all functions of `src/bindings` that a C program can call, on a heap with references between objects | simulation: a relation between the heap and a table of values is kept by every call that a disciplined program may make, in both directions; the lists of `concretise_types` are searched completely; two programs show that the discipline is needed |
| C98 | `tests/test_space.rs`, `python/test/test_function_space.py`, the tests of options and of the singular part in `python/test/test_boundary_assembler.py`, `examples/assembly.rs`, as programs that fail at an assertion; not `tests/compare_to_bempp_cl.rs` and `python/test/test_boundary_assembler.py:71-165`, which compare with numbers from another program | the assertions follow from C01, C03, C04, C08, C55, C56, C96 and C14 on all grids of the builder; for the singular part: if a DOF belongs to one cell, the entry of the dense matrix is the sum over one pair of cells, which is the triplet; needs that `from_aij` stores each position once and only positions of triplets (`FromAijStored`) |
| C99 | `recreate_grid`, `recreate_element_family`, the functions of `src/bindings/ndgrid.rs` and `src/bindings/ndelement.rs` that they call, with arbitrary numbers for the enumerations of the two libraries | injectivity of the numberings: dictionaries and enumerations are looked up by a find on a list; the negation for other families compares the dimensions of C96 on all spheres |
| C100 | executions of C21 with a record of the messages | the record agrees with the traces of C21; sums over all pairs of processes; each step changes the number of messages under way by one |
| C101 | the kernel object is a parameter of C14; two objects that do the same at pairs of different points are compared | assembly with the two objects is followed step by step (every kernel call gets points of the two cells); on spheres and screens a point inside of a cell is in no other cell (C47, C79) |
| C102 | Lagrange polynomials of all degrees on triangles and quadrilaterals, with the points of each DOF (`Spec/Lagrange`); the function of a coefficient vector on the surface | at a common point of two cells the weights of the corners agree (C35, C42), so the values of each basis function do; finitely many compact cells with one value at common points give a continuous function; for the jumps, the first DOF of an edge at the point one `p`-th along the edge |
| C103 | the points and polynomials of Lagrange elements of all degrees with their derivatives (`Spec/Nodal`) | values at the points from the products of binomials; sums with the Vandermonde identity; a combination with derivatives 0 is constant along the axes; then C81, C82 and C90 |
| C104 | every function of a space has coefficients in the other space (`Spec/Degrees`) | polynomials are reproduced by interpolation (dimension count); a DOF shared by cells belongs to a common entity, and its points coincide unless an edge is traversed in opposite directions; otherwise a corner function has different values at the two points of an edge DOF; energies with C81 |
| C105 | `find_examples.py` on lists of characters (`Model/FindExamples`); directories, directives, features and commands as relations between texts (`Spec/FindExamples`) | splitting at a text without borders finds exactly its occurrences; induction on texts and lines; `&&` of the shell as a function on lists of commands |
| C106 | several calls as sequences of parallel sections over one memory, with unchecked addresses (`Model/Concurrent`); separate parts, calls that run alone (`Spec/Concurrent`) | invariant: seen on its part, every call is at a state of its sections run one after the other; addresses stay inside the part because they are inside the buffer (C08); C09 |
| C107 | functions that are far apart, their integrals (`Spec/Decay`) | entries are double quadrature sums (C14); the integrands are bounded at distances of at least d (Cauchy-Schwarz); sums of products are products of sums |
| C108 | double quadratures of absolute values with the rules that assembly uses (`Spec/Frequency`) | the Helmholtz kernels for two wavenumbers differ by a bounded function, also where each of them is singular; mean value inequality for `(1 - i s) exp(i s)`; C14 |
| C109 | threads whose calls begin and end (`Model/CThreads`); objects a call uses and changes, data races, polite threads (`Spec/CThreads`) | invariant: what a call that goes on uses has not changed since it began; so it ends as it would alone; ownership of pointers for polite threads; lost update as counterexample |
| C110 | assembled Helmholtz matrices for all wavenumbers; systems of equations (`Spec/Sweep`, `Spec/Helmholtz`) | the kernel is entire in the wavenumber, and sums of products keep that; determinant has isolated zeros; at wavenumber 0 the matrix is the Laplace matrix; convergence at wavenumber 0 (C90) for the library shapes |
| C111 | programs with variables and an allocator that may give out freed addresses (`Model/Allocator`); what allocators do, results up to addresses (`Spec/Allocator`) | simulation: the heap holds the objects of the heap of C97 at the addresses in the variables, injectively on what is there; each call does the same on both; use after free as counterexample |
| C112 | the operations of calls that panic (`Model/ConcurrentPanic`): complete sections, then a section whose tasks write what they write until they complete or panic (`Model/Memory`); steps of `Model/Concurrent` | the invariant of C106 holds for any operations inside the parts; C67 puts the writes of panicking tasks inside; projection of a run to one call; runs with a panic correspond to such operations |
| C113 | the shapes (`Model/Shapes`), the builder contract (`Spec/Builder`), the singular part and the colouring | refinement keeps the number of triangles at old points and puts six at each midpoint (every edge has two triangles); inclusion and exclusion over the three points of a triangle; on screens a count of translations of a cell; one triplet per touching pair and pair of functions (C22, C28); C50 for the colours; on distributed grids the sum over touching pairs of C22, with the numbers of functions instead of values |
| C114 | the loops that divide the work (`Model/Blocks`) and the plan of a call (`Model/Concurrent`) | induction over the loops: every round takes min(b, rest) items, so that their number is the number of groups `(n + b - 1) / b` (`Spec/Work`, with a proof that fewer groups are not enough); sums over colours and kinds; C113 for the numbers of colours and of touching pairs; C13 for the regular pairs |
| C115 | threads with calls that begin and end (`Model/CThreads`) and an allocator that gives out any free address (`Model/Allocator`), together in `Model/AllocThreads` | invariant: what an ongoing call uses has not changed since it began, so it ends as if it were alone; addresses are translated to numbers of objects to get a run of C111; for tidy threads a second invariant about what each thread holds, and a memory for each thread that it would have alone; a run with a double free as witness |
| C116 | the session of C74 with an allocator that chooses addresses (`Model/SessionAddresses`) | bisimulation with the session of C74, in which addresses are not used again: a renaming of the live addresses (`Renamed`) that grows with each allocation; the invariant of C74 says that all pointers that are used are live; examples with an allocator that gives the smallest free address, and with one that breaks its promise |
| C117 | `function_space`, `__del__` and the use of a space in small steps, any number of them at the same time (`Model/PyThreads`) | a call alone ends as in `Model/Python` (adequacy, by following both definitions); calls that make or delete spaces on different grids and families, with any methods of spaces that are not being deleted: an invariant (`PyProcess.Inv`) that says for each call, depending on where it is, how often its grid and family are counted, with a ghost owner for each Rust grid and family; the failures are schedules that the kernel runs; the end of each call: a number of steps left that decreases |
| C37, C43 | Python reference counts | invariant over histories; C43 is partial: a failed space leaks its grid, negation proved |
| C46, C47 | grids made from the shapes | Euler's formula by counting edges; conformity of the shapes |

## 5. What the model showed about the code

1. `assemble_nonsingular_part` passes the cell types to `assemble_batch_nonadjacent` in the other order than it uses them
   (and tabulates the trial element at the test points, line 464). On a grid of one cell type this is invisible. If a type
   occurs in only one of two grids, assembly panics; if triangles and quadrilaterals occur in both and the family has
   more functions on one of them, the unchecked table reads go out of bounds (C36), which is undefined behaviour reached from
   safe code (C67).
2. `set_batch_size(0)` is accepted, and assembly then never returns (C11).
3. `assemble_singular` drops the whole singular part if no triplet is above 1e-10 (C16).
4. `FunctionSpace::new` waits for each send before it posts receives. With synchronous sends two processes deadlock (C21).
   Usual MPI implementations buffer short messages only. If messages of up to L numbers are buffered, all processes hang if two of
   them need more than L DOFs of each other, if two need more than L DOFs of a process of lower rank than both (for example ranks 1 and 2 of
   rank 0), or if rank p needs them of q and q of r with p < q < r. So large grids hang where small ones work.
5. `screen_triangles`, `screen_quadrilaterals` divide by n + 1, so they cover [0, n/(n+1)]² and not the unit square (C34).
6. `set_regular_quadrature_degree` and `set_singular_quadrature_degree` silently ignore unknown keys (part of C23).
7. If `recreate_element_family` fails in Python, the grid that was recreated just before is never freed (C43).
8. `create_laplace_assembler` with a Maxwell operator or a complex scalar type is a Rust panic behind the C interface, which ends the
   Python process, and not an exception (`C56_other_operators`).
9. All messages of `FunctionSpace::new` have the default tag. If processes create two spaces in different orders, the messages of one
   are taken for those of the other, and wrong global numbers can be returned without any error (`C69_order_matters`).
10. In release builds the product of the two space sizes in the length test of `assemble_into_memory` wraps around. For spaces with at
   least 2^64 (2^32 on 32-bit targets: 65536 DOFs) entries a short buffer is accepted and then written outside of its bounds (`C70_overflow_wrapping`).
11. `regular_sphere` with a degree other than 1 gives three points per cell to a builder that expects another number (C88).
12. `regular_sphere` reserves memory for 8·6^l cells in round l (line 61), of which it uses 8·4^(l+1): less than needed up to l = 3, more from
   l = 4 on, without a bound on the ratio (C91). At level 12 it is 21 times the memory of the cells.
13. `recreate_element_family` always makes Lagrange elements. A Python function space of a Raviart-Thomas or Nédélec family is silently the space of the
   Lagrange family of the same degree; its size is wrong on every sphere (`C99_other_families`).
14. Edge DOFs are not reordered for cells that go through an edge in the other direction. Lagrange spaces of degree 3 and more with
   standard continuity are therefore not continuous on spheres and on screens of triangles: basis functions jump from 1 to 0 across edges (C102).
   The hypersingular operator needs continuous functions. As a
    consequence, raising the degree to 3 or more on these surfaces loses functions: the spaces of lower degree are not contained in the
    space of higher degree (C104).
15. Seen while reading, not modelled: `max_rank` is never used; complex function spaces raise
   `KeyError` in Python's `assemble`; Python's `BoundaryAssemblerOptions` never frees its Rust options; some functions named in the Python files do not exist in the bindings.
16. `find_examples.py --features ..` raises `ValueError` and writes no script if an example has `--features mpi` without quotes, or
    `--features ".."` twice, in its options, although cargo accepts both (C105_not_written).
17. The functions of the C interface take no locks and the documentation does not say which calls may run at the same time. Two threads that set
    the same options can lose one of the changes (`C109_race`); threads that share objects they do not change are safe (`C109_polite`).
18. `function_space` and `FunctionSpace.__del__` change the counts of Rust grids and families without a lock. Two threads that make spaces on the same
    grid can lose an update; later the Rust grid is freed while a space still uses it (`C117_lost_count`). The same lines are not safe against the
    garbage collector, which can run `__del__` in the middle of `function_space` (`C117_collected`, `C117_collected_last`).

## 6. Trusted base

* Lean 4.33's kernel. No `sorry`, `admit`, `native_decide`, `bv_decide`, no axioms besides `propext`, `Classical.choice`,
  `Quot.sound`.
* The reading of the Rust and Python sources that is recorded in the comments of `Model/*`.
* The contracts of section 3 and the concurrency semantics of `Model/Mpi`, `Model/Crash` and `Model/Parallel`.
* The statements in `Props/*` and the definitions in `Spec/*`.

## 7. Axioms per theorem

`p` is `propext`, `q` is `Quot.sound`, `c` is `Classical.choice`.

<!-- axioms -->

| theorem | axioms |
|---------|--------|
| `C01_numbering_bijection` | pqc |
| `C02_conformity` | pqc |
| `C02_shared_entity` | pqc |
| `C03_cell_dofs` | pqc |
| `C03_every_dof` | pqc |
| `C18_serial_space` | pqc |
| `C04_shared_dofs` | pqc |
| `C05_size` | pqc |
| `C06_colouring_partition` | pqc |
| `C07_same_colour_disjoint` | pqc |
| `C08_tasks_disjoint` | pqc |
| `C08_no_race` | pqc |
| `C09_schedule_independent` | pqc |
| `C09_assemble` | pqc |
| `C09_assemble_singular` | pq |
| `C10_batch_size` | pqc |
| `C10_assemble` | pqc |
| `C10_singular` | pqc |
| `C11_terminates_partial` | pqc |
| `C11_sections_terminate` | pq |
| `C11_batch_zero_diverges` | pqc |
| `C11_assemble_iff` | pqc |
| `C11_singular_terminates_partial` | pq |
| `C11_singular_iff` | pqc |
| `C12_pairs_once` | pqc |
| `C13_one_method` | pqc |
| `C13_task_does_visits` | pqc |
| `C14_galerkin` | pqc |
| `C14_operators` | pqc |
| `C15_adds_to_buffer` | pqc |
| `C16_sparse_partial` | pqc |
| `C16_error_bound_partial` | pqc |
| `C16_small_entries_lost` | pqc |
| `C16_exact` | pqc |
| `C17_no_singular_part` | pq |
| `C17_only_regular` | pqc |
| `C18_serial_space` | pqc |
| `C19_global_numbering` | pqc |
| `C20_ghosts` | pqc |
| `C20_local_injective` | pqc |
| `C21_terminates_partial` | pqc |
| `C21_rendezvous_deadlock` | pqc |
| `C21_eager_safe` | pqc |
| `C21_eager_terminates_partial` | pqc |
| `C21_eager_deadlock` | pqc |
| `C21_fan_in_deadlock` | pqc |
| `C21_chain_deadlock` | pqc |
| `C21_two_processes` | pqc |
| `C23_options_map` | pq |
| `C24_reads_in_bounds` | pq |
| `C24_operator_formulas` | pq |
| `C25_singular_memoryless` | pq |
| `C25_regular_memoryless` | pq |
| `C26_laplace` | pqc |
| `C26_helmholtz` | pqc |
| `C27_laplace` | pqc |
| `C27_helmholtz` | pqc |
| `C28_constants` | pqc |
| `C28_rows` | pqc |
| `C28_columns` | pqc |
| `C29_sum` | pqc |
| `C29_scalar` | pqc |
| `C29_helmholtz_hypersingular` | pqc |
| `C30_sizes` | pqc |
| `C31_closed_oriented` | pqc |
| `C32_on_sphere_outward` | pqc |
| `C33_triangles` | pqc |
| `C33_quadrilaterals` | pqc |
| `C34_triangles_partial` | pqc |
| `C34_quadrilaterals_partial` | pqc |
| `C34_not_unit_square` | pqc |
| `C35_triangles` | pqc |
| `C35_quadrilaterals` | pqc |
| `C39_wrong_length` | p |
| `C39_not_serial` | pq |
| `C39_is_serial` | pq |
| `C40_rule_matches` | pqc |
| `C40_rule_used` | pqc |
| `C40_rejected` | p |
| `C41_laplace` | pqc |
| `C41_helmholtz` | pqc |
| `C42_no_gaps_no_overlaps` | pqc |
| `C36_missing_type` | pqc |
| `C36_panics` | pqc |
| `C36_both_types` | pqc |
| `C36_element` | p |
| `C37_never_freed_early` | pqc |
| `C38_frozen` | pq |
| `C43_nothing_leaked_partial` | pqc |
| `C43_failed_family_leaks_grid` | pqc |
| `C22_parts_add_up` | pqc |
| `C22_matrices_add_up` | pqc |
| `C22_without_layer` | pqc |
| `C22_layer_needed` | pqc |
| `C45_renumbering` | pqc |
| `C44_python_options` | pq |
| `C46_sphere` | pqc |
| `C46_screen_triangles` | pqc |
| `C46_screen_quadrilaterals` | pqc |
| `C47_conforming` | pqc |
| `C47_assembles` | pqc |
| `C48_approximates_sphere` | pqc |
| `C49_nested` | pqc |
| `C49_midpoints` | pqc |
| `C50_no_wasted_colour` | pqc |
| `C50_number_of_colours` | pqc |
| `C51_numbering_order` | pqc |
| `C51_discontinuous` | pqc |
| `C52_renumbering` | pqc |
| `C53_similarity` | pqc |
| `C53_laplace` | pqc |
| `C53_helmholtz` | pqc |
| `C54_wavenumber_zero` | pqc |
| `C55_python_accessors` | pqc |
| `C55_python_space` | pqc |
| `C56_python_assemble` | pq |
| `C56_python_singular` | pqc |
| `C56_dtype_mismatch` | p |
| `C56_laplace` | pqc |
| `C56_other_operators` | p |
| `C57_serial_space` | pqc |
| `C58_nested_spaces` | pqc |
| `C58_broken_spaces` | pqc |
| `C59_locality` | pqc |
| `C59_components` | pqc |
| `C60_form` | pqc |
| `C60_constants` | pqc |
| `C61_conjugate` | pqc |
| `C62_single_layer` | pqc |
| `C63_rounding` | pqc |
| `C63_gamma` | pqc |
| `C64_returns_iff` | pqc |
| `C64_all_return_iff` | pqc |
| `C65_singular_settings` | pq |
| `C65_dense_settings` | pq |
| `C66_what_exists` | pqc |
| `C67_regular_part` | pqc |
| `C67_singular_part` | pqc |
| `C67_out_of_bounds` | pqc |
| `C68_safe` | pqc |
| `C68_includes_normal` | p |
| `C68_returns_iff` | pqc |
| `C68_stop_after_return` | pqc |
| `C68_never_returns` | pqc |
| `C69_sequence` | pqc |
| `C69_order_matters` | pqc |
| `C70_batches` | pqc |
| `C70_dense` | pqc |
| `C70_singular` | pqc |
| `C70_overflow_checked` | p |
| `C70_overflow_wrapping` | pqc |
| `C70_screen` | pq |
| `C70_sphere` | pq |
| `C71_norms` | pqc |
| `C71_close` | pqc |
| `C71_outward` | pqc |
| `C71_screens` | pqc |
| `C72_symmetric` | pqc |
| `C72_adjoint` | pqc |
| `C72_constants` | pqc |
| `C73_triplets` | pqc |
| `C73_matrix` | pqc |
| `C74_values` | pqc |
| `C74_defined` | pqc |
| `C74_what_exists` | pqc |
| `C74_matrix` | pqc |
| `C74_nothing_lost` | pqc |
| `C74_lost_options` | p |
| `C74_lost_assembler` | p |
| `C74_lost_assembly` | pq |
| `C75_laplace` | pqc |
| `C75_helmholtz` | pqc |
| `C75_sign` | pqc |
| `C75_cells` | pqc |
| `C76_convergence` | pqc |
| `C76_laplace` | pqc |
| `C76_helmholtz` | pqc |
| `C77_accuracy` | pqc |
| `C78_inexact` | pqc |
| `C78_accuracy` | pqc |
| `C79_surface` | pqc |
| `C79_integrable_laplace` | pqc |
| `C79_integrable_helmholtz` | pqc |
| `C79_integrable_triangles` | pqc |
| `C79_laplace` | pqc |
| `C79_helmholtz` | pqc |
| `C80_range` | pqc |
| `C80_moderate` | pqc |
| `C80_complex` | pqc |
| `C81_form` | pqc |
| `C81_definite` | pqc |
| `C81_nearby` | pqc |
| `C81_solvable` | pqc |
| `C81_triangles` | pqc |
| `C82_form` | pqc |
| `C82_kernel` | pqc |
| `C82_solvable` | pqc |
| `C83_screens` | pqc |
| `C83_double_layer` | pqc |
| `C83_hypersingular` | pqc |
| `C83_laplace` | pqc |
| `C83_helmholtz` | pqc |
| `C84_rows` | pqc |
| `C84_columns` | pqc |
| `C84_double_layer` | pqc |
| `C84_adjoint` | pqc |
| `C85_well_shaped` | pqc |
| `C86_area` | pqc |
| `C86_integrals` | pqc |
| `C86_total` | pqc |
| `C86_double_layer` | pqc |
| `C86_adjoint` | pqc |
| `C87_laplace` | pqc |
| `C87_helmholtz` | pqc |
| `C87_single_layer` | pqc |
| `C87_solution` | pqc |
| `C87_hypersingular` | pqc |
| `C87_hypersingular_solution` | pqc |
| `C87_double_layer` | pqc |
| `C87_adjoint` | pqc |
| `C88_sphere` | pqc |
| `C88_degree` | pqc |
| `C88_triangles` | pqc |
| `C88_quadrilaterals` | pqc |
| `C89_data` | pqc |
| `C89_shape` | pqc |
| `C89_grid` | pqc |
| `C89_laplace` | pqc |
| `C89_helmholtz` | pqc |
| `C89_solution` | pqc |
| `C90_energy` | pqc |
| `C90_screens` | pqc |
| `C90_wavenumbers` | pqc |
| `C90_small` | pqc |
| `C90_converges` | pqc |
| `C90_solution` | pqc |
| `C91_sphere_partial` | pqc |
| `C91_batches_partial` | pqc |
| `C91_never_right` | pqc |
| `C91_waste` | pqc |
| `C92_triplets` | pqc |
| `C92_matrices` | pqc |
| `C93_determined` | pqc |
| `C93_safe` | pqc |
| `C93_barrier` | pqc |
| `C93_returns_iff` | pqc |
| `C93_all_return_iff` | pqc |
| `C93_single` | pqc |
| `C94_turns` | pqc |
| `C94_arithmetic` | pqc |
| `C94_cube` | pqc |
| `C94_laplace` | pqc |
| `C94_helmholtz` | pqc |
| `C95_similar_parts` | pqc |
| `C95_laplace` | pqc |
| `C95_helmholtz` | pqc |
| `C95_blocks` | pqc |
| `C95_screens_laplace` | pqc |
| `C95_screens_helmholtz` | pqc |
| `C95_shifts_laplace` | pqc |
| `C95_shifts_helmholtz` | pqc |
| `C95_interior` | pqc |
| `C95_inner` | pqc |
| `C96_elements` | pqc |
| `C96_sphere` | pqc |
| `C96_screen_triangles` | pqc |
| `C96_screen_quadrilaterals` | pqc |
| `C96_distributed` | pqc |
| `C97_values` | pqc |
| `C97_defined` | pqc |
| `C97_laplace` | pqc |
| `C97_helmholtz` | pqc |
| `C97_freed_grid` | pqc |
| `C97_freed_options` | pqc |
| `C97_freed_matrix` | pqc |
| `C97_small_memory` | pqc |
| `C97_changed_options` | pqc |
| `C97_wrong_pointer` | pqc |
| `C97_outside` | pqc |
| `C97_set_options` | pqc |
| `C98_run_test` | pqc |
| `C98_sizes` | pqc |
| `C98_sizes_of_families` | pqc |
| `C98_colouring_p1` | pqc |
| `C98_colouring_dp0` | pqc |
| `C98_colouring_rt1` | pqc |
| `C98_python_accessors` | pqc |
| `C98_python_dofs` | pqc |
| `C98_create_assembler` | p |
| `C98_one_cell` | pqc |
| `C98_assemble_singular` | pqc |
| `C98_example` | pqc |
| `C99_grid` | pqc |
| `C99_family` | pq |
| `C99_family_right_iff` | pq |
| `C99_space_partial` | pqc |
| `C99_rejected` | pqc |
| `C99_dtype` | p |
| `C99_other_families` | pqc |
| `C100_messages` | pqc |
| `C100_between` | pqc |
| `C100_totals` | pqc |
| `C100_steps` | pqc |
| `C101_same` | pqc |
| `C101_same_singular` | pqc |
| `C101_galerkin` | pqc |
| `C101_nodes` | pqc |
| `C101_shapes` | pqc |
| `C101_operators` | pq |
| `C101_two_grids` | pqc |
| `C102_continuous_iff` | pqc |
| `C102_edges` | pqc |
| `C102_jump` | pqc |
| `C103_values` | pqc |
| `C103_unique` | pqc |
| `C103_basis` | pqc |
| `C103_entities` | pqc |
| `C103_single` | pqc |
| `C103_helmholtz` | pqc |
| `C103_hypersingular` | pqc |
| `C104_discontinuous` | pqc |
| `C104_nested` | pqc |
| `C104_continuous_iff` | pqc |
| `C104_energy` | pqc |
| `C104_galerkin` | pqc |
| `C104_data` | pqc |
| `C105_script` | pqc |
| `C105_asks` | pqc |
| `C105_written` | pqc |
| `C105_processes` | pqc |
| `C105_success` | pqc |
| `C105_failure` | p |
| `C105_not_written` | pqc |
| `C106_results` | pqc |
| `C106_untouched` | pqc |
| `C106_no_race` | pqc |
| `C106_finish` | pqc |
| `C106_plans` | p |
| `C107_laplace_single_layer` | pqc |
| `C107_laplace_double_layer` | pqc |
| `C107_laplace_adjoint` | pqc |
| `C107_laplace_hypersingular` | pqc |
| `C107_helmholtz_single_layer` | pqc |
| `C107_helmholtz_double_layer` | pqc |
| `C107_helmholtz_adjoint` | pqc |
| `C107_helmholtz_hypersingular` | pqc |
| `C107_normals` | pqc |
| `C108_single_layer` | pqc |
| `C108_double_layer` | pqc |
| `C108_adjoint` | pqc |
| `C108_hypersingular` | pqc |
| `C108_continuous` | pqc |
| `C108_small_single_layer` | pqc |
| `C108_small_double_layer` | pqc |
| `C108_small_adjoint` | pqc |
| `C108_small_hypersingular` | pqc |
| `C109_sequence` | pqc |
| `C109_polite` | pqc |
| `C109_shared` | pqc |
| `C109_values` | pqc |
| `C109_any_order` | pqc |
| `C109_race` | pqc |
| `C110_analytic` | pqc |
| `C110_wavenumbers` | pqc |
| `C110_solutions` | pqc |
| `C110_low` | pqc |
| `C110_library` | pqc |
| `C111_any_allocator` | pqc |
| `C111_exists` | pqc |
| `C111_two_allocators` | pqc |
| `C111_defined` | pqc |
| `C111_memory` | pqc |
| `C111_use_after_free` | pqc |
| `C112_results` | pqc |
| `C112_alone` | pqc |
| `C112_panicked` | pqc |
| `C112_singular_panic` | pqc |
| `C112_untouched` | pqc |
| `C112_no_race` | pqc |
| `C112_finish` | pqc |
| `C112_plans` | pqc |
| `C112_decided` | pqc |
| `C113_sphere_points` | pqc |
| `C113_sphere_pairs` | pqc |
| `C113_quadrilaterals` | pqc |
| `C113_triangles` | pqc |
| `C113_bounded` | pqc |
| `C113_stored` | pqc |
| `C113_sphere_stored` | pqc |
| `C113_touching_colours` | pqc |
| `C113_colours` | pqc |
| `C113_piecewise_constant` | pqc |
| `C113_benchmark` | pqc |
| `C113_any_grid` | pqc |
| `C113_parts_stored` | pqc |
| `C113_parts_bounded` | pqc |
| `C114_section` | pqc |
| `C114_call` | pqc |
| `C114_additions` | pqc |
| `C114_singular` | pqc |
| `C114_shapes` | pqc |
| `C114_sphere_singular` | pqc |
| `C114_sphere_regular` | pqc |
| `C115_sequence` | pqc |
| `C115_numbers` | pqc |
| `C115_values` | pqc |
| `C115_tidy` | pqc |
| `C115_memory` | pqc |
| `C115_alone` | pqc |
| `C115_thread_values` | pqc |
| `C115_any_order` | pqc |
| `C115_double_free` | pqc |
| `C116_results` | pqc |
| `C116_values` | pqc |
| `C116_defined` | pqc |
| `C116_memory` | pqc |
| `C116_spaces` | pqc |
| `C117_alone` | pqc |
| `C117_alone_everywhere` | pq |
| `C117_apart` | pqc |
| `C117_apart_memory` | pqc |
| `C117_one_at_a_time` | p |
| `C117_gone` | p |
| `C117_lost_count` | pq |
| `C117_made_twice` | pq |
| `C117_collected` | pq |
| `C117_collected_last` | pq |
| `C117_deleted_in_use` | pq |
| `C117_ends` | pq |
| `C117_can_finish` | pqc |
