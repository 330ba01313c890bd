# Formal model of golems/amino

This directory holds a Lean 4 model of parts of the amino robotics library and
proofs of properties about that model. The C/C++ sources in `/repo` were read
as text; they were never built or run.

## Trusted base

* The Lean 4.33.0 kernel.
* The three standard axioms `propext`, `Classical.choice`, `Quot.sound`.
  No theorem uses any other axiom (no own axiom, no `sorry`, no compiler trust).
* The transcription of the C/C++ into Lean definitions. Every definition cites
  the file and line range it transcribes.
* Numeric code is modelled over the real numbers (or any commutative
  ring/field). IEEE rounding, overflow to infinity and NaN are not modelled,
  unless a section says otherwise.
* `malloc` is modelled as an oracle that returns any block disjoint from the
  blocks currently live, or is given as an explicit address parameter with that
  hypothesis. Allocation failure is not modelled (the code does not check it).
* Sizes are unbounded naturals unless the property is about word width; pointer
  arithmetic overflow is not modelled.
* External libraries (BLAS, LAPACK, FCL, GLPK/CLP, NLOPT, OMPL, pthreads) are
  represented by their documented contract only, stated where used.

## Conventions

* `Verif/Model/*` transcribes code. `Verif/Proof/*` holds helper lemmas.
  `Verif/Prop/*` holds the property theorems, each with the id of its property,
  a small independent specification, and an `example` meeting its hypotheses.
* When the code violates the stated property, the negation is proved with a
  concrete witness (theorem name contains `violates` or `not_`), and what does
  hold is proved as `..._partial`.

## Plan per property

| id | model | proof |
|----|-------|-------|
| C01 | region = chain of chunks (start,size) + head; operations take the address malloc returns; ghost list of live blocks | invariant by induction over histories |
| C02 | same, head alignment | invariant; witness for `release` when the chunk start is unaligned |
| C03 | same; pop | invariant + refinement to a stack; witness histories in which a saved pointer no longer lies in a chunk |
| C04 | same + ghost list of heap chunks | invariant |
| C05 | same; release | sum over the chain |
| C06 | same; tmpalloc, alloc | case analysis |
| C07 | same + byte memory | partial + witnesses |
| C08 | pool = free list + region-fresh addresses | invariant over histories |
| C09 | rlist = heap of cons cells, head, tail cell pointer | refinement to `List` |
| C10 | vector = buffer, size, capacity | refinement to `List` |
| C11 | bit set = words (`BitVec 32`) | bit-level lemmas |
| C12 | loop transcription as step relation | negation: the loop never reaches its exit; partial: what is needed |
| C13 | memory = address -> byte; word loop then byte loop | loop invariants |
| C14 | array heap | heap invariant, permutation, sortedness |
| C15 | return value of check | negation witness + partial |
| C16 | threads as atomic steps | invariant over every interleaving |
| C17 | timespec = pair of `Int` | exact integer arithmetic |
| C18 | byte lists, both host orders | involution; witness for the missing name on big-endian |
| C19 | reals / ints | case analysis |
| C20 | formula over the reals | negation witness, partial |
| C21-C32 | tuples and matrices over commutative rings or the reals | `ring`, trigonometric identities, derivatives |
| C33-C36 | memory as `Nat -> R`, views as offset/stride/ld | index arithmetic, ring identities, witnesses |
| C37 | matrices over a field (Mathlib `Matrix`) | algebra |
| C38 | Hungarian algorithm state machine | dual feasibility invariant, optimality at exit, non-termination witness |
| C39 | central differences | algebra |
| C40 | tableaux and step functions | rational order conditions, Taylor polynomials on linear systems |
| C41, C42 | solver loop as a step function with a stateful callback | induction over the loop |
| C43 | IK loop, FK along the chain, limit clamp | last accepted check of the solver loop; witnesses |
| C44-C48 | trajectories over the reals, list iterator as state | algebra, continuity, histories |
| C49 | frame table and recursive visit with fuel | induction |
| C50-C52, C58 | FK over an abstract monoid/group of transforms, then the concrete frames | induction over index order |
| C53 | FK as a differentiable map | `HasDerivAt` |
| C54-C57 | index lists, bit sets, string keyed sets | induction over histories |
| C59 | bounds over extended reals | cases |
| C60 | LP constraint construction | algebra, witness |
| C61 | planar arm over the reals | trigonometry |
| C62 | token parser, material table | induction over digits and directives |
| C63 | arrays as lists of reals | induction, witnesses |
| C64 | trajectory check loop | induction over samples |
| C65, C66 | planar transforms, DH parameters over the reals | against complex numbers, matrices and elementary motions |
| C67, C68 | derivative routines over the reals, `none` for a zero divisor | `HasDerivAt`, Taylor bounds for the series branches |
| C69 | `vecs2quat` with its branches | quaternion algebra, witnesses |
| C70 | Runge-Kutta steps | uniqueness of the path, Taylor bounds |
| C71 | logarithms of rotations and rigid transforms | flow uniqueness, series bounds; witnesses at -1 and near a half turn |
| C72 | frames from axes over the reals | membership in the special orthogonal group |
| C73 | quaternion stepping and algebraic interpolation | uniqueness of the path, uniqueness of the short logarithm, series bounds |
| C74 | pose control law and joint centering | uniqueness of the logarithm, flows of twists, closed-loop solution |
| C75 | Scalar, Stat: `boxMuller`, `z2x`, `mean`, `circMean`, `frandMinmax`, `mahalanobis` | image measure = product of Gaussian measures (polar coordinates); least squares; quadratic forms |
| C76 | Stat: `exclMeanStd`, `exclCircMeanStd` | induction on the loop; decomposition of the sum of squares; witnesses |
| C77 | Io on Region: `getline`, `readRealloc` | induction over the characters on the allocator model; witnesses |
| C78 | Io: `parsevector`, `readFix`, `readHeap` | relation `Nums` as specification; induction over the lines |
| C79 | Ik: `ikCheck` | forward kinematics of a chain (C43) with arbitrary memory; angle from the trace of the rotation |
| C80 | SgLim: `setLimit`, `getLimit`, `lindex`, `lrun` | heap invariant over histories; specification `lastLim` reads the history only |
| C81 | SgLimUse: `configCenter`, `centerConfigs`, `subCenter`, `subRand`, `ctLimits`, `ctSgLimits`, `centerGain` | loop lemma `fillLoop_eq`; extended reals for infinities |
| C82 | Model/SgCopy.lean (aa_rx_sg_copy, map_geom, add_geom, get_mass/inertia); frame objects are values | indexing depends only on the map and commutes with a change of payload; two sorted maps with the same members are equal; ColInv of the copy |
| C83 | Model/GlMask.lean (mask, is_masked, unmask_all; realloc with arbitrary new contents, memset checked against the block) | invariant: the words hold the set; Roomy histories; violation at the second growth |
| C84 | Model/GlCam.lean (camera and perspective setters of the globals, render matrix); GLfloat is the reals | matrices of the globals are a function of the camera in force (induction on history); C26, C27, C72 for poses |
| C85 | Model/GlMesh.lean (mesh builders of amino_gl.c for grid, box, sphere, cylinder, cone, torus); GLfloat is the reals; no textures | solids as predicates on points; supporting plane at every vertex; induction on rounds of subdivision |
| C86 | Model/GlMesh.lean | union of triangles as a set of points equals the specified set |
| C87 | Model/GlMesh.lean | counting sides modulo two: subdivision keeps closedness, bands and fans telescope |
| C88 | Model/SgFcl.lean | loop over visits as a set union; objects and their transforms against the documented solids |
| C89 | Model/SgFcl.lean | invariant of the table along the visits |
| C90 | Model/Mp.lean | simulation of a small specification state by histories of calls; FCL by contract as in C88 |
| C91 | Model/Mp.lean | simulation of C90 with the OMPL contract (path of accepted states from a start to the goal) |
| C92 | Model/SgFcl.lean, Model/SgCl.lean | C57 applied to the history extended by the calls that the loops make; C88 for the check |
| C93 | Model/Life.lean | invariant: counts equal references in the client's ledger, every block has one owner |
| C94 | Model/Life.lean | same invariant; openings of a plugin counted by meshes, graphs and overwritten destructors |
| C95 | Model/IkOpt.lean | derivatives of the logarithms (C67) composed with the Jacobians of the chain (C53); adjoints of the quaternion products |
| C96 | Model/IkSqp.lean | oracle with contract |
| C97 | Model/RxCt.lean | induction over integrator steps |
| C98 | Model/RxCt.lean | loop to fold |
| C99 | Model/Lp.lean | creation and changes keep an invariant between the described and the held program, solver contract, refinement |
| C100 | Model/Lp.lean | counting live contexts and problems |
| C101 | Model/MatExp.lean | overload relation to expression trees, evaluation in place by induction on the tree |
| C102 | Model/Spatial.lean | constructors, operators and members as relations; meaning by quaternions, dual numbers and matrices of Mathlib |
| C103 | Model/TfpCpp.lean | relations for the overloads; every object stands for a map of the complex plane; C65 for the functions of C; the uninitialised angle is a parameter |
| C104 | Model/Dual.lean | induction over expressions; derivatives along curves (HasDerivAt) |
| C105 | Model/GeomOpt.lean | invariant over histories of calls; the specification looks for the last call that set an option |
| C106 | Model/MpSeq.lean | lists of plans; floor of the time; induction over the loop that finds the plan and over frames |
| C107 | Model/WinCall.lean | interleaving semantics of threads, mutex and condition variable; inductive invariants; decreasing measure for termination; concrete schedules and closed sets of states for the violations |
| C108 | Model/SdlCam.lean | effect of each event as a motion of all points, sums over sequences by induction |
| C109 | Model/SdlLoop.lean | invariant over the history of observations of a loop with arbitrary clock, events and callbacks |
| C110 | Model/TfAvg.lean | spectral theorem and Rayleigh bound for the largest eigenvalue; frame lemmas for loops of stores; order statistics |
| C111 | Model/DuquMat.lean | matrices in memory against the product of dual quaternions; Jacobian against derivatives of paths in Mathlib; norm as a dual number |
| C112 | Model/TfCheck.lean | LAPACK inverse as arbitrary function; orthogonality in Mathlib matrices; error bound by rows |
| C113 | Model/TfCheck.lean | exponential of quaternions in Mathlib; all rotation vectors of a rotation classified |
| C114 | Model/TfCheck.lean | least distance among all points of line and plane |
| C115 | Model/TfCheck.lean | parity of RAND_MAX; C72 for the matrix |
| C116 | Model/Care.lean | linear algebra over Mathlib matrices (Proof/Care.lean): coprime characteristic polynomials, evenness of the Hamiltonian polynomial, invariant kernel argument, Lyapunov by the Cayley transform |
| C117 | Model/Lls.lean | memory model; dgelsd as an oracle with its contract; uniqueness of the plane gives that the points span the space |
| C118 | Model/Qr.lean | memory model with triangular copies; Householder products; LAPACK as an oracle; Gram matrices for the violation |
| C119 | Model/RegionData.lean | region model with byte contents; unused end of a chunk as a fictitious newest block |
| C120 | Model/Cv.lean | colour as a complex number r + g w + b w^2; norm, argument, conjugation and multiplication by w |
| C121 | Model/Validate.lean | doubles as numbers of a linear order or NaN; first-index specification of the loop; overflow a distinct outcome |
| C122 | Model/TjX.lean | poses read back from the memory of the state; geodesic of C29; layout of the arrays from the region model |
| C123 | Model/PyTf.lean | Python objects and exceptions as values, meanings as in C102, every conversion by the C-level theorems C23-C30, C71 |
| C124 | Model/PyMat.lean | Python heap with ownership by ctypes; invariant over all programs; arithmetic specification |
| C125 | Model/PySg.lean | a scene is the lists of its names (from C49); induction over the items of a dictionary; poses by C50 |
| C126 | Model/TfF.lean | derivative of Mathlib's quaternion exponential; remainder bounds of the series |
| C127 | Model/TfF.lean | logarithm of a slerp (slerpLog); product rule of quaternion curves; C29 and C68 |
| C128 | Model/TfF.lean | completing the square; C110 |
| C129 | Model/TfF.lean | polynomial identity; the first iteration of the loop |
| C130 | Model/IkParm.lean | refinement of a heap with owned and borrowed pointers to a specification without pointers |
| C131 | Model/PyLife.lean | invariant over all runs of a reference graph with arbitrary finalization; violations by explicit runs |
| C132 | Model/WinShow.lean | refinement of a heap state machine with an explicit display thread to the last-set values |
| C133 | Model/GlDraw.lean | invariant relating flags and buffers to the client's view, refinement of the drawing loop to a picture, matrices as affine maps |
| C134 | Model/TjXPb.lean | simulation by the joint trajectory of C47 in rotation vectors, induction on the waypoint list, angular velocity from C126 |
| C135 | Model/TrajChk.lean | induction over samples and segments; concrete witnesses |
| C136 | Model/TrajArr.lean | simulation of evaluation into a state; symbolic null stores |
| C137 | Model/RegionLocal.lean | simulation of private regions in a shared heap, induction over interleavings |
| C138 | Model/Ik.lean, Model/IkSqp.lean | step counts by induction over the integration; a sliding joint integrated exactly |
| C139 | Model/Octree.lean | induction over the leaves; the box sides as an iff |
| C140 | Model/Svd.lean | memory specs; the left factor of (1,0) determined up to signs |
| C141 | Model/Flex.lean, Model/WfScan.lean | longest-match scanner as a loop over rules, lines by induction, invariant over all inputs |
| C142 | Model/Flex.lean, Model/MtlScan.lean | as C141; materials by splitting the lines at newmtl |
| C143 | Model/MatIter.lean | iteration as a walk between addresses; induction over the lists, frame of every store |
| C144 | Model/IkJacStep.lean | frame of each array, conditions of Moore and Penrose, orthogonal projectors |
| C145 | Model/IkCx.lean | invariant over all sequences of calls, compared with the last value set |
| C146 | Model/FkObj.lean | state machine over scene graph and objects; ghost knowledge of the caller for safety; poses against the path products of C50 |
| C147 | Model/PyMp.lean | simulation by Model/Mp.lean, induction on the path |
| C148 | Model/MatAlloc.lean | modular arithmetic, loops of stores with frames |
| C149 | Model/PyCl.lean | simulation by sets of pairs |
| C150 | Model/Inv.lean | LU determinant criterion; loop of the workspace query; frames |
| C151 | Model/Spline.lean | Uniqueness of Hermite interpolation; integration by parts; frames |
| C152 | Model/Qp.lean | Closed form of the program built; quadratic forms; CGAL as a documented oracle |
| C153 | Model/LaF.lean | Loop invariant of the scaled norm; Euclidean geometry of Mathlib |
| C154 | Model/CurlyExp.lean | refinement of a grammar; shunting yard invariant; counting of operands and operators |
| C155 | Model/OptExp.lean | invariant of the map of constraints by induction over the constraints, invariant of the packed rows, case analysis of bounds; independent spec on the written constraints |
| C156 | Model/MeshDe.lean | induction over the corners with the list of keys (prefix, no duplicates) |
| C157 | Model/MtlLisp.lean | association lists; rounding to the nearest integer |
| C158 | Model/CurlyScene.lean | mutual induction over nested blocks; invariant relating class properties to class definitions |
| C159 | Model/LispSg.lean | Induction on the path from the global frame; uniqueness of poses gives soundness of the table |
| C160 | Model/SgGen.lean | Refinement: running the generated calls, phase by phase, gives the specified state |
| C161 | Model/Urdf.lean | Refinement: binding each node keeps the frames; induction over the nodes; poses by rule induction |
| C162 | Model/SgSet.lean | Lookup lemmas for insert, replace and union; induction over nested things |
| C163 | Model/SgRope.lean | Round trip: reading what was written, by induction over statements, geometry and frames |
| C164 | Model/Keyframe.lean | search trees of any shape, induction over sorted lists of key frames; affine maps as the specification |
| C165 | Model/NetRender.lean | Invariants by induction over reachable states; a weight that every step lowers |
| C166 | Model/TfTree.lean | Invariant of interned names; rule induction over poses |
| C167 | Model/LispTf.lean | Case analysis over kinds, on top of the theorems of C21-C30 |
| C168 | Model/PyDk.lean | Refinement of a state by values, by induction over programs |
| C169 | Model/SgCheck.lean | Induction over ranks of frames; loop as counterexample |
| C170 | Model/Encode.lean | pairwise order, reading of consecutive numbers |
| C171 | Model/PyIk.lean | induction over calls, on top of C145 |
| C172 | Model/PyDist.lean | invariant of the diagonal, simulation of two tables with the same distances |
| C173 | Model/Crs.lean | induction over elements and rows, prefix sums |

## Status

`MANIFEST.json` lists, per property, the status, the theorems and what is missing.
A property is `proved` only if the theorems cover its statement and quantifier as
written in `properties.jsonl`. An extra hypothesis makes it `partial`.

An audit of the claims against the statements changed these from `proved` to
`partial` (the theorems were renamed with the suffix `_partial`; the proofs did
not change, older lines of `seeded/LOG.jsonl` use the old names):

* C01, C02, C04, C05, C06, C08 assumed that malloc is 16-byte aligned or that
  release is never called. The statements quantify over all placements or all
  histories. C01 and C02 are proved false without the assumption, and so is the last
  part of C05. C04, C06 and C08 were later proved without it (`Prop/RegionAll.lean`).
* C16 assumes fewer than 2^32 references at a time; it is proved false beyond.
* C29 gives the second end point only up to sign, and the derivative only up to
  2^-100 for small nonzero angles.

The same audit found that C25 claims absence of division by zero while `x / 0` is
`0` in Lean, so the theorems then listed did not show it.
`C25_no_division_by_zero` was added for this.

### Division

Real division is total in Lean. Where a zero divisor matters the model returns
`none` or a property states that divisors are nonzero. Elsewhere a theorem about
a quotient says nothing about whether the C code divides by zero.

### Simplifications beyond the trusted base

* Euler-angle code generated from Maxima is modelled as the product of rotations.
* BLAS and LAPACK calls have their documented effect; casts to `int` are not modelled.
* Scratch arrays of the SVD code are functions; Hungarian arrays are functions on `Fin`.
* ODE states are elements of a real vector space; order results need systems
  analytic at the start point.
* Trajectories (C44-C48, C64): all states have the same number of joints and carry
  the arrays used. For C47 the previous link of the first segment is taken to be
  NULL, although C44 shows that it is indeterminate. Workspace (pose) trajectories
  are not modelled.
* Scene graph (C49-C52, C58): the frame map is a list sorted by name; frame pointers
  are values, so a frame object shared between graphs is not modelled. Configuration
  vectors are functions, transform arrays are lists of columns; leading dimensions
  are not modelled. The doubles a fixed frame writes past its matrix are counted
  but their effect on neighbouring memory is not followed.
* Chains (C53-C55): a sub-scenegraph is two index arrays with their counts. The
  loops that climb to the root take a fuel argument; the theorems give a bound on
  it. A Jacobian is the list of its columns, so leading dimensions are not modelled.
* Collision sets (C56, C57): a `vector<bool>` is a list of booleans; geometry and the
  collision library are not modelled, only which pairs are allowed.
* Collision checks (C88, C89): FCL is a function given by its contract. The narrow phase answers
  whether two placed solids have a common point, or their distance and nearest points; the
  broad phase calls the callback for every colliding pair (checks) or every pair (distances)
  in some order. A mesh is the union of its triangles. The contacts of FCL are arbitrary.
* Lifetimes (C93, C94): one thread; contents of arrays are opaque; memory of the objects
  themselves is present or absent, their arrays and attachments are numbered blocks. Clients
  are described by a ledger (`Prop/LifeLed.lean`) that knows only references, frames and
  data given. A generated plugin is modelled with one frame and one mesh. Allocation
  failure and `dlopen` failure are not modelled.
* Objectives of the optimizing solver (C95): values and gradients at one configuration, over
  the reals. NLopt itself and the finite difference variants (except the helper that C95's
  second violation is about) are not modelled. The stack of a region holds no aliases.
* Motion planning (C90, C91): the planners of OMPL are not modelled. A call of `aa_rx_mp_plan`
  is given the states that the planner asks about and the path that it finds; the contract is
  that a path leads from a start state to the goal state through accepted states. Motions
  between waypoints, timeouts, exceptions, path simplification and the sampling of workspace
  goals are left out. Forward kinematics is an arbitrary function of the configuration.
* Inverse kinematics (C43): the differential system being integrated is an arbitrary
  function in the soundness theorems; in the violation witnesses it is the modelled
  system for an arbitrary pseudo-inverse. Restarts are a list of seeds. Position
  limits are a function of the configuration number. The iteration count carries
  over from one restart to the next, as in the code. Forward kinematics in the check
  starts from the same columns each time; `fkSub_again` shows that this is harmless
  for chains. The optimization-based solver is not modelled.
* Linear programs (C59, C60): bounds are extended reals, so NaN and rounding are not
  modelled. The solver libraries are not modelled; a bound has its documented
  meaning, without the thresholds above which a library treats a number as
  infinite. The solution of the program in C60 is any point of the feasible set.
  `glp_simplex` returning 0 does not by itself mean that the point is feasible.
* Planar arm (C61): a division by zero or the square root of a negative number is the
  outcome `none`.
* Wavefront files (C62): the generated scanner is not modelled; a file is a list of
  directives and a number is a list of characters. `strtol` saturates as in C.
  Rounding of the `double` result is not modelled. In the specification the exponent
  letter is `e`; the scanner also accepts `d` and `s`.

* Derivatives (C67, C68): each 4x4 block of the dual quaternion Jacobian is a separate
  matrix; the views through which the code writes it are not modelled.
* Linear programs (C99, C100): the solver libraries are functions from the held
  program to a result, bounded by a contract (`GlpOk`, `ClpOk`, `LpsOk`: what a
  result of success says about the program that the library holds). Their own
  thresholds for infinity, failures of `make_lp`, exhausted memory, arrays of size
  zero on the stack and LP-Solve's `set_int`/`set_binary` are not modelled. Numbers
  are reals of which absolute value at most `DBL_MAX` counts as representable.
* Camera control (C108): `aa_sdl_scroll_event` is modelled with one value per kind of
  event and the state of the modifier keys; not modelled are the clipboard, the viewport
  of OpenGL and overflow of differences of mouse positions.
* The display loop (C109): the clock, the queue of SDL, the callbacks of the user, the
  control of the camera and the space navigator are arbitrary functions or inputs. The
  pointer to the event is modelled by whether its object is alive. Times have no bounds.
* Average orientation and relative translation (C110): `aa_tf_quat_davenport`, `aa_tf_quat_davenport_matrix`,
  `aa_tf_relx`, `aa_tf_relx_mean` and `aa_tf_relx_median`, over the reals. `aa_la_d_eev` (LAPACK `geev`) is an
  arbitrary function; what is trusted about it is `EevSpec`, for symmetric 4x4 matrices only. Its copy of the
  matrix uses leading dimension `lda` for a packed copy, which is the same for the call here (`n = lda = 4`).
  The scratch array of the local region is an argument, disjoint from the other arrays.
* Dual quaternions as matrices (C111): `aa_tf_duqu_matrix_l/r`, the cross product matrices and the block
  copies are stores into an arbitrary memory with any leading dimension; `aa_dmat_gemm` is the mathematical
  product (`alpha = 1`, `beta = 0`), so the code that checks sizes inside it is not part of this model. The
  scratch memory of `aa_tf_duqu_jac_vel2diff` is arbitrary. `aa_tf_duqu_norm` and `aa_tf_duqu_vnorm` yield
  `none` where the code divides by zero.
* Rotation test, nearest rotation vectors, projections, random poses (C112 to C115): `aa_la_inv` is an arbitrary
  function; only on invertible matrices it must return the inverse. `rand()` is an arbitrary sequence of
  numbers up to `RAND_MAX`. Divisions by zero of the projection and of the normalization of a random
  quaternion yield `none`.
* Riccati equation (C116): `src/are.c` over the reals, with its arrays in one memory. `dgees` and `dgels` are
  arbitrary functions on memory; that they keep the contracts `GeesOk` and `GelsOk` in the two calls made is a
  hypothesis (exact arithmetic, `info = 0`). Not modelled: workspace queries and workspaces, the memory
  region, the eigenvalues stored in `wr`, `wi`. Stabilizability and detectability are the tests of Popov,
  Belevitch and Hautus on complex eigenvectors.
* Least squares and plane fitting (C117): `aa_la_d_lls`, `aa_la_d_colfit`, `aa_la_lls`, `aa_la_plane_fit` over real memory.
  `dgelsd` is an arbitrary function with its documented contract (only at the call made); workspace queries and singular
  values are left out; scratch memory is given by addresses that overlap nothing. A norm of zero is `none`.
* QR and eigenvalues (C118): `aa_la_d_qr` and `aa_la_d_eev` over real memory. `dgeqrf`, `dorgqr`, `dgeev` are arbitrary
  functions with their contracts; `dlaset` and the triangular `dlacpy` are loops. A read behind the scratch copy is `none`.
* Filled blocks of regions (C119): `aa_mem_region_zalloc`, `dup`, `strdup`, `vprintf` and `printf` on the region of C01 with bytes.
  `vsnprintf` is given by the text it produces and does not fail; memory outside the region is an arbitrary predicate.
  Conversion of the free size to `int` is modelled with 32 bits.
* Colours (C120): `aa_cv_rgb2hsv` over the reals; `none` is a division by zero. Rounding is not modelled.
* Validators (C121): doubles that are compared are `none` (not a number) or elements of an arbitrary linear order; `(int)n` keeps the low 32 bits; differences of `long` may overflow (`none`). The norm of `aa_valid_vunit` is over the reals.
* Interpolated trajectories (C122): one memory cell for each double; the seven arrays of a state are laid out as the region allocates them when its chunk has room (`layout_region`); the way points are values. `aa_ct_seg_list_eval` is that of a list of one segment.
* Python rotation and pose classes (C123, `Model/PyTf.lean`): python/amino/tf.py 44-1180 without arithmetic of vectors,
  item access, `exp`, `ln`, `isclose`, `normalize`, `minimize` and printing. An object is the value of its fields (that
  operators return new objects is proved only for vectors and matrices, C124); method lookup, `isinstance` tests, property setters (those of
  `EulerRPY` override `y`) and the exceptions raised are explicit. ctypes passes the same numbers in the same order to C.
* Vectors and matrices of Python (C124): `python/amino/mat.py` as a small language of statements over
  variables. Modelled: constructors from sizes, lists and objects, all operators with their dispatch, slices,
  rows, columns, diagonals, blocks, element access, `transpose`, names and `del`, and which object owns which
  array (`ctypes` keeps arrays assigned to pointer fields by Python, and nothing for fields filled by C).
  Not modelled: which exception is raised, objects inside containers, reference cycles, the memory limit,
  the methods `axpy`, `gemv`, `gemm`, `pinv`, `inv`, `ssd` and `nrm2` called directly, `copy_to` and printing.
  Storage is never used twice by the model; use after release is undefined behaviour.
* Python scene graphs (C125, `Model/PySg.lean`): names, ids, configurations and `SceneFK`, on top of the models of the
  C functions (C49, C50). Keys are `str` or `int` (no `bytes`, no floats), names have no null character, vectors are the
  lists of their elements. `aa_rx_sg_frame_id` on a graph changed since `init` gives the outcome `stale`, not modelled
  further. Geometry, collision, `SceneDK`, `SceneIK` and `SubSceneGraph` of Python are not part of it.
* The Fortran half (C126-C129, `Model/TfF.lean`): rates of rotation vectors, `aa_tf_qsquad`, `aa_tf_qsquad_param`,
  `aa_tf_qslerp3diff`, `aa_tf_qutr_wavg` and the functions of Horner's rule, over the reals. A logarithm that divides by
  zero, a NULL weight and a read outside of an array are `none`. The interfaces between Fortran and C (shapes and
  `bind(C)` names) are not modelled.
* Arrays of the parameters of inverse kinematics (C130, `Model/IkParm.lean`): a heap of blocks; pointers are to the
  start of blocks (no pointers into the middle); `malloc` never fails. The numbers computed by
  `center_configs`/`center_seed` are inputs. Of the solver only lines 423-428 of scene_ik.c are in this model (the rest is in
  `Model/Ik.lean`). The other fields of the parameters are not arrays and are left out.
* Lifetimes of Python objects (C131): `Model/PyLife.lean`.  Objects are records of the attributes that refer to other
  objects and of the pointers inside their C objects; a finalizer may run at any step for any object that cannot be
  reached.  Methods may access everything that can be reached by attributes or pointers.  Left out: reassigning public
  attributes such as `fk.scenegraph` (only `SceneWin.scenegraph` has a setter in the code), `Geom`/`GeomOpt` objects,
  and what destructors of FCL and OMPL do beyond their own object (taken to access nothing else).
* What a window shows (C132): `Model/WinShow.lean`.  Heap of contexts, plans and configuration arrays; the display
  thread is a state machine of frames that hold the mutex.  Calls that wait for the mutex are listed when they proceed.
  Left out: `aa_rx_win_set_sg_sub`/`workspace_control`, display functions of the user, drawing itself, sequences of the
  user are taken to be alive.
* Drawing (C133): what OpenGL receives is modelled up to the output of the vertex shader over the real
  numbers; every shape is drawn as a mesh.  Contexts of OpenGL, colours, textures and the fragment
  shader are not modelled.  Frames of a copied graph keep their order.
* Blended workspace trajectories (C134): `Model/TjXPb.lean` is the waypoint loop of `aa_ct_tjX_pb_generate`
  (rotation vector near that of the last point kept), followed by the blend generator of Model/Traj.lean on six
  numbers, and `aa_ct_tjX_pb_eval`, which writes only `X`. Limits are taken to be present (not NULL); as in C47
  the `prev` pointer of the first segment is taken to be NULL.
* Checking a trajectory (C135), `Model/TrajChk.lean`: both loops of `aa_ct_seg_list_check_c0` with the
  hidden iterator and the exchanged states, over ℝ (sample times are exact multiples of `dt`); the
  memory region is a separate model using `Model/Region.lean`, given the code returned and whether the
  pointers are exchanged.  Not modelled: the text of the warnings.
* Evaluating into arrays (C136), `Model/TrajArr.lean`: the three evaluation functions with pointers that
  may be `NULL`; a store through `NULL` or past the end is the outcome `none`.
* Thread-local regions (C137), `Model/RegionLocal.lean`: the slot of every thread, the structures in
  memory and one heap shared by all threads; the region functions are those of `Model/Region.lean` run
  in the shared heap. A call is one step of a schedule. POSIX keys are modelled as specified (the
  destructor runs at the end of a thread on a value that is not null); `pthread_once`,
  `pthread_key_create` and `malloc` do not fail.
* Restarts of inverse kinematics (C138) reuse `ikLoop` and `ikJpinv` of Model/Ik.lean. The random seeds of the
  restarts are an arbitrary list; the elapsed time that ends the loop is the length of that list. The result of
  an attempt by itself is `ikJpinv` started with a counter of zero.
* Octrees (C139): the tree is the list of leaves octomap's leaf iterator yields, each with occupancy, centre and
  side (`getSize` of octomap is the side of the cube). Numbers are reals. The function-local `static` of
  `aa_rx_sg_add_octree` is a part of the state of the process. Not modelled: reading octree files,
  `aa_rx_geom_octree` (which writes through a null pointer) and the drawing of such a geometry (octree_gl.cpp).
* Singular value decomposition (C140): `dgesdd` and `dgesvd` are arbitrary functions on memory; that they put a
  decomposition of their input into their output arrays is a hypothesis, at the actual calls. Workspaces and
  workspace queries are not modelled.
* OBJ scanner (C141): flex turns wavefront.l into an automaton that is not in the repository; the
  model is the documented meaning of the description (longest match, first rule among equals,
  unmatched characters dropped, end of input returns 0).  Numbers are rationals as in C62, the parse
  of an MTL file named by `mtllib` is an arbitrary yes or no per name, memory and file errors other
  than a missing file are not modelled.
* MTL scanner (C142): as for C141; the stack of start conditions is a list, popping the empty one is
  a fatal error; `current` is the material pushed last.
* Iterators of the C++ vectors and matrices (C143): an iterator is its address; a range-based `for`
  stops when the address equals that of `end`. `col_mat`, `row_mat`, `init` and `assign` are modelled
  store by store, a store at or after the end of the allocation is undefined. Not modelled: allocation
  itself (the elements lie at an arbitrary address), alignment, backward and postfix operators.
* The step of the Jacobian solver (C144): over the reals, `aa_la_dzdpinv` and `aa_la_xlsnp` as in C37,
  the decomposition of LAPACK as a hypothesis at the call. The poses of `aa_rx_ik_jac_x2dq` are values,
  not memory. Not modelled: the region from which `w_e` is taken.
* Contexts of inverse kinematics (C145): a state machine over the setters; forward kinematics is an
  arbitrary function, the size check of `aa_dvec_copy` ends the run. Not modelled: allocation and the
  local region (`aa_rx_ik_solve` does not give back its memory when `TF` has not one column).
* Integer modulo of both widths, remainders and degrees (C19, Model/Num.lean): integers are those of the C
  types with overflow and division by zero as the outcome `none`. The macro `AA_MODULO` is modelled as the
  functions use it, not inside larger expressions.
* Objects of forward kinematics (C146): any number of `struct aa_rx_fk` for one scene graph, as columns
  that may never have been written; abort and undefined behaviour are separate outcomes. Not modelled:
  writing through `aa_rx_fk_ref`/`aa_rx_fk_data`, objects of different graphs, failing allocation, and
  reuse of the memory of a region.
* Motion planning from Python (C147): `motion_plan` on top of the context of C90/C91 (Model/Mp.lean), with the array of the path, its slicing in Python, and what is never released. What simplification makes of a path (`path_cleanup`, scene_ompl.cpp:174-192) is taken as part of what the planner finds, so the contract of the planner is about the cleaned path. Assertions are on.
* Allocation of vectors and matrices (C148): byte addresses, sizes that wrap at 2^64, conversions to the 32-bit `int` of BLAS and LAPACK, and descriptors of 24 and 32 bytes. Whether the allocator gives disjoint blocks is C01's matter; here it gives a block of the size asked for or nothing.
* Collision checking from Python (C149): `SceneCollision` and `SceneCollisionSet` on one scene graph that is not changed afterwards, over the check of C88 and the sets of C56. A `SceneFK` passed to `check` is one of the same scene graph with a configuration assigned.
* Inverse in place (C150): `dgetrf` and `dgetri` are arbitrary functions with what LAPACK documents of them,
  over the reals, assumed at the calls made; pivots and workspace are outside of the modelled memory.
* Splines (C151): the four Fortran routines and their C interfaces over the reals, an array being an address and an
  increment; array assignments are loops over the elements, which is what Fortran allows when the result overlaps no
  argument. Rounding is not modelled.
* Quadratic programs (C152): the program that is handed to CGAL is built as the code does, with CGAL's setters and
  defaults; what CGAL answers is an arbitrary solution about which only its documentation is assumed, at the actual call
  and only for a positive semidefinite quadratic part: a value for every variable and a valid certificate of being
  optimal, infeasible or unbounded. Over the reals; the printed solution and the conversion to doubles are not modelled.
* Vectors in Fortran (C153): the procedures of src/la_implf.F90 on arrays that are functions of an index, returning
  their results; `dot_product` and `sum` are sums over the reals. Of that file, `colfit` and the assignment solver are
  not modelled (their C counterparts are, C117 and C38).
* Arithmetic in scene files (C154): `lisp/rx/inex.lisp` whole, and of `lisp/rx/scenefile/curly.lisp` the
  reading of definitions, attributes and arrays and `curly-eval`.  Lisp objects are an inductive type, `nil`
  is the empty list, popping an empty stack gives `nil` as in Lisp.  The recursion of `expr-paren` is an
  explicit stack.  Not modelled: the regular expressions of the lexer (the tokens are the input), blocks,
  classes and includes.  Numbers are a field, `expt` is any partial function; signalled errors are `none`.
  The specification (`Prop/CurlySpec.lean`) is a stratified grammar and a recursive value function.
* Symbolic linear programs (C155): `lp` of lisp/opt down to the arrays given to the solver.  Not modelled: reading
  of the list syntax, floating-point rounding, the order of rows, the solver, quadratic objectives (dead code),
  `optexp-add-bounds`.  Which of the two methods of the accessor `optexp-default-x-upper` is in force is a parameter.
* Meshes of the scene compiler (C156, `Model/MeshDe.lean`): `mesh-deindex-normals` of lisp/rx/mesh.lisp and the
  array arguments written by `scene-genc-mesh-functions` / `scene-genc-mesh-texture`.  Not modelled: printing of
  numbers as C literals, the bytes of the texture, floating-point rounding of the texture coordinates.
* Materials of compiled meshes (C157, `Model/MtlLisp.lean`): `wavefront-material-extract`,
  `wavefront-mtl-extract`, the materials of `wavefront-obj-load` and the bytes of `scene-genc-mesh-texture`, on
  the materials the scanner of C142 leaves.  Numbers are rationals.
* Frames, geometry and classes of scene files (C158, `Model/CurlyScene.lean`): `load-curly-scene` on the blocks
  the parser makes, with values as evaluated by C154.  Spec in `Prop/CurlySceneSpec.lean`.  Not modelled:
  definitions, allowed collisions, conversion of values to rotations and vectors, loading of meshes.
* Poses in Lisp scene graphs (C159): `Model/LispSg.lean`.  Transforms are any group and joints any function from
  configurations to it, so normalisation and rounding are left out, as are limits, drawing options and names of
  configuration variables.  Recursion on the parent has a bound on its depth, and no result for any bound means that
  the code does not return.
* Compiled scene graphs (C160): `Model/SgGen.lean`.  The generated function is the list of its calls of the C library,
  not its text; the C library is its maps of frames and limits and the set of allowed collisions.  Meshes stand by
  name.  `loaded` tells whether a mesh of the Lisp graph has been bound to a C object, which is not modelled.
* Scene graphs of URDF files (C161): `Model/Urdf.lean`.  The document is a list of joint records and a list of link
  records (reading XML, numbers and package paths is left out).  Transforms are any group with decidable equality, the
  motion of joints and translations along z are given functions; that translations add is a hypothesis.  Poses in the
  scene graph are those of C159.  Errors of the Lisp code are `none`.  The specification gives link poses by rules over
  joints, as the URDF documentation does.
* Sets of Lisp scene graphs (C162): `Model/SgSet.lean`.  Tree sets of the Sycamore library are lists of their
  elements; that inserting keeps an equal element and replacing takes the new one is assumed of the library.  Limits are
  those of positions, in an ordered field (rounding of the centre is left out).  Errors are `none`.  Loading files is left
  out.  Poses are those of C159.
* Scene files written from Lisp scene graphs (C163): `Model/SgRope.lean`.  The file is the list of its statements,
  read by the model of C158, together with the rule of the lexer for bare words; the text of numbers (`~F` and what the
  rope library prints) and white space are left out, as are names with characters no word can have.
* Key frame animations (C164): maps of configurations are lists in the order of names, sets of pairs are search trees
  of any shape whose elements are those inserted in order, a pair that compares equal to one already there being
  dropped as Sycamore's `tree-set` does; numbers are of an ordered field, dividing by zero and reading a slot of `nil`
  are errors.  The sort is stable.  Lines of a file are words or nothing.  Rendering and encoding are left out.
* Rendering on several hosts (C165): a transition system of the thread of `net-process` and the hooks that run when
  processes and copies end, in any order; one hook, and one look of the thread at the table, are single steps, so hooks
  that interrupt the thread in the middle of an update are left out, as are hooks for processes that merely stop.
  Whether a process did its work is not looked at by the code and has no place in the model.
* Transform trees (C166): a name is a string with the object that holds it, for `eql`; maps and sets are lists that
  compare strings; transforms are of any monoid; frames have names, so `nil` as a child is left out.
* Orientations of the Lisp library (C167): generic functions are matches over kinds, `none` where no method applies;
  arrays and lists of components are left out, and matrices are of size 3×3.
* Velocities from Python (C168): vectors are names in a store; the pose of the end effector and the product with the
  pseudo-inverse are functions of the configuration; writing to the pose that `ref_tf` returns is left out.
* Checks of Lisp scene graphs (C169): on top of the scene graphs of C159 in Model/LispSg.lean; which error is
  signalled is left out, and `rope-string` of no parent is the empty string.
* Videos of frames (C170): images are their numbers, `directory` lists them in any order, and `sort` leaves the
  variable at the cell that was first, as SBCL does; ffmpeg reads from the first number below 5 as long as there is a
  next one (this is how ffmpeg documents its image2 input, and it is not part of /repo). Failing programs are left out.
* Inverse kinematics from Python (C171): `SceneIK` on top of the contexts of C145 in Model/IkCx.lean. References are
  values, seeds are lists of numbers, and what the algorithms make of their inputs is an arbitrary function (for them
  see C43, C79, C95, C96 and C138). Writing to the object that `ref_tf` returns is left out.
* Separation distances from Python (C172): `SceneCollisionDist` on top of the table of C89 in Model/SgFcl.lean; a check
  is given by the pairs allowed, the frames of the objects, the answers of FCL and the pairs that its manager visits.
  The scene graph does not change after the object was made.
* Sparse matrices of the Lisp library (C173): lisp/sparse.lisp:40-111; types of slots are checked, as SBCL does by
  default, columns are natural numbers and no number is too large for its type. `with-foreign-crs` (117-138) is left
  out; the lengths that it checks are part of C173.
* Calls in the thread of the window (C107): steps of the threads interleave at single
  accesses of sequentially consistent memory (the data race itself is a violation).
  `s_handler` and its argument are read in one step. The loop does not end, and a
  thread that only creates the window makes no calls. SDL and OpenGL are not modelled.

### Disagreements between code and properties

Each theorem named `violates` is a concrete witness. The notes in `MANIFEST.json`
say what it shows.
