{"id": "C01", "title": "Region allocations never overlap and stay inside owned memory", "statement": "After any history of region operations (init, alloc, tmpalloc, pop of a block that is still live, release), every live block [p,p+size) handed out by aa_mem_region_alloc lies inside a heap chunk currently owned by the region, and two different live blocks are disjoint.", "quantifier": "all operation histories, all sizes, all placements chosen by malloc", "why_tests_cant": "overlap depends on the sizes, the chunk boundaries and the addresses malloc returns along a whole history; a test sees one layout", "anchors": ["src/mem.c:aa_mem_region_alloc", "src/mem.c:aa_mem_region_grow", "src/mem.c:aa_mem_region_pop", "src/mem.c:aa_mem_region_release"]}
{"id": "C02", "title": "Region blocks are 16-byte aligned", "statement": "Every pointer returned by aa_mem_region_alloc/tmpalloc is a multiple of 16, in every history.", "quantifier": "all operation histories, sizes, and malloc placements", "why_tests_cant": "alignment has to be re-established after every operation (pop, release, growth), for every address malloc may return", "anchors": ["src/mem.c:aa_mem_region_alloc", "src/mem.c:aa_mem_region_align", "src/mem.c:aa_mem_region_release", "include/amino/mem.h:AA_ALIGN2"]}
{"id": "C03", "title": "Popping a block keeps every earlier block", "statement": "aa_mem_region_pop(reg,p), where p was obtained earlier from the region (a block address or aa_mem_region_ptr), frees p and everything allocated after it and leaves every block allocated before p live, at the same address and inside owned memory.", "quantifier": "all operation histories and every saved pointer", "why_tests_cant": "whether the pop takes the fast or the slow path, and whether the saved pointer is still inside a chunk, depends on chunk boundaries met only in particular histories", "anchors": ["src/mem.c:aa_mem_region_pop", "src/mem.c:aa_mem_region_pop_in_node", "src/mem.c:aa_mem_region_grow", "include/amino/mem.h:aa_mem_region_pop"]}
{"id": "C04", "title": "A region never leaks or double frees a chunk", "statement": "At every point of every history the set of malloc'ed and not yet freed chunks equals the chunks reachable from the region, no chunk is freed twice, and aa_mem_region_destroy leaves none.", "quantifier": "all operation histories", "why_tests_cant": "leaks and double frees are global facts on a history of ownership transfers", "anchors": ["src/mem.c:aa_mem_region_node_alloc", "src/mem.c:aa_mem_region_node_free", "src/mem.c:aa_mem_region_destroy"]}
{"id": "C05", "title": "Releasing a region keeps its capacity in one chunk", "statement": "aa_mem_region_release leaves exactly one chunk, whose capacity is at least the sum of the capacities of all previous chunks, so the same sequence of allocations cannot need to grow again when their padded total fits.", "quantifier": "all region states", "why_tests_cant": "quantifies over all chunk chains", "anchors": ["src/mem.c:aa_mem_region_release", "src/mem.c:aa_mem_region_freesize", "src/mem.c:aa_mem_region_chunk_count"]}
{"id": "C06", "title": "tmpalloc then alloc returns the same block", "statement": "aa_mem_region_tmpalloc(reg,n) followed by aa_mem_region_alloc(reg,m) with m<=n returns the same pointer, allocates no chunk, and the block has n usable bytes.", "quantifier": "all region states and sizes", "why_tests_cant": "the two-call protocol must work at every chunk boundary", "anchors": ["src/mem.c:aa_mem_region_tmpalloc", "src/mem.c:aa_mem_region_alloc"]}
{"id": "C07", "title": "tmprealloc preserves the bytes of the temporary block", "statement": "aa_mem_region_tmprealloc(reg,n) returns a block of n usable bytes whose prefix equals the previous temporary block, without reading freed memory.", "quantifier": "all region states, sizes and memory contents", "why_tests_cant": "the failing states (chunk freed by growth, head past the end) need particular layouts", "anchors": ["src/mem.c:aa_mem_region_tmprealloc", "src/mem.c:aa_mem_region_grow"]}
{"id": "C08", "title": "Pool never hands out a block twice", "statement": "For any history of aa_mem_pool_alloc / aa_mem_pool_free (of blocks currently allocated), a block returned by alloc is not currently allocated, and blocks are reused in last-freed-first order.", "quantifier": "all alloc/free histories", "why_tests_cant": "aliasing of an intrusive free list is a history property", "anchors": ["src/mem.c:aa_mem_pool_alloc", "src/mem.c:aa_mem_pool_free", "src/mem.c:aa_mem_pool_release"]}
{"id": "C09", "title": "Region list behaves as a double-ended list", "statement": "Any sequence of aa_mem_rlist_push / enqueue / pop acts on the abstract list as prepend / append / take-first, returns NULL exactly on the empty list, and aa_mem_rlist_map visits exactly the abstract list in order.", "quantifier": "all operation sequences and element values", "why_tests_cant": "tail-pointer bugs appear only after particular interleavings of pop-to-empty and enqueue", "anchors": ["src/mem.c:aa_mem_rlist_push_ptr", "src/mem.c:aa_mem_rlist_enqueue_ptr", "src/mem.c:aa_mem_rlist_pop", "src/mem.c:aa_mem_rlist_map"]}
{"id": "C10", "title": "Growable vectors append without loss", "statement": "After any sequence of pushes to an AA_VECTOR, the vector holds exactly the pushed values in order, every write was inside the allocated capacity, and the number of reallocations is logarithmic in the number of pushes.", "quantifier": "all push sequences and initial capacities", "why_tests_cant": "needs all lengths and all initial capacities, including the growth boundary", "anchors": ["include/amino/mem.h:AA_VECTOR_PUSH", "include/amino/mem.h:AA_VECTOR_DEF"]}
{"id": "C11", "title": "Bit sets read back what was written", "statement": "aa_bits_set(b,i,v) makes aa_bits_get(b,i) true exactly when v is nonzero and leaves every other bit unchanged; aa_bits_words(n) words are enough for bits 0..n-1.", "quantifier": "all bit sets, indices, and values", "why_tests_cant": "frame condition over all other bits and all word boundaries including the sign bit", "anchors": ["include/amino/mem.h:aa_bits_get", "include/amino/mem.h:aa_bits_set", "include/amino/mem.h:aa_bits_words"]}
{"id": "C12", "title": "Bitwise set operations terminate and combine the sets", "statement": "aa_bits_and/or/xor(a,b,n) terminate, touch only the first aa_bits_words(n) words of a, and leave in a the intersection / union / symmetric difference.", "quantifier": "all bit-set lengths and contents", "why_tests_cant": "termination and frame for every length", "anchors": ["include/amino/mem.h:aa_bits_and", "include/amino/mem.h:aa_bits_or", "include/amino/mem.h:aa_bits_xor"]}
{"id": "C13", "title": "Memory swap exchanges exactly two ranges", "statement": "aa_memswap(a,b,n) exchanges the n bytes at a and b and changes no other byte, for any n, including n not a multiple of the word size.", "quantifier": "all byte contents, all lengths", "why_tests_cant": "all lengths modulo the word size and all contents", "anchors": ["include/amino/mem.h:aa_memswap"]}
{"id": "C14", "title": "Heap sort sorts", "statement": "aa_aheap_sort applied to an array that aa_aheap_build has made a heap leaves an ascending permutation of the input, for every total preorder comparison and every length; build itself establishes the heap order.", "quantifier": "all arrays, lengths, comparison functions", "why_tests_cant": "all lengths and all value patterns, duplicates included", "anchors": ["src/heap.c:aa_aheap_build", "src/heap.c:aa_aheap_sort", "src/heap.c:aa_aheap_heapify", "src/heap.c:aa_aheap_check"]}
{"id": "C15", "title": "Heap check reports a violation", "statement": "aa_aheap_check returns a value from which a caller can tell a valid heap from an invalid one, for every array.", "quantifier": "all arrays", "why_tests_cant": "over all arrays; the ambiguous case is one return value", "anchors": ["src/heap.c:aa_aheap_check"]}
{"id": "C16", "title": "Reference count releases exactly once", "statement": "With aa_mem_ref_inc / aa_mem_ref_dec called from any number of threads, under every interleaving and for both the C11 and the mutex version: if the count starts at 1 and every call is made while holding a reference, exactly one decrement returns 1, it is the one that drops the last reference, and no counter update follows it; the mutex version never deadlocks.", "quantifier": "all thread schedules", "why_tests_cant": "schedules are unbounded and races are not reproducible", "anchors": ["src/refcount.c:aa_refcount_inc", "src/refcount.c:aa_refcount_dec", "include/amino/refcount.h"]}
{"id": "C17", "title": "Time arithmetic is exact on normalized timespecs", "statement": "aa_tm_add/aa_tm_sub of timespecs return a timespec with 0<=nsec<10^9 representing exactly the sum/difference in nanoseconds, and aa_tm_cmp orders by represented instant.", "quantifier": "all timespecs, negative seconds included", "why_tests_cant": "carry and borrow cases, negative times, over all values", "anchors": ["include/amino/time.h:aa_tm_add", "include/amino/time.h:aa_tm_sub", "include/amino/time.h:aa_tm_make_norm", "include/amino/time.h:aa_tm_cmp"]}
{"id": "C18", "title": "Endian conversion round trips", "statement": "Converting a value to little or big endian byte order and back is the identity, conversions produce the documented byte order, and the host-specific function set is the same on little and big endian hosts.", "quantifier": "all byte strings and both host byte orders", "why_tests_cant": "tests run on one host endianness", "anchors": ["include/amino/endconv.h"]}
{"id": "C19", "title": "Scalar helpers keep their range", "statement": "aa_fclamp returns a value within [min,max] equal to the input when it is inside; aa_fdeadzone returns the dead value exactly strictly inside the dead zone and the input otherwise; the modulo helpers return a value congruent to the input inside the half-open interval, without undefined behaviour; the angle normalizations return an equal angle in their interval.", "quantifier": "all reals / integers", "why_tests_cant": "all values including negatives and boundaries", "anchors": ["include/amino/math.h:aa_fclamp", "include/amino/math.h:aa_fdeadzone", "include/amino/math.h:aa_lmodulo", "include/amino/math.h:aa_fmodulo"]}
{"id": "C20", "title": "Circular statistics", "statement": "aa_stat_circ_std returns the circular standard deviation sqrt(-2 ln R) of the samples.", "quantifier": "all nonempty sample vectors", "why_tests_cant": "a formula has to be right on every sample set", "anchors": ["src/math.c:aa_stat_circ_std", "src/math.c:aa_stat_circ_mean"]}
{"id": "C21", "title": "Quaternion product is associative, multiplicative and reversed by conjugation", "statement": "aa_tf_qmul is associative with identity (0,0,0,1), |ab| = |a||b|, conj(ab)=conj(b)conj(a), and aa_tf_qcmul/aa_tf_qmulc/qinv are the products with conjugate/inverse.", "quantifier": "all quaternions over the reals", "why_tests_cant": "algebraic laws over a continuum", "anchors": ["src/tf/quat_ord.c", "include/amino/tf/quat.h"]}
{"id": "C22", "title": "Vectorized kernels agree with the scalar definitions", "statement": "The SIMD implementations (aa_vecm_cross, aa_vecm_qmul, aa_vecm_qrot, aa_vecm_tfmul, aa_vecm_tfmul_2d, aa_vecm_duqu_mul) return the same result as the scalar definitions, for every input.", "quantifier": "all real inputs", "why_tests_cant": "a wrong lane shows up only on inputs that exercise that lane and is masked by sparse test data", "anchors": ["src/vec.c", "include/amino/arch"]}
{"id": "C23", "title": "Rotating by a unit quaternion is a rigid rotation", "statement": "aa_tf_qrot by a unit quaternion equals q v q*, preserves dot products, norms and cross products, is invertible by the conjugate, and composes: rotating by ab is rotating by b then a.", "quantifier": "all unit quaternions and vectors", "why_tests_cant": "continuum", "anchors": ["src/tf/quat_ord.c:aa_tf_qrot", "src/tf.c"]}
{"id": "C24", "title": "Quaternion to rotation matrix is a homomorphism into SO(3)", "statement": "aa_tf_quat2rotmat of a unit quaternion is orthogonal with determinant one, acts on vectors as aa_tf_qrot, maps quaternion product to matrix product, and identifies exactly q and -q.", "quantifier": "all unit quaternions", "why_tests_cant": "continuum; sign and transposition errors cancel on symmetric examples", "anchors": ["src/tf/conv.c:aa_tf_quat2rotmat", "src/tf/tfmatrix.c"]}
{"id": "C25", "title": "Rotation matrix to quaternion round trip", "statement": "aa_tf_rotmat2quat of the rotation matrix of a unit quaternion q returns q or -q, in every branch, with no division by zero.", "quantifier": "all unit quaternions", "why_tests_cant": "four branches over a continuum", "anchors": ["src/tf/conv.c:aa_tf_rotmat2quat"]}
{"id": "C26", "title": "Transform representations agree", "statement": "Composition, inversion, chaining and point transformation computed with quaternion-translation, dual quaternion and 3x4 matrix representations commute with the conversions between them.", "quantifier": "all unit quaternions / translations / points", "why_tests_cant": "continuum; cross-representation consistency of every pair of operations", "anchors": ["src/tf/quat_duqu.c", "src/tf/quat_qutr.c", "src/tf/tfmatrix.c", "src/tf/conv.c"]}
{"id": "C27", "title": "Transforms form a group", "statement": "For each representation the product is associative, the identity is neutral, and the inverse is a two-sided inverse; relative transforms satisfy T1 * rel(T1,T2) = T2 uniformly over representations.", "quantifier": "all transforms", "why_tests_cant": "continuum", "anchors": ["src/tf.c:aa_tf_12inv", "src/tf.c:aa_tf_12rel", "src/tf.c:aa_tf_93chain", "src/tf/quat_qutr.c"]}
{"id": "C28", "title": "Quaternion exponential and logarithm are inverse", "statement": "exp of a pure quaternion of norm <= pi is a unit quaternion and ln inverts it; exp(ln q) = q for unit q.", "quantifier": "all unit quaternions / rotation vectors below pi", "why_tests_cant": "continuum, including the branch points", "anchors": ["src/tf/quat_ord.c:aa_tf_qexp", "src/tf/quat_ord.c:aa_tf_qln"]}
{"id": "C29", "title": "Spherical interpolation is a constant-speed unit path", "statement": "aa_tf_qslerp returns the end points at 0 and 1, a unit quaternion for every parameter, and its parameter derivative is what aa_tf_qslerpdiff returns.", "quantifier": "all unit quaternion pairs, all parameters", "why_tests_cant": "continuum; derivative is a limit", "anchors": ["src/tf/quat_ord.c:aa_tf_qslerp", "src/tf/quat_ord.c:aa_tf_qslerpdiff"]}
{"id": "C30", "title": "Rotation representations convert consistently", "statement": "axis-angle, rotation vector, Euler angle (every convention offered) and quaternion / matrix conversions represent the same rotation: converting through any of them and rotating a vector gives the same vector.", "quantifier": "all angles and unit axes", "why_tests_cant": "continuum times many conventions", "anchors": ["src/tf/conv.c", "src/tf.c"]}
{"id": "C31", "title": "Velocity conversions are inverse and are true derivatives", "statement": "aa_tf_qdiff2vel inverts aa_tf_qvel2diff for unit quaternions, and a differentiable unit quaternion path has derivative vel2diff of its angular velocity; same for rotation matrices and dual quaternions.", "quantifier": "all unit quaternions and velocities", "why_tests_cant": "derivatives are limits", "anchors": ["src/tf/quat_ord.c:aa_tf_qvel2diff", "src/tf/quat_ord.c:aa_tf_qdiff2vel", "src/tf/tfmatrix.c", "src/tf/quat_duqu.c"]}
{"id": "C32", "title": "Matrix exponential maps agree with the quaternion ones", "statement": "aa_tf_rotmat_expv, aa_tf_tfmat_expv and aa_tf_qutr_expv describe the same rigid motion for every twist, in both the series and the trigonometric branch.", "quantifier": "all twists", "why_tests_cant": "the series branch is a neighborhood of zero that tolerance-based tests do not separate", "anchors": ["src/tf/tfmatrix.c:aa_tf_rotmat_expv", "src/tf/tfmatrix.c:aa_tf_tfmat_expv", "src/tf/quat_qutr.c"]}
{"id": "C33", "title": "Matrix views address exactly the viewed elements", "statement": "Element (i,j) of a block/row/column/diagonal/slice view is the stated element of the source matrix, in-range elements of the view never leave the source, and elementwise mutators (set, zero, copy, inc, scal, trans, axpy) change exactly the viewed elements.", "quantifier": "all sizes, leading dimensions, strides, offsets and contents", "why_tests_cant": "aliasing and frame conditions over all shapes; contiguous fast paths only differ for particular shapes", "anchors": ["src/mat.c:aa_dmat_block", "src/mat.c:aa_dmat_inc", "src/mat.c:aa_dmat_set", "src/mat.c:aa_dmat_trans", "include/amino/mat.h:AA_DMAT_REF"]}
{"id": "C34", "title": "Vector slices have the documented length", "statement": "aa_dvec_slice(src,start,stop,step) contains exactly the source elements start, start+step, ... below stop.", "quantifier": "all starts, stops, steps", "why_tests_cant": "the off-by-one appears only when the step does not divide the range", "anchors": ["src/mat.c:aa_dvec_slice"]}
{"id": "C35", "title": "Matrix product size checks match the product", "statement": "aa_dmat_gemm/gemv accept exactly the operand shapes for which the (transposed) product is defined and stay within the operands' storage.", "quantifier": "all shapes and transposition flags", "why_tests_cant": "rectangular transposed shapes are rarely tested; frame over memory", "anchors": ["src/mat.c:aa_dmat_gemm", "src/mat.c:aa_dmat_gemv"]}
{"id": "C36", "title": "Small linear algebra formulas", "statement": "aa_la_trace, aa_la_det3x3, aa_la_cross, aa_la_transpose, aa_la_quadterp, aa_la_quadterp_dx, point-plane and interpolation helpers compute the mathematical quantity they name.", "quantifier": "all real inputs", "why_tests_cant": "continuum; sign errors invisible on positive data", "anchors": ["src/la.c", "src/la_impl.c"]}
{"id": "C37", "title": "Damped and projected inverse kinematics algebra", "statement": "The damped pseudo-inverse equals A^T (A A^T + k I)^-1, the least squares with null-space projection leaves the task velocity A x = b when A has a right inverse, whatever the null-space motion.", "quantifier": "all matrices and vectors over the reals of every size", "why_tests_cant": "continuum and all sizes", "anchors": ["src/la.c:aa_la_dpinv", "src/la.c:aa_la_xlsnp", "src/rx/scene_wk.c:aa_rx_wk_dx2dq_np", "include/amino/rx/scene_wk_internal.h:aa_rx_wk_get_n"]}
{"id": "C38", "title": "Assignment solver returns an optimal matching", "statement": "aa_la_assign_hungarian terminates and returns mutually inverse row/column assignments with minimal total cost among all matchings, for any m x n cost matrix.", "quantifier": "all cost matrices", "why_tests_cant": "optimality compares against factorially many matchings; termination for all matrices", "anchors": ["src/la_impl.c:assign_hungarian", "src/la_impl.c:opt_hungarian"]}
{"id": "C39", "title": "Finite-difference gradients", "statement": "aa_de_grad_fd / aa_de_jac_fd return the exact gradient/Jacobian for every polynomial of degree at most two in each coordinate, restore the evaluation point, and evaluate only at x +- eps e_i.", "quantifier": "all functions of the class, all points and steps", "why_tests_cant": "continuum", "anchors": ["src/diffeq.c"]}
{"id": "C40", "title": "Runge-Kutta steps have their advertised order", "statement": "Each fixed step (Euler, RK2, RK4) and each embedded pair (Fehlberg, Cash-Karp, Dormand-Prince, Bogacki-Shampine) has the order of its method: on every system analytic at the starting point the step of size h differs from the exact solution by O(h^(p+1)); on linear systems a p-order step is the degree-p Taylor polynomial of the flow plus terms of higher order.", "quantifier": "all analytic systems (time-dependent, any dimension), all starting points", "why_tests_cant": "order is an asymptotic property", "anchors": ["src/sigsys.c:aa_odestep_rk4", "src/sigsys.c:aa_odestep_rkf45", "src/sigsys.c:aa_odestep_rkck45", "src/sigsys.c:aa_odestep_dorpri45", "src/sigsys.c:aa_odestep_rkbs23"]}
{"id": "C41", "title": "ODE solver presents the true time to the system and the check", "statement": "aa_ode_sol calls the termination check with the time at which the presented state was computed (t0 plus the sum of the accepted steps), and restarts each step from the derivative at the accepted state.", "quantifier": "all systems, integrators, histories of accepted and rejected steps", "why_tests_cant": "history property; autonomous test systems cannot see time", "anchors": ["src/sigsys.c:aa_ode_sol"]}
{"id": "C42", "title": "ODE solver returns the state the check accepted", "statement": "When aa_ode_sol returns, the output state is exactly the (possibly modified in place) state on which the check function returned nonzero, and the return code is 0 iff the check value was positive; aa_ode_path additionally returns every state presented to the check, in order, starting with x0.", "quantifier": "all systems, integrators, check functions", "why_tests_cant": "history of an unbounded loop with a stateful callback", "anchors": ["src/sigsys.c:aa_ode_sol", "src/sigsys.c:aa_ode_path"]}
{"id": "C43", "title": "Successful inverse kinematics is within tolerance and limits", "statement": "If aa_rx_ik_solve (Jacobian pseudo-inverse algorithm) returns success, the returned configuration respects every position limit and its end-effector pose is within tol_angle and tol_trans of the requested pose.", "quantifier": "all robots, seeds, targets, restarts", "why_tests_cant": "convergence path is unpredictable; every exit path has to be sound", "anchors": ["src/rx/scene_ik.c:aa_rx_ik_solve", "src/rx/ik_jacobian.c:kin_solve_check"]}
{"id": "C44", "title": "Point list keeps the way points", "statement": "Any sequence of point-list additions yields the list of added points in order with adjacent duplicates of the end point dropped; front additions are symmetric; first/last accessors agree.", "quantifier": "all sequences of points", "why_tests_cant": "history property", "anchors": ["src/ct/traj.cpp:aa_ct_pt_list_add"]}
{"id": "C45", "title": "Linear trajectories hit the way points within velocity limits", "statement": "The trajectory of aa_ct_tjq_lin_generate is continuous, reaches every way point at the segment boundary, and its velocity never exceeds the limits in any coordinate.", "quantifier": "all way-point lists, limits and times", "why_tests_cant": "continuum of times, arbitrary number of joints", "anchors": ["src/ct/traj.cpp:aa_ct_tjq_lin_generate", "src/ct/traj.cpp:aa_ct_seg_dq_new"]}
{"id": "C46", "title": "Trapezoidal velocity trajectories", "statement": "The trajectory of the trapezoidal generator starts and ends at rest at its end points, is continuous with continuous velocity, and respects velocity and acceleration limits.", "quantifier": "all point pairs, limits, times", "why_tests_cant": "continuum; coupling between joints with different limits", "anchors": ["src/ct/traj.cpp:aa_ct_seg_trap_new", "src/ct/traj.cpp:aa_ct_seg_ddq_eval", "src/ct/traj.cpp:aa_ct_tjq_trap_generate"]}
{"id": "C47", "title": "Parabolic blend trajectories", "statement": "The blended trajectory of aa_ct_tjq_pb_generate has continuous position and velocity, blends never overlap when generation finishes, and it covers its whole duration.", "quantifier": "all way-point lists, limits, times", "why_tests_cant": "continuum; blend overlap iteration", "anchors": ["src/ct/traj.cpp:aa_ct_tjq_pb_generate"]}
{"id": "C48", "title": "Evaluating a segment list depends only on time", "statement": "aa_ct_seg_list_eval(list,state,t) returns the same code and state for the same t whatever the previous evaluations, and returns AA_CT_SEG_IN exactly when t is inside some segment.", "quantifier": "all segment lists and evaluation histories", "why_tests_cant": "the iterator is hidden state; tests evaluate in increasing time", "anchors": ["src/ct/traj.cpp:aa_ct_seg_list_eval"]}
{"id": "C49", "title": "Scene graph indexing is a topological order", "statement": "After a successful aa_rx_sg_init every frame's parent has a smaller index than the frame, indices and names are in bijection, configuration ids are dense and unique per configuration name, and frames naming the same configuration share the id; init reports an error exactly when a named parent is missing.", "quantifier": "all frame insertion orders and forests", "why_tests_cant": "all graph shapes and all orders", "anchors": ["src/rx/scenegraph.cpp:index", "src/rx/scenegraph.cpp:sort_frame_helper", "src/rx/sg_api.cpp:aa_rx_sg_init"]}
{"id": "C50", "title": "Forward kinematics is the product along the path to the root", "statement": "The absolute transform computed for every frame is the composition of the relative joint transforms along its path from the root.", "quantifier": "all scene graphs and configurations", "why_tests_cant": "all trees", "anchors": ["src/rx/sg_api.cpp:aa_rx_sg_tf", "src/rx/sg_api.cpp:aa_rx_fk_all", "src/rx/scenegraph.cpp:tf_rel"]}
{"id": "C51", "title": "Incremental kinematics update equals full recomputation", "statement": "aa_rx_sg_tf_update from a configuration q0 with its transforms to a configuration q gives the transforms of q, i.e. agrees with aa_rx_sg_tf(q).", "quantifier": "all scene graphs, configuration pairs", "why_tests_cant": "dirty propagation over all trees", "anchors": ["src/rx/sg_api.cpp:aa_rx_sg_tf_update"]}
{"id": "C52", "title": "Frame representations agree", "statement": "For every frame type the quaternion-translation, matrix and dual quaternion relative transforms of a frame at the same configuration represent the same transform.", "quantifier": "all frame types, parameters, configurations", "why_tests_cant": "continuum; special cases for the axes", "anchors": ["src/rx/scenegraph.cpp:tf_rel", "src/rx/scenegraph.cpp:tfmat_rel", "src/rx/scenegraph.cpp:duqu_rel"]}
{"id": "C53", "title": "Jacobian columns are the true derivatives", "statement": "Each column of the chain Jacobian equals the derivative of the end-effector pose with respect to that configuration variable (angular velocity and linear velocity).", "quantifier": "all chains, all joint types, all configurations", "why_tests_cant": "derivatives are limits", "anchors": ["src/rx/scene_kin.c:aa_rx_sg_sub_jacobian", "src/rx/scene_kin.c"]}
{"id": "C54", "title": "Sub-scenegraph scatter and gather", "statement": "Gathering after scattering returns the sub-configuration, scattering changes exactly the sub-graph's configurations, and expanding a path keeps the start configuration elsewhere.", "quantifier": "all sub-graphs and configurations", "why_tests_cant": "all index maps", "anchors": ["src/rx/scene_kin.c:aa_rx_sg_sub_config_scatter", "src/rx/scene_kin.c:aa_rx_sg_sub_config_gather"]}
{"id": "C55", "title": "Kinematic chains list exactly the path", "statement": "The frames of a chain from root to tip are exactly the frames on the path, in order from root to tip, with the count reported beforehand; the chain's configurations are exactly the configurations of those frames.", "quantifier": "all scene graphs and frame pairs", "why_tests_cant": "all trees", "anchors": ["src/rx/scene_kin.c:aa_rx_sg_chain_frames", "src/rx/scene_kin.c:aa_rx_sg_chain_frame_count", "src/rx/scene_sub.cpp"]}
{"id": "C56", "title": "Collision sets are symmetric sets of frame pairs", "statement": "aa_rx_cl_set_get(s,i,j) is true iff the last set for the unordered pair {i,j} set it; it is symmetric; merge is union, fill is union with the other set, clear empties, copy is equal.", "quantifier": "all operation histories, pairs and sizes", "why_tests_cant": "index aliasing over all pairs and sizes", "anchors": ["src/rx/collision_set.cpp"]}
{"id": "C57", "title": "Allowed collisions survive indexing", "statement": "Pairs given to aa_rx_sg_allow_collision before initialization are exactly the allowed pairs of a collision context created after initialization, whatever the indexing order.", "quantifier": "all scene graphs and allow/disallow histories", "why_tests_cant": "history of string-keyed operations and re-indexing", "anchors": ["src/rx/sg_api.cpp:aa_rx_sg_allow_collision", "src/rx/amino_fcl.cpp:aa_rx_sg_cl_init", "src/rx/sg_api.cpp:aa_rx_sg_cl_set_copy"]}
{"id": "C58", "title": "Reparenting keeps the world pose", "statement": "Reparenting a frame to a new parent at a configuration leaves the absolute transform of the frame and its descendants unchanged at that configuration, in all representations.", "quantifier": "all scene graphs, frames, parents, configurations", "why_tests_cant": "all trees", "anchors": ["src/rx/sg_api.cpp:aa_rx_sg_reparent_name", "src/rx/sg_api.cpp:aa_rx_sg_reparent_id"]}
{"id": "C59", "title": "Linear program bounds are classified correctly", "statement": "Each solver back end receives exactly the feasible interval described by (lower,upper) with infinities meaning unbounded.", "quantifier": "all bound pairs", "why_tests_cant": "all extended reals", "anchors": ["src/opt/opt_glpk.c:bounds_type", "src/opt/opt.c"]}
{"id": "C60", "title": "Constrained velocity control respects the limits", "statement": "A successful aa_rx_wk_dx2dq_lc3 step returns joint velocities within the velocity limits, within the acceleration limit of the current velocity times dt.", "quantifier": "all chains, states, limits and feasible solutions", "why_tests_cant": "continuum and every number of joints", "anchors": ["src/rx/lc3.c"]}
{"id": "C61", "title": "Planar two-link inverse kinematics", "statement": "aa_kin_planar2_ik_theta2 returns joint angles whose forward kinematics is the requested point whenever it is reachable, for both elbow choices.", "quantifier": "all link lengths, reachable points", "why_tests_cant": "continuum", "anchors": ["src/kin.c"]}
{"id": "C62", "title": "Wavefront numbers and material indices", "statement": "aa_rx_wf_parse_float returns the decimal value of the token, and every face is tagged with the index of the most recently selected material, with equal names sharing one index and every returned name in range.", "quantifier": "all tokens and directive sequences", "why_tests_cant": "history and all numerals", "anchors": ["src/wavefront/wf_obj.c"]}
{"id": "C63", "title": "Extrema, means, covariances and medians of arrays", "statement": "aa_la_min/max and the minloc/maxloc/mat_max helpers return a least/greatest element (the first such index for the locations), colmean/rowmean/colcov/vecstd the sample statistics of a matrix of any leading dimension, and median/mad/mad2 a value with at least half of the data on either side; nothing but the output array is written.", "quantifier": "all sizes, strides, leading dimensions and real data", "why_tests_cant": "all shapes and data; padded results and ties are never sampled", "anchors": ["src/la.c:aa_la_min", "include/amino/la_impl.h:minloc", "src/la_impl.c:colmean", "src/la_impl.c:colcov", "src/la_impl.c:nmedian"]}
{"id": "C64", "title": "Checking a trajectory samples it all", "statement": "aa_ct_seg_list_check(segs,dt,f,cx) terminates and returns 0 exactly when f accepts the trajectory state at every multiple of dt within the duration, whatever the list was used for before.", "quantifier": "all trajectories, step sizes, functions and earlier uses of the list", "why_tests_cant": "a check that silently examines nothing also returns 0; depends on the hidden iterator", "anchors": ["src/ct/traj.cpp:aa_ct_seg_list_check"]}
{"id": "C65", "title": "Planar rigid motions", "statement": "The planar transforms are the group of rigid motions of the plane in every representation: angle, unit complex number, rotation matrix, complex-and-vector and transformation matrix describe the same motion after any conversion; multiplying composes the motions, inverting undoes them, applying preserves distances, and exponential and logarithm are inverse to each other on (-pi,pi].", "quantifier": "all angles, unit complex numbers, rotation matrices, translations and points", "why_tests_cant": "a law over a continuum of pairs of transforms", "anchors": ["src/tf/tfp.c:aa_tf_crot", "src/tf/tfp.c:aa_tf_cv_mul", "src/tf/tfp.c:aa_tf_tfmatp_inv2"]}
{"id": "C66", "title": "Denavit-Hartenberg parameters", "statement": "aa_tf_dhprox2* and aa_tf_dhdist2* give, in the matrix, dual quaternion, quaternion-translation and quaternion-vector forms alike, the transform obtained by composing the two screw motions of the convention (proximal: rotate alpha and slide a along x, then rotate phi and slide d along z; distal: z first, then x).", "quantifier": "all real alpha, a, d, phi", "why_tests_cant": "identity over four continuous parameters and four representations", "anchors": ["src/tf/conv.c:aa_tf_dhprox2tfmat", "src/tf/conv.c:aa_tf_dhprox2duqu", "src/tf/conv.c:aa_tf_dhdist2qv"]}
{"id": "C67", "title": "Derivatives of the quaternion exponential and logarithm", "statement": "aa_tf_qduln and aa_tf_qdulnj return the time derivative of the logarithm of a unit quaternion trajectory, aa_tf_qdpexp and aa_tf_qdpexpj that of the exponential of a pure trajectory, and aa_tf_qln_jac and aa_tf_duqu_ln_jac the matrix of partial derivatives of the logarithm.", "quantifier": "all differentiable trajectories and all (dual) quaternions where the logarithm is differentiable", "why_tests_cant": "a limit over a continuum of points; finite differences only estimate it", "anchors": ["src/tf/quat_ord.c:aa_tf_qduln", "src/tf/quat_ord.c:aa_tf_qdulnj", "src/tf/quat_ord.c:aa_tf_qdpexp", "src/tf/quat_pde.c:aa_tf_qln_jac", "src/tf/quat_pde.c:aa_tf_duqu_ln_jac"]}
{"id": "C68", "title": "Derivative of slerp along moving endpoints", "statement": "aa_tf_qslerpchaindiff(u,du,q1,dq1,q2,dq2) returns the interpolated quaternion and its time derivative when the parameter and both endpoints move with the given rates.", "quantifier": "all differentiable parameters and unit-quaternion endpoint trajectories with distinct endpoints", "why_tests_cant": "marked 'TODO: test case'; a chain rule over continuous inputs", "anchors": ["src/tf/quat_ord.c:aa_tf_qslerpchaindiff"]}
{"id": "C69", "title": "Quaternion between two vectors", "statement": "aa_tf_vecs2quat(u,v) returns a unit quaternion whose rotation takes the direction of u to the direction of v.", "quantifier": "all nonzero vectors of any length and relative direction, including parallel, opposite and nearly parallel ones", "why_tests_cant": "random directions of ordinary length never enter the special branch", "anchors": ["src/tf/quat_ord.c:aa_tf_vecs2quat"]}
{"id": "C70", "title": "Runge-Kutta integration of quaternion velocity", "statement": "aa_tf_qvelrk1 and aa_tf_qvelrk4 advance a quaternion under constant angular velocity with a local error of second and fifth order in the step: the result differs from the exact rotation by at most a constant times (|v| dt)^2 and (|v| dt)^5.", "quantifier": "all unit quaternions, velocities and steps", "why_tests_cant": "the order of a method is a statement about all small steps", "anchors": ["src/tf/quat_ord.c:aa_tf_qvelrk1", "src/tf/quat_ord.c:aa_tf_qvelrk4"]}
{"id": "C71", "title": "Logarithms of rotations and rigid transforms", "statement": "aa_tf_rotmat_lnv, aa_tf_tfmat_lnv, aa_tf_qutr_lnv and aa_tf_duqu_ln return a twist (the quaternion forms: half of it) whose constant-velocity motion reaches the given transform in unit time and whose rotation angle is at most pi; aa_tf_rotmat_angle and aa_tf_rotmat2axang give that angle and axis.", "quantifier": "all rotation matrices, unit quaternion-translations and unit dual quaternions", "why_tests_cant": "the singular neighborhoods of zero and of a half turn, and both signs of a quaternion, have to be covered; random tests practically never sample them", "anchors": ["src/tf/tfmatrix.c:aa_tf_rotmat_lnv", "src/tf/tfmatrix.c:aa_tf_tfmat_lnv", "src/tf/quat_qutr.c:aa_tf_qv_lnv", "src/tf/quat_duqu.c:aa_tf_duqu_ln"]}
{"id": "C72", "title": "Frames built from axis directions", "statement": "aa_tf_rotmat_xy, _yz and _zx of two perpendicular nonzero axes, aa_tf_rotmat_normalize of a matrix whose first two columns are independent, and the mzlook functions for an up vector independent of the viewing direction return proper rotations: the given axes are kept in direction, normalizing fixes rotations and is idempotent, and the camera frame sits at the eye and sees the target on its negative z axis with the up vector above.", "quantifier": "all vectors and matrices meeting the stated independence conditions", "why_tests_cant": "tests feed matrices that are rotations already, or sample a few random vectors", "anchors": ["src/tf/tfmatrix.c:aa_tf_rotmat_xy", "src/tf/tfmatrix.c:aa_tf_rotmat_normalize", "src/tf/conv.c:aa_tf_rotmat_mzlook"]}
{"id": "C73", "title": "Stepping and interpolating orientations", "statement": "For unit quaternions, aa_tf_qsvel and aa_tf_qsdiff give the orientation reached after dt along the constant-velocity path (from the velocity, or from the quaternion derivative at the start) and aa_tf_qsacc the one along a path whose velocity changes at a constant rate about its own axis, each within 2^-80; aa_tf_qangle_rel is the arc cosine of the absolute dot product, whatever the signs; for tau in [0,1] aa_tf_qslerpalg always succeeds with a unit quaternion within 2^-80 of aa_tf_qslerp and aa_tf_qslerpdiffalg is within 2^-78 of the derivative of that path.", "quantifier": "all unit quaternions, velocities, accelerations parallel to the velocity, time steps, and tau in [0,1]", "why_tests_cant": "the paths are solutions of differential equations; a test compares two approximations at sampled points with a loose tolerance", "anchors": ["src/tf/quat_ord.c:aa_tf_qsvel", "src/tf/quat_ord.c:aa_tf_qsdiff", "src/tf/quat_ord.c:aa_tf_qsacc", "src/tf/quat_ord.c:aa_tf_qangle_rel", "src/tf/quat_ord.c:aa_tf_qslerpalg", "src/tf/quat_ord.c:aa_tf_qslerpdiffalg"]}
{"id": "C74", "title": "Workspace control reaches the reference", "statement": "aa_rx_wk_dx_pos with equal positive gains k adds to dx, for all valid poses, the velocity of a motion that carries the actual pose along the connecting screw to the reference, the error shrinking as exp(-k t/2) (a pose at the time t whose error is the initial one to that power), to within 2^-100 relative to the distances; aa_rx_wk_dqcenter returns a velocity that leads a joint with limits lo < hi to the middle without leaving them and zero for a joint without limits.", "quantifier": "all valid actual and reference poses and all positive gains; all joints with or without limits", "why_tests_cant": "convergence is a statement about all times of a closed loop; tests evaluate single velocities", "anchors": ["src/rx/scene_wk.c:aa_rx_wk_dx_pos", "src/rx/scene_wk.c:aa_rx_wk_dqcenter"]}
{"id": "C75", "title": "Random variates, averages and distances", "statement": "aa_stat_box_muller turns two independent uniform variates on (0,1] into two independent standard normal variates; aa_stat_z2x turns a standard normal score into a normal variate with the given mean and deviation and is the inverse of aa_stat_x2z; aa_stat_mean is the unique number with the least sum of squared distances to the samples; aa_stat_circ_mean is an angle in (-pi,pi] agreeing best with the samples (largest sum of cosines of the differences) and the only such angle when they do not cancel; aa_frand_minmax stays in its interval and reaches both ends; aa_stat_mahalanobis is the norm of the difference in the quadratic form of the inverse covariance and, when that is positive definite, vanishes exactly at the mean.", "quantifier": "all nonempty samples, all means and nonzero deviations, all intervals, all dimensions", "why_tests_cant": "the distribution of a pair of random variables cannot be established from finitely many draws; optimality quantifies over all candidates", "anchors": ["src/math.c:aa_stat_box_muller", "src/math.c:aa_stat_mean", "src/math.c:aa_stat_circ_mean", "src/math.c:aa_stat_mahalanobis", "src/math.c:aa_frand_minmax", "include/amino/math.h:aa_stat_z2x", "include/amino/math.h:aa_stat_x2z"]}
{"id": "C76", "title": "Statistics without outliers", "statement": "aa_stat_excluded_mean_std returns the mean and the sample standard deviation of the samples that were kept, and aa_stat_excluded_circ_mean_std their circular mean and circular standard deviation; the kept samples are those between zmin and zmax deviations from the mean of the preceding pass, at least two, and the number of iterations is within the limit.", "quantifier": "all samples, limits and iteration counts for which the functions return", "why_tests_cant": "the loop ends by a count that can agree for different sets; samples that show it are rare", "anchors": ["src/math.c:aa_stat_excluded_mean_std", "src/math.c:aa_stat_excluded_circ_mean_std"]}
{"id": "C77", "title": "Reading lines", "statement": "aa_io_getline returns the characters up to the end of the line (or file) as a NUL-terminated string in memory owned by the region, disjoint from live blocks, which keep their contents, and consumes the line with its newline; aa_read_realloc reads into the buffer after the offset, never past its end, and always asks for at least one byte.", "quantifier": "all lines, files, region states and buffer sizes", "why_tests_cant": "failures depend on how the length of a line relates to the free bytes of the current chunk", "anchors": ["src/io.c:aa_io_getline", "src/io.c:aa_read_realloc"]}
{"id": "C78", "title": "Reading vectors and matrices from text", "statement": "aa_io_parsevector stores the numbers at the beginning of a line, at most n of them, and returns how many; aa_io_fread_matrix_fix stores the numbers of line i in row i and returns how many it stored; aa_io_fread_matrix_heap stores the n numbers of each line with data as the next column, returns the number of such lines or the negative of the number of the first line with too few numbers, and never writes outside of the buffer, which it enlarges as needed.", "quantifier": "all files, all line lengths n, all initial buffers including none", "why_tests_cant": "buffer growth goes wrong for particular ratios of the buffer size to the line length", "anchors": ["src/io.c:aa_io_parsevector", "src/io.c:aa_io_fread_matrix_fix", "src/io.c:aa_io_fread_matrix_heap"]}
{"id": "C79", "title": "aa_rx_ik_check accepts exactly the configurations whose pose is within tolerance", "statement": "aa_rx_ik_check returns 0 exactly when the pose of the checked frame, in the configuration that has q_sub on the chain and the start configuration elsewhere, is turned from the reference by less than tol_angle and is less than tol_trans away from it; otherwise it returns AA_RX_NO_SOLUTION|AA_RX_NO_IK. The answer depends on the scene graph, the chain, the tolerances, the reference, the start configuration and q_sub only.", "quantifier": "For every indexed scene graph, chain, frame of the chain, unit reference, tolerances, start configuration, q_sub and contents of memory.", "why_tests_cant": "The poses are real valued and unbounded, and what newly allocated memory holds is not under the control of a test; memory left by earlier calls often has the right values.", "anchors": ["src/rx/scene_ik.c", "src/rx/scene_sub.cpp", "src/rx/sg_api.cpp"]}
{"id": "C80", "title": "The limits of a configuration are those last set", "statement": "After a successful aa_rx_sg_init, aa_rx_sg_get_limit_pos, _vel, _acc and _eff called with the number of a configuration return 0 and the values most recently passed to the corresponding aa_rx_sg_set_limit function for the name of that configuration, and a nonzero value when no limit of that kind has been set; this does not depend on the order in which frames were added and removed, limits were set and aa_rx_sg_init was called, and setting one kind or one configuration does not affect another.", "quantifier": "For every history of adding and removing frames, setting limits and initialising, every configuration of a joint and every kind of limit.", "why_tests_cant": "Histories are unbounded and the answer depends on which structures existed when the indices were rebuilt.", "anchors": ["src/rx/sg_api.cpp", "src/rx/scenegraph.cpp", "include/amino/rx/scenegraph_internal.h"]}
{"id": "C81", "title": "Default configurations and limit records respect the limits", "statement": "aa_rx_sg_center_configs and aa_rx_sg_sub_center_configs give every configuration the midpoint of its position limits (zero without limits) and write nothing else; aa_rx_sg_sub_rand_config gives values within the position limits (within pi of zero without limits); the records made by aa_rx_ct_limits and aa_rx_ct_sg_limits admit a position, velocity, acceleration or effort exactly when the limits of the scene graph do; aa_rx_ik_parm_center_configs scales its gain in inverse proportion to the range.", "quantifier": "For every scene graph whose limits can be asked for, every sub-scenegraph, increment, sequence of random numbers and contents of memory.", "why_tests_cant": "Values are real and the random numbers and the contents of new memory are arbitrary.", "anchors": ["src/rx/sg_api.cpp", "src/rx/scene_kin.c", "src/rx/rx_ct.c", "src/rx/ik_opt.c", "src/ct/state.c"]}
{"id": "C82", "title": "A copied scene graph answers as the original", "statement": "aa_rx_sg_copy of an initialised scene graph yields an initialised graph in which every query has the same answer as in the original: frame and configuration counts, ids, names, parents, types, geometry of each frame, joint limits, mass and inertia, allowed collisions, and the relative and absolute transforms for every configuration.", "quantifier": "All histories of adding and removing frames, setting limits, attaching geometry, setting inertial data and allowing collisions that end in an initialised graph; all names, ids and configuration vectors.", "why_tests_cant": "The copy re-adds the frames in topological order, re-sorts and re-numbers them, and copies limits and allowed pairs by name; tests copy a handful of robots and cannot show that the numbering is reproduced for every graph, nor notice a member that is not copied.", "anchors": ["src/rx/sg_api.cpp:740-811", "src/rx/sg_api.cpp:465-480", "src/rx/scenegraph.cpp:305-418", "src/rx/sg_api.cpp:548-595"]}
{"id": "C83", "title": "A frame of a view is masked exactly if it was last masked", "statement": "aa_gl_globals_is_masked answers nonzero for a frame exactly if the value last given for it with aa_gl_globals_mask since the creation of the globals or the last aa_gl_globals_unmask_all is nonzero; no call touches memory outside of the set.", "quantifier": "All histories of mask and unmask_all calls with frame ids for which 2*(i+1) does not overflow size_t; all contents of newly allocated memory.", "why_tests_cant": "The set grows on demand and new memory has arbitrary contents; tests use few frames so that the set never grows a second time, and stray writes usually go unnoticed.", "anchors": ["src/amino_gl.c:1731-1758", "include/amino/mem.h:630-692"]}
{"id": "C84", "title": "The camera matrix shows exactly what the camera sees", "statement": "The matrix that aa_rx_sg_render gives to the shader maps a point of the world into the OpenGL clip volume exactly if the point lies in the frustum given by the pose, field of view, aspect ratio and near and far planes in force. Points in front of the camera appear at the ratio of their offset to half the extent of the frustum at their distance; depth is -1 on the near plane, 1 on the far plane and grows with distance. The camera position given to the shader is the position of the pose. A camera set to aa_tf_qutr_mzlook shows the target in the middle and points above it straight above the middle.", "quantifier": "All histories of set_camera, set_camera_home, home_camera, set_perspective and set_aspect on new globals that leave a proper camera (unit quaternion, 0 < fovy < pi, aspect > 0, 0 < znear < zfar); all points; for the last sentence all eye, target and up with up and the line of sight linearly independent. Exact real arithmetic.", "why_tests_cant": "Rendering tests compare a few pictures by eye at best; a wrong sign, a transposed inverse or a stale aspect ratio shows only for particular poses and points.", "anchors": ["src/amino_gl.c:130-164", "src/amino_gl.c:1511-1623", "src/amino_gl.c:1691-1702"]}
{"id": "C85", "title": "The meshes drawn for shapes lie on the shapes, with outward normals", "statement": "For a box, sphere, cylinder, cone or torus, the arrays of the mesh that is drawn have one normal per vertex, every index refers to a vertex, every vertex is a point of the surface of the shape as documented (box and sphere around the origin, cylinder and cone on the plane z = 0, torus an arc about the z axis), and the normal there is a unit vector that points out of the shape. No division by zero occurs.", "quantifier": "All dimensions, heights and radii that are not negative (sphere: positive); arc angles from 0 such that angle/(2 pi/72) is at most 10^8. Exact real arithmetic.", "why_tests_cant": "A picture looks right with slightly wrong normals or misplaced vertices; tests run without a display and check none of it.", "anchors": ["src/amino_gl.c:890-984", "src/amino_gl.c:1009-1217", "src/amino_gl.c:1219-1445"]}
{"id": "C86", "title": "Boxes and grids are drawn completely and nothing else", "statement": "The triangles of the mesh drawn for a box cover exactly the surface of the box. The triangles drawn for a grid cover exactly the strips of the given width around the lines at the integer multiples of the spacing that are within the dimension, which end at the outermost lines across; the numbers of vertices and indices written fit the memory reserved for them.", "quantifier": "All boxes with dimensions that are not negative; all grids with dimensions and width that are not negative, positive spacing and fewer than 2^30 lines; all points. Exact real arithmetic.", "why_tests_cant": "Gaps, doubled or stray triangles show only in some view directions, and an array that is too short only at some sizes.", "anchors": ["src/amino_gl.c:776-984"]}
{"id": "C87", "title": "The surface drawn for a solid shape is closed", "statement": "In the mesh drawn for a box, sphere, cylinder, cone or torus, every segment between two points is the side of an even number of triangles, so that the surface has no free edge and no hole.", "quantifier": "All dimensions (spheres of positive radius; arc angles of at least 0 with angle/(2 pi/72) at most 10^8). Exact real arithmetic.", "why_tests_cant": "Sphere and torus have thousands of triangles; a missing one shows only from some directions.", "anchors": ["src/amino_gl.c:890-984", "src/amino_gl.c:1009-1217", "src/amino_gl.c:1219-1445"]}
{"id": "C88", "title": "Collision checks report exactly the overlapping frames that are not allowed", "statement": "aa_rx_cl_check returns nonzero iff the collision geometry of two different frames, at the given poses and with its scale, has a point in common and the pair is not allowed in the context; if a set is given, exactly those pairs are added to it.", "quantifier": "all scenes, shapes, scales, poses, allowed sets and collision sets, whatever order the broad phase visits objects in", "why_tests_cant": "quantifies over geometry and poses; the result depends on shape conventions (origin of a cylinder) and on which objects are made", "anchors": ["src/rx/amino_fcl.cpp:cl_init_helper", "src/rx/amino_fcl.cpp:s_update_tf", "src/rx/amino_fcl.cpp:cl_check_callback", "src/rx/amino_fcl.cpp:aa_rx_cl_check"]}
{"id": "C89", "title": "Separation distances and nearest points", "statement": "After aa_rx_cl_dist_check: it returns nonzero iff two different frames that are not allowed to collide share a point; aa_rx_cl_dist_get_dist is 0 for a frame and itself, DBL_MAX for an allowed pair or a frame without collision geometry, and otherwise at most 0 iff the frames share a point and else their least distance; it is symmetric; aa_rx_cl_dist_get_points gives a point of the first and a point of the second frame at that distance; aa_rx_cl_dist_get_min_dist gives the least of the distances of a frame to the others, with that frame and its points.", "quantifier": "all scenes, poses, allowed sets, previous contents of the table, and orders of visits", "why_tests_cant": "the table is filled in an order that depends on the library, is triangular, and is reused between checks", "anchors": ["src/rx/amino_fcl.cpp:aa_rx_cl_dist_check", "src/rx/amino_fcl.cpp:cl_dist_callback", "src/rx/amino_fcl.cpp:aa_rx_cl_dist_get_dist", "src/rx/amino_fcl.cpp:aa_rx_cl_dist_get_points", "src/rx/amino_fcl.cpp:aa_rx_cl_dist_get_min_dist"]}
{"id": "C90", "title": "A planner allows the collisions it was told to allow, and finds all others", "statement": "A motion planning context starts with the pairs allowed by its scene graph. aa_rx_mp_set_start and aa_rx_mp_allow_config allow all pairs that overlap in the configuration given; aa_rx_mp_allow_collision (and editing the set from aa_rx_mp_get_allowed) sets a single pair, the last call counting. aa_rx_mp_set_goal returns AA_RX_OK, and a state is valid for the planner, exactly if no pair that is not allowed overlaps in the start configuration with the state put in; when collisions are tracked, the set holds exactly the pairs that clashed in the states checked since tracking or planning began.", "quantifier": "all scenes of supported geometry, all sub-scenegraphs, all histories of calls with frames in range and a start before anything is checked", "why_tests_cant": "Tests plan in one scene with one order of calls; whether the several copies of the allowed set and of the start configuration (state space, validity checker, context) stay in step depends on the whole history of calls.", "anchors": ["src/rx/mp/scene_ompl.cpp:105-172", "src/rx/mp/scene_ompl.cpp:194-306", "src/rx/mp/scene_state_validity_checker.cpp:52-99", "include/amino/rx/ompl/scene_state_space.h:113-115", "src/rx/amino_fcl.cpp:472-498", "include/amino/rx/scene_planning.h:85-107"]}
{"id": "C91", "title": "A plan leads from the start to the goal without a clash", "statement": "If the planner finds a path from a start state to the goal through states that the validity checker accepted, then aa_rx_mp_plan returns waypoints of the whole scene graph of which the first is the start configuration, the last is the start configuration with the last accepted goal put in, variables outside the sub-scenegraph have their values of the start everywhere, and no pair that is not allowed overlaps at any waypoint. If the planner finds none, no path is returned.", "quantifier": "all scenes of supported geometry, all sub-scenegraphs, all histories of calls with frames in range and a start before anything is checked", "why_tests_cant": "A test sees one planned path of one fresh context; what is returned depends on all earlier starts, goals, and plans of the context.", "anchors": ["src/rx/mp/scene_ompl.cpp:105-126", "src/rx/mp/scene_ompl.cpp:151-172", "src/rx/mp/scene_ompl.cpp:194-263", "src/rx/mp/workspace_goal.cpp:197-207"]}
{"id": "C92", "title": "Allowing a configuration allows exactly its collisions", "statement": "After aa_rx_sg_allow_config at a configuration and aa_rx_sg_cl_init, a new collision context allows the pairs that were allowed before and the pairs of frames whose collision geometry overlaps in the configuration, and no others; a check in that configuration finds no collision.", "quantifier": "all scene graphs built by any history of adding and removing frames, allowing pairs and initialising, all supported geometry, all configurations", "why_tests_cant": "A test allows one configuration of one scene; that the pairs reported by the library, held by frame number, come back as the same pairs of names after renumbering holds only for all orders of frames together.", "anchors": ["src/rx/amino_fcl.cpp:472-515", "src/rx/amino_fcl.cpp:218-238", "src/rx/amino_fcl.cpp:266-284", "src/rx/sg_api.cpp:813-842"]}
{"id": "C93", "title": "Meshes, geometry and scene graphs live exactly as long as they are referred to", "statement": "Take any sequence of calls that create, fill, share, attach, copy and destroy meshes, geometry objects, frames and scene graphs, make collision objects and rendering buffers for them, and clean up buffers, by a client that uses only what exists and destroys or gives away only references of its own. No call uses released memory, releases something twice or aborts. A geometry object exists exactly while the client or a frame refers to it, a mesh exactly while the client or a geometry object refers to it, and the arrays of a mesh are those given last. Every block of memory that is allocated belongs to something that exists or waits for the next clean-up; when no references are left and buffers have been cleaned up, no memory is left.", "quantifier": "for all sequences of calls of a client that follows the rules", "why_tests_cant": "Use after free, double free and leaks depend on the order of arbitrarily long sequences of calls on shared objects; tests run a few orders and mostly do not notice leaks or reads of released memory.", "anchors": ["src/rx/scene_geom.c", "src/rx/scenegraph.cpp", "src/rx/sg_api.cpp", "src/refcount.c", "src/amino_gl.c"]}
{"id": "C94", "title": "Plugins stay loaded as long as their data is used", "statement": "Whatever sequence of calls loads meshes and scene graphs from plugins and copies, attaches and destroys them: as long as a mesh exists, all its arrays can be read, also those that are static data of a plugin; and a plugin is closed again when everything that was loaded from it has been destroyed.", "quantifier": "for all sequences of calls of a client that follows the rules", "why_tests_cant": "Reading data of a plugin that was closed too early often still works, and a plugin that is never closed is not noticed; both depend on the order of calls.", "anchors": ["src/rx/plugin.c", "src/rx/scene_geom.c", "src/rx/sg_api.cpp", "src/rx/scenegraph.cpp"]}
{"id": "C95", "title": "Objectives of the optimizing inverse kinematics", "statement": "The error functions that the optimizing inverse kinematics solver minimises return the error of the pose of the frame to be solved for at the given configuration, and, if asked, its gradient: aa_rx_ik_opt_err_trans the squared distance from the target; aa_rx_ik_opt_err_qlnpv that plus the square of half the angle from the target; aa_rx_ik_opt_err_dqln a quarter of the squared length of the twist to the target; aa_rx_ik_opt_err_jcenter half the squared distance of the configuration from the middle of its limits. Element j of the gradient is the derivative with respect to configuration j. aa_rx_ik_opt_err_qlnpv_fd returns the same error with difference quotients.", "quantifier": "all scene graphs, chains, frames, start configurations, configurations, targets and uninitialized memory", "why_tests_cant": "gradients are compared with finite differences at sample configurations at best, and the solver hides errors by converging to something else", "anchors": ["src/rx/ik_nlopt.c:aa_rx_ik_opt_err_trans", "src/rx/ik_nlopt.c:aa_rx_ik_opt_err_qlnpv", "src/rx/ik_nlopt.c:aa_rx_ik_opt_err_dqln", "src/rx/ik_nlopt.c:aa_rx_ik_opt_err_jcenter", "src/rx/ik_nlopt.c:s_nlobj_qv_fd_helper"]}
{"id": "C96", "title": "Successful inverse kinematics by optimization is within tolerance and limits", "statement": "If aa_rx_ik_solve with the SQP algorithm returns success, the returned configuration respects every position limit of the chain and its end-effector pose is within tol_angle and tol_trans of the requested pose; it never reports success for an unimplemented algorithm, several targets or a vector of the wrong length.", "quantifier": "all robots, seeds, targets, restarts, objective functions and behaviours of the optimizer within its contract", "why_tests_cant": "the optimizer may stop anywhere for any reason, and tests only see the stops that their seeds produce", "anchors": ["src/rx/scene_ik.c:aa_rx_ik_solve", "src/rx/ik_nlopt.c:s_ik_nlopt"]}
{"id": "C97", "title": "The joint path of a workspace trajectory starts at the start, lasts as long as the trajectory and respects the limits", "statement": "aa_rx_ct_tjx_path succeeds and returns configurations of the chain at the times 0, dt, 2dt, ... up to the first that is not before the end of the trajectory; the first is the start configuration, every one is the configuration nearest to the integrated state (classical Runge-Kutta steps of the servo law) that the position limits allow; joints without limits are not restricted; without configurations or start it is refused.", "quantifier": "all chains, limits, starts, trajectories, servo laws and positive time steps", "why_tests_cant": "the number of points and the clamping depend on real arithmetic over the whole run; joints without limits are rare in test robots", "anchors": ["src/rx/rx_ct.c:aa_rx_ct_tjx_path", "src/rx/rx_ct.c:path_check", "src/rx/rx_ct.c:aa_rx_ct_sg_limits"]}
{"id": "C98", "title": "The point list of a path holds the points of the path", "statement": "aa_rx_ct_pt_list returns a list that holds copies of the points of the path, in order, leaving out only points that equal, within the tolerance of aa_ct_state_eq in every joint, the last point before them in the list; a path whose neighbouring points differ by more than the tolerance is kept whole.", "quantifier": "all paths, numbers of points and numbers of joints (at least one)", "why_tests_cant": "holds for all lengths and strides; tests use one robot", "anchors": ["src/rx/rx_ct.c:aa_rx_ct_pt_list", "src/ct/traj.cpp:aa_ct_pt_list_add"]}
{"id": "C99", "title": "Result zero of solving a linear program means an optimal solution", "statement": "For a well-formed linear program (finite or infinite bounds, dense matrix or proper sparse rows), creating it, changing direction, objective, bounds, constraints and variable types, and solving it run to completion, and when aa_opt_solve returns zero, the vector is an optimal solution of the program as created and last changed: it meets the constraints, bounds and types, and no other vector that does has a better objective.", "quantifier": "all programs, matrices, bounds, sequences of changes and solver libraries that keep their documented contracts; GLPK, CLP and LP-Solve; dense and sparse storage", "why_tests_cant": "the solvers are external, the infinite bounds, empty and sparse rows and later changes combine without end, and a test cannot compare with all feasible vectors", "anchors": ["src/opt/opt_glpk.c:aa_opt_glpk_gmcreate", "src/opt/opt_glpk.c:s_solve", "src/opt/opt_clp.cpp:aa_opt_clp_gmcreate", "src/opt/opt_lpsolve.c:aa_opt_lpsolve_gmcreate", "src/opt/opt.c:aa_opt_solve"]}
{"id": "C100", "title": "Solving a linear program in one call releases what it allocated", "statement": "After aa_opt_lp_glpk, aa_opt_lp_crs_glpk, aa_opt_lp_clp, aa_opt_lp_crs_clp, aa_opt_lp_lpsolve and aa_opt_lp_crs_lpsolve return, as many solver contexts and problems are allocated as before.", "quantifier": "all programs and solver results", "why_tests_cant": "a leak does not change any result", "anchors": ["src/opt/opt_glpk.c:aa_opt_lp_crs_glpk", "src/opt/opt_lpsolve.c:aa_opt_lp_lpsolve", "src/opt/opt_internal.h:s_finish"]}
{"id": "C101", "title": "Assigning an expression of vectors and matrices stores its value", "statement": "In the C++ interface to vectors and matrices, assigning an expression built with the operators (scaling, sums, products of a matrix and a vector, products of matrices, transposes) to a vector or matrix of the size of the result makes its elements those of the mathematical value of the expression, taken with the operands as they were before the assignment; the compound assignments do the same, and no memory but the elements of the target changes.", "quantifier": "all expressions that the operators accept with operands of conforming sizes, all targets of the size of the result, including targets that are operands, all contents of memory", "why_tests_cant": "Expressions are trees of templates of unbounded depth evaluated in place in the target; a test covers a few shapes, and aliasing or a transposed factor that is not square changes what the evaluation order and the size checks do.", "anchors": ["include/amino/mat.hpp", "src/mat.c"]}
{"id": "C102", "title": "Pose objects of C++ stand for the poses they are made from", "statement": "The C++ classes for rotations and poses keep their meaning: an object constructed from another representation of a rotation or pose, or from a rotation and a translation, is an object of its class that moves every point as its arguments do; a default object does not move any point; the product of two objects moves a point as one after the other; the conjugate undoes it; rotating or transforming a point gives the moved point, and the translation of an object is the image of the origin.", "quantifier": "all rotations and poses in all representations of the classes Vec3, XAngle, YAngle, ZAngle, Quat, RotMat, AxisAngle, DualQuat, QuatTran, TfMat; all points", "why_tests_cant": "The meaning is a property of a continuum of rotations in several charts; a test compares a few of them, and classes that no test instantiates are not covered at all.", "anchors": ["include/amino/tf/spatial.hpp", "src/tf/conv.c", "src/tf/quat_ord.c", "src/tf/quat_duqu.c", "src/tf/quat_qutr.c", "src/tf/tfmatrix.c", "src/tff.F90"]}
{"id": "C103", "title": "Planar pose objects of C++ stand for the planar motions they are made from", "statement": "The C++ classes for planar rotations and poses keep their meaning: an object constructed from another representation of a planar rotation or pose, or from a rotation and a translation, is an object of its class that moves every point of the plane as its arguments do; a default object of a class documented to start as the zero rotation or the identity, and the identity complex number, do not move any point; the product of two objects moves a point as one after the other; the inverse or conjugate undoes it; the product with a vector is the moved point; and the angle of a rotation is that of the rotation.", "quantifier": "all planar rotations and poses in all representations of the classes AngleP, Cmplx, RotMatP, CmplxTran, TfMatP; all points; all prior contents of memory", "why_tests_cant": "The meaning is a property of a continuum of rotations; a test compares a few of them, and an object whose memory is not initialised may by chance contain the expected value whenever the test runs.", "anchors": ["include/amino/tf/planar.hpp", "include/amino/tf/planar.h", "src/tf/tfp.c"]}
{"id": "C104", "title": "Dual numbers carry exact derivatives", "statement": "In the Fortran interface, evaluating any expression of the operators (+, -, *, /) and functions (sin, cos, acos, atan2, exp, log, sqrt) on dual numbers gives as first component the value of the expression at the first components, and as second component its derivative in the direction of the second components; arrays hold the values in the first half and the derivatives in the second half, packing and unpacking are inverse to each other, and scaling an array multiplies each of its dual numbers.", "quantifier": "all expressions of any depth, all arguments at which every function of the expression is applied inside of the domain where it is differentiable, all arrays of even length", "why_tests_cant": "A derivative is a limit, and a test compares a few arguments of a few expressions to finite differences up to a tolerance; a wrong factor that is one at the tested argument passes.", "anchors": ["src/tff.F90"]}
{"id": "C105", "title": "Geometry has the shape and the options that were given", "statement": "Take any sequence of calls that create, change and destroy geometry options, create geometry of any shape with them, or make a copy of geometry with other options, by a client that uses only what exists. No call is undefined. Each getter of an option object returns the value that was last set by the name of the option in the interface, or the default (gray, opaque, no specular reflection, scale one, visual, collision, with shadow); flags read as one if set to anything but zero. Each geometry has the shape that was given for it, a copy with other options that of the original, and reads the options as they were at the call that made it, whatever happens to the option object afterwards.", "quantifier": "all sequences of calls of any length of a client that follows the rules, all values", "why_tests_cant": "Options have independent settings that may be changed in any order, before and after geometry uses them; tests set and read few combinations, often with equal components.", "anchors": ["src/rx/geom_opt.c", "src/rx/scene_geom.c", "include/amino/rx/scene_geom.h", "include/amino/getset.h"]}
{"id": "C106", "title": "A sequence of motion plans is kept and displayed point by point", "statement": "A sequence of motion plans gives back the plans in the order in which they were appended, with the graph and the waypoints that the array contained at that time, the number of plans and of all waypoints, and nothing past the last plan. A window that displays it shows from the time the sequence is given, with 0.8 seconds per waypoint, the configuration on the straight line between the current waypoint and the next one of the same plan, stays at the last waypoint of each plan, and begins again with the first waypoint after the last; no frame reads outside of the plans. Destroying the sequence releases its memory.", "quantifier": "all sequences of plans with any numbers of waypoints on any scene graphs that do not change, all sequences of frame times that do not decrease", "why_tests_cant": "The frame times are set by the machine and the plans have any lengths; tests do not run the display, and an off-by-one error shows for one frame at the border of two plans only.", "anchors": ["src/rx/mp_seq.cpp", "src/rx/sdl_win.c", "src/la.c"]}
{"id": "C107", "title": "Functions are run once in the thread of the window", "statement": "A call of aa_rx_win_call runs the given function exactly once, with the given context, in the thread that runs the window loop, and returns the value of that run; functions of different calls are never run at the same time, and each call returns as long as the loop runs and the functions return. Functions may use the window interface themselves: inside of the thread of the window the call runs the function at once, and a loop that waits for a window goes on when one has been created.", "quantifier": "all interleavings of any number of calling threads with the thread of the window, before and after the window is created, with any spurious wake-ups", "why_tests_cant": "The errors need a certain order of steps of several threads within microseconds; tests run few schedules, and a lost wake-up looks like a slow display.", "anchors": ["src/rx/sdl_win.c"]}
{"id": "C108", "title": "Keyboard and mouse move the camera about the scene without tilting it", "statement": "Each key and mouse event of the window control does one thing to the camera: arrows of the number pad and a drag with the left button turn it about the origin of the scene, about the horizontal axis of the picture and the vertical axis of the world, so that the origin stays at its place in the picture, the distance to it stays the same and the horizon is never tilted; with control, or with the right button, they move it along the axes of the picture; the wheel moves it forward or, with modifiers, does one of the other motions; home restores the home pose. Turns and movements add up: a drag depends only on its first and last point, opposite keys cancel. The pose stays a rigid transform, the matrix for drawing belongs to it, and whenever the picture would change it is drawn again.", "quantifier": "all poses of the camera, all sequences of events of any length with any modifiers, all paths of the mouse, all settings of the speeds", "why_tests_cant": "A test can look at a few key presses; that turns about two different axes add up over all drags, and that the horizon never tilts however many events come, is a statement about all sequences.", "anchors": ["src/amino_sdl.c:295-310", "src/amino_sdl.c:312-461", "src/amino_gl.c:1561-1623"]}
{"id": "C109", "title": "The display loop shows frames in time and hands each event to its handler", "statement": "The display loop calls the display function once per turn with the times of this turn, of the one before and of the start, and tells whether it is the first one and whether an update was asked for; the picture is exchanged after it exactly if an update was asked for since the last exchange, by the frame itself, a handler or the control of the camera, and at the first frame. Every event that arrives is handled exactly once, in order: by the handler bound first for its key or its type, among all bindings made so far, even by other handlers, and by the control of the camera if there is none or it declines. Handlers and display function can read the most recent event from the parameters. After a request to quit nothing is handled or shown any more and the loop returns; closing the window is such a request. The loop never waits past the time of the next frame, and frames are not shown faster than the rate, up to a millisecond.", "quantifier": "all programs of handlers and display functions, all sequences of events and of readings of a clock that does not run backwards, all rates of frames, any number of turns", "why_tests_cant": "The order of events, bindings made while running, requests and times has no bound; a test runs a few frames, and reading an event that does not exist any more usually seems to work.", "anchors": ["src/amino_sdl.c:477-560", "src/sdl_handler.c:102-169", "src/sdl_ui.c:58-107", "include/amino/rx/scene_sdl.h:95-165", "include/amino/time.h:78-158"]}
{"id": "C110", "title": "Average orientation and relative translation are optimal", "statement": "In exact arithmetic, and if the eigenvalue routine returns unit eigenvectors and lists every eigenvalue of a symmetric matrix, aa_tf_quat_davenport returns, for unit quaternions in an array of any leading dimension and nonnegative weights (equal weights when the pointer is NULL), a unit quaternion whose rotation has the least weighted sum of squared distances from the given rotations. The average of quaternions that all stand for one rotation (with a nonzero weight) is that rotation, the signs of the quaternions do not matter, and the average of none is the identity. aa_tf_relx_mean returns the translation with the least sum of squared distances between the rotated points and the others, and fails only for no points; aa_tf_relx_median returns a translation with the least sum of absolute deviations, and the exact one whenever more than half of the pairs agree on it. Both change no memory other than their result and the scratch array.", "quantifier": "all numbers of quaternions and points, all unit quaternions, weights, points, matrices, leading dimensions and placements of disjoint arrays", "why_tests_cant": "Optimality compares the result with every other rotation or translation, and the outlier property holds for arbitrary values of the other points.", "anchors": ["src/tf.c", "src/tf/quat_ord.c", "include/amino/tf/spatial.h"]}
{"id": "C111", "title": "Dual quaternions as arrays, matrices and Jacobians", "statement": "In exact arithmetic, the matrices of aa_tf_duqu_matrix_l and aa_tf_duqu_matrix_r turn products of dual quaternions into products with the array of eight numbers, those of the cross product likewise, for every leading dimension that is large enough, and the functions write nothing outside the matrix. aa_tf_duqu_jac_vel2diff turns a velocity Jacobian into the one that gives the derivative of the dual quaternion: along any differentiable motion whose velocity the first gives, the second gives the derivative. Sums, differences and multiples act on each number. aa_tf_duqu_norm gives the norm as a dual number (its square is the product with the conjugate, products have the product of the norms, poses have norm one) and fails only for a zero real part; aa_tf_duqu_vnorm gives the norm of the vector part and fails only if its real part is zero. Pure dual quaternions convert to arrays of six and back without loss, and aa_tf_duqu_lnv loses nothing of the logarithm of a pose.", "quantifier": "all dual quaternions, vectors, Jacobians with any number of columns, motions, leading dimensions, placements and contents of memory", "why_tests_cant": "The claims hold for every pose and memory layout; a test compares a few products with reference numbers.", "anchors": ["src/tf/quat_duqu.c", "include/amino/tf.h", "src/tf.c"]}
{"id": "C112", "title": "The test for rotation matrices accepts rotations and nothing far from one", "statement": "In exact arithmetic, and whatever the inverse of LAPACK does with singular matrices, aa_tf_isrotmat accepts every rotation matrix. Every matrix it accepts has a determinant within 0.0001 of one, its rows and its columns are orthonormal within 0.0002, and it changes the square of no length by more than 0.06 percent; in particular reflections, scalings and singular matrices are rejected.", "quantifier": "all 3x3 matrices, all vectors, all implementations of the inverse that invert invertible matrices", "why_tests_cant": "The set of matrices is a continuum and the answer for singular matrices depends on what LAPACK leaves behind; a test tries a few matrices.", "anchors": ["src/tf.c", "src/la.c", "src/math.c"]}
{"id": "C113", "title": "Nearest rotation vector of a rotation", "statement": "aa_tf_rotvec_near and aa_tf_quat2rotvec_near return a rotation vector of the given rotation such that no other rotation vector of that rotation is closer to the reference.", "quantifier": "all rotation vectors, unit quaternions and references", "why_tests_cant": "The rotation has infinitely many rotation vectors and the references are a continuum; tests look at references close to the vector.", "anchors": ["src/tf.c", "include/amino/tf/spatial.h"]}
{"id": "C114", "title": "Projections of vectors", "statement": "In exact arithmetic, aa_tf_proj and aa_tf_proj_orth split a vector into a multiple of the second vector and a rest perpendicular to it; no point on the line of the second vector and no vector perpendicular to it is closer to the first vector. They divide by zero exactly if the second vector is zero.", "quantifier": "all pairs of vectors", "why_tests_cant": "The claim compares with all points of a line and of a plane.", "anchors": ["src/tf.c", "include/amino/tf/spatial.h"]}
{"id": "C115", "title": "Random and orthonormalized poses are valid", "statement": "In exact arithmetic, aa_tf_qurand and aa_tf_qutr_rand return unit quaternions and translations with coordinates of at most one half whatever numbers rand() returns, without dividing by zero, if RAND_MAX is odd (as glibc's 2147483647 is). aa_tf_tfmat_normalize makes a valid transform of every matrix whose first two axes are independent, keeps the translation, and leaves valid transforms as they are.", "quantifier": "all values of rand(), all odd RAND_MAX, all transformation matrices with independent first two axes", "why_tests_cant": "There are 2^124 sequences of numbers; a division by zero would need all four to be exactly one half.", "anchors": ["src/tf.c", "src/tf/tfmatrix.c", "src/math.c"]}
{"id": "C116", "title": "Riccati solver returns the stabilizing solution", "statement": "Let A be m x m, let G = B B^T for an m x n array B (G = B itself when n = m) and Q = C^T C for a p x m array C (Q = C itself when p = m), with G and Q positive semidefinite, (A,G) stabilizable and (A,Q) detectable. Then aa_la_care_laub(m,n,p,A,B,C,X) returns 0 and stores in X the symmetric positive semidefinite solution of A^T X + X A - X G X + Q = 0 for which every eigenvalue of A - G X has negative real part; it is the only stabilizing solution. Memory other than X and the scratch memory is unchanged. When the equation has no stabilizing solution the value returned is not 0.", "quantifier": "all sizes, all matrices, all Schur forms LAPACK may return", "why_tests_cant": "The result depends on which orthogonal basis of the stable subspace LAPACK returns; that the block U11 is regular, that X is symmetric, positive and stabilizing is a theorem about every stabilizable and detectable system, while a test compares X for a few systems and never sees the status of an unsolvable one.", "anchors": ["src/are.c:46-95", "src/are.c:97-176", "src/test/aa_test.c:458-485"]}
{"id": "C117", "title": "Least squares and hyperplane fitting", "statement": "aa_la_d_lls(m,n,p,A,lda,b,ldb,x,ldx) and aa_la_lls store in each column of x the vector of least norm among those minimizing |A x - b| for that column of b, and change no other memory of the caller. aa_la_d_colfit and aa_la_plane_fit: whenever the n points determine a hyperplane (exactly one hyperplane contains all of them), the result is that hyperplane in Hessian normal form: a unit normal followed by the offset, correct up to a common sign.", "quantifier": "all sizes (over- and underdetermined), all leading dimensions, all matrices and points", "why_tests_cant": "A test fits points of one plane. That the rescaling of rows does not change the answer, that the copies are right for every leading dimension and shape, and that a plane through the origin cannot be returned at all are facts about all inputs.", "anchors": ["src/la_impl.c:437-478", "src/la_impl.c:735-774", "src/la.c:405-409", "src/la.c:520-522", "src/test/aa_test.c"]}
{"id": "C118", "title": "QR factorization and eigenvalues for every leading dimension", "statement": "For an m x n array A with leading dimension lda >= m, aa_la_d_qr returning 0 has stored in Q an orthogonal m x m matrix and in R an upper triangular m x n matrix with A = Q R; a null pointer skips that factor; it writes nothing outside the documented m x n arrays Q and R. For an n x n array A with leading dimension lda >= n, aa_la_d_eev returning 0 has stored the eigenvalues of A, with multiplicity, in wr and wi, and eigenvectors in the columns of the arrays given.", "quantifier": "all sizes, all leading dimensions, all matrices, every choice of null pointers", "why_tests_cant": "Tests factor three small matrices whose leading dimension is the number of rows and pass a larger Q than documented; the errors appear only for other leading dimensions and depend on memory next to the scratch copy.", "anchors": ["src/la_impl.c:481-526", "src/la_impl.c:571-601", "include/amino/la_impl.h:391-407", "src/test/aa_test.c:1890-1955"]}
{"id": "C119", "title": "Cleared blocks, copies and formatted text in a region", "statement": "In every state reached by a history of calls on a region, aa_mem_region_zalloc(size), aa_mem_region_dup(p,size), aa_mem_region_strdup(str) and aa_mem_region_printf(...) end and return a new block that is owned by the region and touches no live block; its bytes are size zeros, the size bytes at p, the string with its terminating null, or the formatted text with a terminating null; the bytes of all live blocks are unchanged. The source of a copy is any memory the client may read.", "quantifier": "all histories, all sizes, all contents, all addresses malloc may return", "why_tests_cant": "Whether the text is first written behind the end of a chunk, whether growth frees the chunk being copied from and whether the retry loop ends depends on the state of the region; tests see a few fresh regions.", "anchors": ["src/mem.c:217-233", "src/mem.c:258-278", "include/amino/mem.h:255-287"]}
{"id": "C120", "title": "Hue, saturation and value of a colour", "statement": "For red, green and blue in [0,1], aa_cv_rgb2hsv divides by no zero and gives a value that is the largest component, a saturation in [0,1] that is 0 exactly for greys, and a hue in (-pi,pi] such that saturation times value in the direction of the hue is the point of the colour on the wheel where red, green and blue are a third of a turn apart. No two colours have the same result. Dimming a colour changes the value only; passing red to green, green to blue and blue to red turns the hue of a colour that is no grey by 2 pi/3 and keeps the rest; exchanging green and blue mirrors the hue and keeps the rest; pure red has hue 0 and saturation 1.", "quantifier": "all colours with components in [0,1], all factors in (0,1], exact arithmetic", "why_tests_cant": "Injectivity, the bound on the saturation and the symmetry under rotation of the channels are statements over a continuum and over pairs of colours; no finite set of samples settles them.", "anchors": ["src/cv.c:47-71", "include/amino/cv.h:49-54"]}
{"id": "C121", "title": "Validators accept exactly the valid data", "statement": "aa_valid_f returns 0 iff the value is a number in [min,max]. aa_valid_v returns a negative number if the count is not the desired one, else one more than the first index whose element is not a number within the given bounds (either bound array may be null), else 0. aa_valid_vunit returns 0 iff the Euclidean norm is within tol of 1. aa_valid_timespec returns 0 iff the normalised time is between the two normalised times. No call overflows.", "quantifier": "all doubles including infinities and those that are not numbers, all counts of type size_t, all bounds present or null, all normalised timespecs; the norm in exact arithmetic", "why_tests_cant": "Counts beyond INT_MAX, values that are not numbers and extreme times are outside any practical test array, and the first-index rule quantifies over all positions.", "anchors": ["src/validate.c:45-74", "include/amino/validate.h:46-70"]}
{"id": "C122", "title": "Interpolated trajectory between two poses", "statement": "For two poses with unit quaternions added by aa_ct_pt_list_add_qutr to an empty point list, aa_ct_tjx_slerp_generate returns a trajectory of duration 1. Evaluating it with a state of aa_ct_state_alloc gives the first pose at time 0 and before, the second at time 1 and after, always a unit quaternion, and rotation matrix and translation that are continuous in time; strictly between, the velocities reported in the state are constant, the translational one is the derivative of the translation, the rotational one is to within 2^-80 the angular velocity of the orientation, and at most half a turn is made; only the arrays of the state are written; the result is AA_CT_SEG_IN for times from 0 to 1. A list of any other length gives NULL.", "quantifier": "all pairs of poses, all times, all numbers of configurations of the state, all contents of memory; exact arithmetic", "why_tests_cant": "Continuity and velocities along the path are statements over a continuum of times and poses; whether the cleared efforts lie over the pose depends on the number of configurations of the state.", "anchors": ["src/ct/traj.cpp:1122-1197", "src/ct/traj.cpp:130-137", "src/ct/traj.cpp:208-229", "src/ct/state.c:45-70", "include/amino/ct/traj.h:148-159"]}
{"id": "C123", "title": "Rotation and pose objects of Python stand for what they are made from", "statement": "In Python, making an object of a class of rotations (Quat, RotMat, AxAng, EulerZYX, EulerRPY) from a rotation (one of these or XAngle, YAngle, ZAngle), or an object of a class of poses (TfMat, DualQuat, QuatTrans) from a pose or from a tuple of a rotation and a vector, gives an object that moves every point as the original does; an object made without argument moves no point; lists of numbers are taken as documented; a * b first applies b and then a, ~a undoes a, rotate and transform return the image of the point, and setting rotation or translation of a pose keeps the other part.", "quantifier": "all rotations, poses, vectors and pairs of classes", "why_tests_cant": "The conversions go through methods looked up at run time and a continuum of values; tests try few pairs of classes with few values.", "anchors": ["python/amino/tf.py", "python/amino/mixin.py", "python/amino/util.py"]}
{"id": "C124", "title": "Vectors and matrices of Python are what arithmetic says, and views stay valid", "statement": "In Python, +, -, *, / and unary minus on DVec and DMat, copies and transpose() return new objects whose elements are the ones arithmetic names, and change no element of any other object; +=, -=, *= and /= change the object itself, so that every other name of it and every view of it shows the result, and change nothing else; rows, columns, diagonals, blocks and slices are views of the elements that Python indexing names; an index or a size that does not fit raises an exception; and no program made of these operations reads or writes storage that has been released.", "quantifier": "all programs that make, name, delete, copy, index, slice and combine vectors and matrices, all sizes and elements, all aliasings between the operands", "why_tests_cant": "Tests check results of single operations on a few small operands that are all alive and do not overlap; they cannot cover all programs, all aliasings between views, and use of storage after release, which often seems to work.", "anchors": ["python/amino/mat.py", "python/amino/mixin.py", "src/mat.c"]}
{"id": "C125", "title": "Names, ids, configurations and poses of a Python scene graph", "statement": "In Python, for a SceneGraph g whose frames were added and then g.init() called: (a) ensure_frame_id and ensure_frame_name give the id and the name of a frame that is named by either (the root is -1 and ''), ensure_frame_id_actual, frame_name, ensure_config_id, ensure_config_name and config_name do so for actual frames and configuration variables, all raise ValueError or IndexError for anything else, and get_parent names the parent. (b) config_vector of a dictionary is the vector holding its values at the ids of its keys and the elements of the vector given (zero without one) elsewhere, it raises IndexError for unknown keys; of a sequence it is the sequence, with IndexError when the length is not config_count; a call that raises changes nothing; config_vector(config_dict(v)) is v. (c) After fk.config = c for a SceneFK, fk.config is c, fk[x] is the pose of frame x at c, fk[x, y] the pose of y relative to x, for the root too; no use of the object ends the process or touches memory that was not allocated and written, whether or not a configuration was assigned and whether or not frames were added to g, with init() called again, since fk was made; an assignment that raises leaves config and poses as they were. init() raises when a parent is missing.", "quantifier": "all scenes whose frames form a forest with nonempty names, all names, ids, dictionaries, sequences and sequences of calls", "why_tests_cant": "Tests look up the names they added and assign complete configurations to fresh objects; wrong names, ids shared by frames and variables, dictionaries with one bad key and graphs that grow later are combinations nobody enumerates.", "anchors": ["python/amino/scenegraph.py:442-627", "python/amino/kinematics.py:51-101", "src/rx/sg_api.cpp:67-163", "src/rx/sg_api.cpp:858-997"]}
{"id": "C126", "title": "Rates of rotation vectors (Fortran half)", "statement": "In exact arithmetic, along every differentiable path of rotation vectors with a given rate: aa_tf_rotvec_qjac times the rate is exactly the derivative of the unit quaternion exp(v/2), at the zero vector too; aa_tf_rotvec_diff2qdiff is that derivative to within 2^-80 times the length of the rate, and aa_tf_rotvec_diff2vel is the angular velocity w with dq/dt = w q / 2 to within 2^-70 times the length of the rate; both are exact when the rotation vector is zero or not shorter than 2^-12.", "quantifier": "all rotation vectors, rates and differentiable paths", "why_tests_cant": "The derivative is a limit over a continuum; tests compare finite differences at random vectors with loose tolerances and never meet the series branch near zero or full turns.", "anchors": ["src/tff.F90:2452-2545", "include/amino/tf/spatial.h"]}
{"id": "C127", "title": "Spherical quadrangle interpolation and its building blocks", "statement": "For unit quaternions: (a) aa_tf_qsquad of two keys and two control points is a unit quaternion for every parameter, begins at the first key and ends at the orientation of the second. (b) With control points from aa_tf_qsquad_param, which exist for every three unit keys, the interpolations on both sides of a key meet there with the same value and the same derivative, whatever the other control points, so that the motion through the keys is smooth. (c) aa_tf_qslerp3diff gives the interpolation between two interpolated orientations, and its derivative when the three parameters are differentiable functions of time with the given rates.", "quantifier": "all unit quaternions, all parameters, all differentiable parameter functions", "why_tests_cant": "Continuity of a derivative is a limit; the failures need keys on opposite sides of the unit sphere or angles that change.", "anchors": ["src/tff.F90:2149-2173", "src/tff.F90:2298-2314"]}
{"id": "C128", "title": "Weighted average of poses", "statement": "In exact arithmetic, and if the eigenvalue routine returns unit eigenvectors and lists every eigenvalue of a symmetric matrix, aa_tf_qutr_wavg returns for poses in an array of any leading dimension and nonnegative weights that are not all zero (equal weights when the pointer is NULL) a unit quaternion and a translation; the rotation has the least weighted sum of squared distances from the rotations of the poses, the translation has the least weighted sum of squared distances from their translations, and the average of equal poses is that pose.", "quantifier": "all numbers of poses, all poses, weights and leading dimensions", "why_tests_cant": "Optimality quantifies over every competing pose, and the project has no test of the function.", "anchors": ["src/tff.F90:3008-3022", "include/amino/tf/spatial.h:1290-1292"]}
{"id": "C129", "title": "Polynomials by Horner's rule", "statement": "In exact arithmetic, aa_tf_horner (an array of any size), aa_tf_horner3, aa_tf_horner4 and aa_tf_horner5 of Fortran and aa_horner3 of C return the sum of a_i x^i over the coefficients given.", "quantifier": "all arguments, all arrays of coefficients", "why_tests_cant": "No test calls the array version; the others are only exercised through series with fixed coefficients.", "anchors": ["src/tff.F90:2602-2642", "include/amino/math.h:179-184"]}
{"id": "C130", "title": "Arrays given to parameters of inverse kinematics", "statement": "For every sequence of aa_rx_ik_parm_create, aa_rx_ik_parm_take_config / take_gain_config / take_seed (AA_MEM_COPY, AA_MEM_STEAL or AA_MEM_BORROW), aa_rx_ik_parm_center_configs, aa_rx_ik_parm_center_seed, aa_rx_ik_parm_destroy, of solving, and of allocating, writing and freeing memory by the caller that keeps to the rules of the three modes: (a) no memory is accessed or freed that is not allocated, also when the array that is passed is the one already held; (b) the solver is led to the reference with the gains that were given: as they were when copied, as they are now when borrowed or stolen; (c) after destruction of the parameters all that was copied or stolen is freed, exactly once, and nothing borrowed; (d) solving starts from the seed given by take_seed or center_seed.", "quantifier": "all sequences of these operations, any number of parameter objects and blocks, all lengths and values", "why_tests_cant": "Tests pass one array in one mode; double frees and leaks depend on the order of calls over several objects and are not visible in the result", "anchors": ["src/rx/ik_opt.c:57-196", "include/amino/mem.h:531-558", "src/rx/scene_ik.c:74-104", "src/rx/scene_ik.c:187-216", "src/rx/scene_ik.c:423-428"]}
{"id": "C131", "title": "Python objects keep the C objects they need", "statement": "For every program that makes, uses, rebinds and drops objects of SceneGraph, SubSceneGraph, SceneFK, SceneDK, SceneIK, SceneCollisionSet, SceneCollision, SceneCollisionDist, SceneWin and MotionPlan, in any order and with finalization in any order: no method and no frame of the display thread accesses a C object that is destroyed, a C object is there as long as its Python object can be reached, and each is destroyed exactly once after that.", "quantifier": "all sequences of statements, frames of the display thread and finalizations", "why_tests_cant": "Tests keep everything in module variables until the process ends; whether a pointer inside a C object outlives its target depends on the order of drops, garbage collection and display frames, and there are infinitely many of these.", "anchors": ["python/amino/scenegraph.py:337-341", "python/amino/kinematics.py:55-58", "python/amino/kinematics.py:263-267", "python/amino/collision.py:282-286", "python/amino/scenewin.py:73-108", "python/amino/motionplanning.py:53-54", "src/rx/sdl_win.c:178-195"]}
{"id": "C132", "title": "A window shows what was set last", "statement": "For every interleaving of aa_rx_win_set_sg, aa_rx_win_set_config, aa_rx_win_get_config, aa_rx_win_set_display_seq, aa_rx_win_set_display_plan, aa_rx_win_stop, aa_rx_win_stop_on_quit, aa_rx_win_is_running, aa_rx_win_run and the frames of the display thread: no call and no frame accesses memory that is freed or past its end; every frame shows the scene graph or sequence last set, a graph at the configuration last set (zeros after setting the graph); get_config returns the configuration last set; the loop ends with at most one more frame after stop and, unless it is to stop when the user quits, not before; is_running tells whether the loop runs, a stopped window can be run again, and destroying the window releases all memory it allocated.", "quantifier": "all sequences of calls and frames, all configurations and graphs", "why_tests_cant": "The result depends on the order in which threads take the mutex and on which functions take it; tests run one window in one order.", "anchors": ["src/rx/sdl_win.c:439-572", "src/rx/sdl_win.c:780-813", "src/rx/sdl_win.c:843-942"]}
{"id": "C133", "title": "A picture shows every visible shape at its pose", "statement": "aa_rx_sg_render draws exactly the faces of the geometry of the graph that is to be seen (visual geometry if visual geometry is shown, collision geometry if collision geometry is shown) on frames that are not masked: the faces that the meshes have at the time of the call, each vertex where the pose given for the frame puts the scaled vertex, seen through the camera in force, and each normal turned with the frame. Geometry attached between two pictures, copied to another frame or shared by several graphs is drawn too. No call reads outside of an array.", "quantifier": "all histories of creating and filling meshes, creating geometry, attaching and copying it, copying graphs and drawing any of them; all poses, scales, cameras, masks and display options; all contents of uninitialized memory", "why_tests_cant": "What is drawn depends on flags that say whether buffers for the graphics card have been made, set by earlier calls on other graphs that share geometry; tests need a display and somebody to look at it.", "anchors": ["src/amino_gl.c:378-516", "src/amino_gl.c:664-745", "src/amino_gl.c:1447-1508", "src/amino_gl.c:1640-1730", "src/rx/scenegraph.cpp:396-428", "src/rx/sg_api.cpp:465-480"]}
{"id": "C134", "title": "A blended workspace trajectory moves from the first pose to the last within its limits", "statement": "aa_ct_tjX_pb_generate makes, for a list of poses, a trajectory of poses: over exactly its recorded duration evaluation succeeds and gives the pose, linear and angular velocity and acceleration of a continuously differentiable motion that begins at rest at the first pose and ends at rest at the last, with velocities (linear and angular) and accelerations within the limits dX and ddX; at other times evaluation fails and leaves the state as it was.", "quantifier": "all non-empty lists of poses (unit quaternions and translations), all positive and negative limits, all times of evaluation, all earlier contents of the state", "why_tests_cant": "Between the poses the orientation is interpolated as a rotation vector whose rate is not the angular velocity, neighbouring poses are compared and dropped, and the poses have two quaternions each; a test of a few moves cannot show what happens for other axes or small steps.", "anchors": ["src/ct/traj.cpp:932-1012", "src/ct/traj.cpp:94-109", "src/tf.c:195-222"]}
{"id": "C135", "title": "Continuity check of a trajectory", "statement": "aa_ct_seg_list_check_c0(segs, dt, tol, eps) returns 0 exactly when the trajectory moves by at most tol (sum of the absolute changes of all joints) between consecutive samples dt apart and by at most eps where segments meet, a nonzero code otherwise, and leaves the thread's memory region as it found it.", "quantifier": "For every trajectory made by the linear, trapezoidal and parabolic-blend generators, every dt > 0, tol and eps >= 0.", "why_tests_cant": "Whether the right pair of samples is compared depends on a hidden iterator and on what evaluation outside a segment leaves in the state, over unboundedly many samples and segments; tests try single steps.", "anchors": ["src/ct/traj.cpp:1034-1114", "src/ct/state.c:44-70", "src/mem.c:136-166"]}
{"id": "C136", "title": "Evaluating a trajectory into arrays", "statement": "aa_ct_seg_list_eval_q(list, t, n, q) fills the n configurations with the position of the trajectory at t, aa_ct_seg_list_eval_dq also the n velocities; both return whether t lies in the trajectory, leave the arrays alone when it does not, and store nothing outside the given arrays.", "quantifier": "For every trajectory made by the linear, trapezoidal and parabolic-blend generators, every time and every array length.", "why_tests_cant": "The functions pass a state with null pointers to whichever evaluation function each segment has; only an argument over all kinds of segments shows which store through them.", "anchors": ["src/ct/traj.cpp:231-248", "src/ct/traj.cpp:349-376", "src/ct/traj.cpp:487-508", "src/ct/traj.cpp:724-757"]}
{"id": "C137", "title": "Thread-local regions are isolated from each other", "statement": "Every thread that uses the aa_mem_region_local_ functions works on a region of its own: whatever other threads do, the pointers its calls return and the state of its region are exactly those of its own calls alone (a first call gives it 256 kB, aa_mem_region_local_init a new region of the given size); every block it is given lies inside of its own region; the regions of two threads never overlap; and no memory is freed twice or leaked: once every thread has destroyed its region or ended, nothing is allocated.", "quantifier": "Every number of threads, every interleaving of their calls (aa_mem_region_local_get, init, destroy, alloc, tmpalloc, pop with any pointer, release, end of thread), all sizes, every placement of blocks by malloc.", "why_tests_cant": "A test runs a few threads once; isolation is about every interleaving and every placement of blocks, and a wrong slot shows up only under particular timing.", "anchors": ["src/mem.c:280-352", "src/mem.c:95-256", "include/amino/mem.h:306-345"]}
{"id": "C138", "title": "Restarts of inverse kinematics are attempts in their own right", "statement": "When aa_rx_ik_solve is given a restart time, every restart is an attempt in its own right: it makes up to max_iterations steps from its own random seed. The call succeeds exactly if one of the attempts, run by itself, succeeds, with the configuration of the first such attempt; otherwise it returns the status and configuration of the last attempt.", "quantifier": "for all scenes, kinematic chains, parameters, targets, seeds and sequences of random restarts", "why_tests_cant": "A test compares success rates of a few random targets; that restarts share a counter of iterations only shows when a solution is reached late in a restarted attempt", "anchors": ["src/rx/scene_ik.c:219-298", "src/rx/ik_jacobian.c:73-163"]}
{"id": "C139", "title": "An octree in a scene graph", "statement": "aa_rx_sg_add_octree adds one fixed frame below the given parent for every occupied leaf of the octree (occupancy above one half), at the centre of the leaf, named name/0, name/1, \u2026 in the order of the leaves. Given geometry options, each of these frames carries exactly one box with these options that contains exactly the points of the leaf's cube. Every other frame of the scene graph stays as it was. The result depends only on the arguments, not on earlier calls.", "quantifier": "for all scene graphs, parents, names, octrees (any number, position and size of leaves), options and earlier calls in the process", "why_tests_cant": "Tests load one octree of a fixed resolution; that boxes take their size from the first leaf ever added shows only with leaves of several sizes or with several calls", "anchors": ["src/rx/sg_octree.cpp:49-79"]}
{"id": "C140", "title": "Singular value decomposition of a matrix in an array", "statement": "aa_la_d_svd and aa_la_svd, when they return zero, leave in S the singular values of the m by n matrix A in decreasing order and, in those of the arrays U and Vt that are given, orthogonal matrices such that A = U diag(S) Vt. Each array is read and written with its own leading dimension, which may exceed its number of rows. A and everything but the results is unchanged.", "quantifier": "for all sizes, matrices, leading dimensions and choices of the factors", "why_tests_cant": "Tests use packed 3 by 2 matrices; that a leading dimension is passed for the wrong array shows only with padding and only for some choices of factors", "anchors": ["src/la_impl.c:529-568", "src/la.c:345-347"]}
{"id": "C141", "title": "What the scanner makes of an OBJ file", "statement": "aa_rx_wf_parse on a file whose lines are blank or comment lines, mtllib, usemtl, o, v, vt, vn, s, l and triangular f lines (v//n or v/t/n), with any blanks and comments the format allows, returns an object that holds exactly the numbers, names and zero-based indices written, in the order of the file, each face with the material selected last; every returned object has three indices of each kind and one material per face; a file with any other line or with a line cut short yields NULL.", "quantifier": "all files, all numerals, any number of lines", "why_tests_cant": "files are unbounded and layouts, numerals and malformed inputs cannot be enumerated", "anchors": ["src/wavefront/wavefront.l", "src/wavefront/wf_obj.c", "include/wavefront_internal.h"]}
{"id": "C142", "title": "What the scanner makes of an MTL file", "statement": "aa_rx_wf_mtl_parse on a file whose lines are blank or comment lines, newmtl, Ns, Ni, d, Ka, Kd, Ks, Ke, illum and map_Kd lines returns one material per newmtl line, in order, with exactly the properties given between it and the next newmtl (flags set for those only, the last value counting); any other file, including one with a line cut short, yields NULL, and no file causes undefined behaviour.", "quantifier": "all files, all numerals, any number of lines and materials", "why_tests_cant": "files are unbounded; layouts, orders of properties and malformed inputs cannot be enumerated", "anchors": ["src/wavefront/mtl.l", "src/wavefront/wf_mtl.c", "include/wavefront_internal.h"]}
{"id": "C143", "title": "Iterating over vectors and matrices, and making them from lists", "statement": "A range-based for over a DVec refers to each element exactly once, in order. A range-based for over row_container() (col_container()) of a DMat gives each row (column) exactly once, in order, as the view that row_vec (col_vec) gives. DVec::init, DMat::col_mat and DMat::row_mat give the vector with the elements of the list, and the matrix whose columns (rows) are the lists; they write nothing but the elements of the result.", "quantifier": "For all vectors and matrices (any sizes, increment and leading dimension), all lists and lists of lists, all memories.", "why_tests_cant": "Iteration depends on the pointer arithmetic for every size, increment and leading dimension, and what a ragged or empty list does to memory outside of the matrix is not visible in the result that a test compares.", "anchors": ["include/amino/mat.hpp:540-650", "include/amino/mat.hpp:697-725", "include/amino/mat.hpp:831-1075"]}
{"id": "C144", "title": "Joint velocities from workspace velocities", "statement": "aa_rx_ik_jac_dx2dq writes only dq. J*dq is the velocity that joint velocities can give nearest to dx, and dx itself when the Jacobian J has full row rank, with or without a reference configuration in the parameters. Without a reference, dq is the shortest joint velocity with this effect and never longer than |dx|/sqrt(s2min). With a reference and dx = 0, the end effector stays and dq does not increase the weighted distance from the reference. aa_rx_ik_jac_x2dq does this for dx_ref plus the velocity of aa_rx_wk_dx_pos towards E_ref.", "quantifier": "For all numbers of joints, Jacobians, configurations, velocities, references and gains, and all parameters with s2min > 0.", "why_tests_cant": "Whether null space motion disturbs the end effector depends on the singular values of every Jacobian; tests only see trajectories that converge in the end.", "anchors": ["src/rx/ik_jacobian.c:212-269"]}
{"id": "C145", "title": "A context of inverse kinematics keeps what was set last", "statement": "After aa_rx_ik_cx_create and any sequence of the setters of a context (set_start, set_seed, set_seed_center, set_seed_rand, set_frame_name, set_frame_id, set_restart_time), get_start, get_seed and get_restart_time give what was set last (at first zeros, the centered configuration, zero). The poses that the context keeps are those of its start state, also after a change through the reference that get_start returns. aa_rx_ik_solve reads the pose of the frame set last (at first that of the parameters, or the first end effector), and starts from the start state with the seed for the variables of the sub-scenegraph.", "quantifier": "For all scenes and sub-scenegraphs, all parameters, all sequences of calls with vectors of the right lengths.", "why_tests_cant": "A test sets one start and one seed and looks at the solution; poses that do not belong to the start state, and frames that do not exist, show only for some chains and as arbitrary memory.", "anchors": ["src/rx/scene_ik.c:67-216", "src/rx/sg_api.cpp:889-894"]}
{"id": "C146", "title": "Objects of forward kinematics keep the poses put into them", "statement": "After aa_rx_fk_all an object struct aa_rx_fk holds the poses of all frames at that configuration until the next call that writes to the same object: aa_rx_fk_get_abs_qutr gives the product of the joints along the path from the root, aa_rx_fk_get_rel_qutr the pose of one frame in another or in the root. aa_rx_fk_set_rel changes the pose of one frame only, so that its pose in its parent is the given one. aa_rx_fk_cpy makes the target answer as the source and leaves the source alone. An object can be used as long as its scene graph lives, also after frames were added and the scene graph was initialised again, and an id that is not of a frame is refused.", "quantifier": "For all scene graphs whose parents form a forest, all configurations of the right length, all histories of calls on any number of objects from the heap or a region.", "why_tests_cant": "A test makes the object after the scene graph is complete and asks for frames that exist; memory written past the object, and ids just past the end, show only as corruption elsewhere.", "anchors": ["src/rx/sg_api.cpp:858-997", "include/amino/rx/scene_fk.h:51-121"]}
{"id": "C147", "title": "Motion planning from Python", "statement": "MotionPlan.motion_plan(start, goal, timeout) returns None exactly when some pair of frames that may not touch does so at the goal, or the planner finds no path for this question; otherwise it returns a list of rows with a value for each variable of the scene graph, the first of which is start and the last of which is start with goal put into the variables of the sub-scenegraph, along which the other variables stay and no pair that may not touch does. The answer depends only on this call, lists of a wrong length raise an exception, and a call leaves no memory behind.", "quantifier": "all scene graphs, sub-scenegraphs, starts, goals, numbers of calls on an object, and everything a planner may find", "why_tests_cant": "A test asks for a few plans, mostly one for each object; what a second call answers depends on what earlier calls left in the planner, and the planner is random.", "anchors": ["python/amino/motionplanning.py:53-98", "src/rx/mp/scene_ompl.cpp:105-263"]}
{"id": "C148", "title": "Allocating and duplicating vectors and matrices", "statement": "aa_dvec_malloc, aa_dvec_alloc, aa_dmat_malloc and aa_dmat_alloc return a descriptor of the size asked for whose elements lie, without overlap and aligned if the block is, in the block that was allocated and behind the descriptor, or report that there is no memory. aa_dvec_dup, aa_dvec_mdup, aa_dmat_dup and aa_dmat_mdup return such a vector or matrix with exactly the elements of the source, whatever its increment or leading dimension, and change nothing outside of the new block.", "quantifier": "all sizes, increments, leading dimensions, addresses of blocks and contents of memory", "why_tests_cant": "A test allocates a few small vectors; whether any size fits its block and any source is copied completely is arithmetic over all 64-bit sizes.", "anchors": ["src/mat.c:185-278", "src/mat.c:342-347", "src/mat.c:413-437", "include/amino/mat.h:63-77"]}
{"id": "C149", "title": "Collision checking from Python", "statement": "In Python, for a SceneCollision and SceneCollisionSets of a scene graph: s[i, j], with frames given by number or name, is True exactly if the last of s[i, j] = v, s.clear(), s.fill(t) and check(fk, s) that concerns the pair made it so, where fill adds the pairs of t and check replaces the pairs by those that overlap and are not allowed; allow, allow_set and allow_config add the pair, the pairs of the set and the pairs that overlap in the configuration to those allowed, starting with those of the scene graph; check returns True exactly if a pair that is not allowed overlaps; unknown frames raise and change nothing. No call ends the process or is undefined.", "quantifier": "all scenes, configurations, sequences of calls, frames and sets", "why_tests_cant": "A test makes a few calls in one order; what is allowed after a history of calls is a statement about all of them.", "anchors": ["python/amino/collision.py:49-175", "src/rx/collision_set.cpp:92-107", "src/rx/amino_fcl.cpp:299-456"]}
{"id": "C150", "title": "Inverse of a matrix in place", "statement": "aa_la_inv and aa_dmat_inv return 0 exactly if the square matrix is invertible, and then it is replaced by its inverse; otherwise they return another value and the matrix is as it was. Nothing else is changed, also not the elements between the columns. DMat.inverse() of C++ and DMat.inv() of Python give the inverse, also when it is assigned to the matrix itself, or report that there is none.", "quantifier": "All sizes from 0, all leading dimensions, all matrices over the reals; LAPACK as documented.", "why_tests_cant": "A test inverts a few regular matrices; whether a singular one is reported, the size of the workspace and the bytes between the columns concern all matrices, and the zero set of the determinant is missed by random ones.", "anchors": ["src/la.c:203-228", "src/mat.c:556-582", "include/amino/mat.hpp:343-353", "python/amino/mat.py:400-404"]}
{"id": "C151", "title": "Cubic and quintic splines", "statement": "With the parameters that aa_la_d_3spline_param computes for a duration tf, aa_la_d_3spline at a time t gives for every component the value and the first and second derivative of the only polynomial of degree at most 3 that has the given values and velocities at 0 and at tf; for tf > 0 no twice continuously differentiable curve with these ends has a smaller integral of the squared acceleration over [0, tf]. aa_la_d_5spline_param and aa_la_d_5spline do the same with the only polynomial of degree at most 5 that also has the given accelerations, which has the smallest integral of the squared jerk. Only the n elements of every result are written.", "quantifier": "All n, all durations other than 0, all times, all values, velocities and accelerations over the reals, all increments from 1 and all arrays that do not overlap, as Fortran requires.", "why_tests_cant": "A test compares some splines at some times; that the coefficients give the ends for all durations, and that no other curve is smoother, are statements about all reals and all curves.", "anchors": ["src/la_implf.F90:427-509", "include/amino/la_impl.h:92-131"]}
{"id": "C152", "title": "Quadratic programs", "statement": "aa_opt_qp_solve_cgal returns 0 exactly if the convex problem of minimizing c0 + c\u00b7x + x\u1d40Dx subject to A x = b, A x \u2264 b or A x \u2265 b, as its type says, and l \u2264 x \u2264 u (a bound that is NULL being none) has a solution; then the n elements of x are a solution, and nothing else is written. Otherwise it returns another value and writes nothing.", "quantifier": "All m and n below 2^31, all matrices and vectors over the reals with D positive semidefinite (not necessarily symmetric), all leading dimensions, all bounds and types; CGAL as documented.", "why_tests_cant": "The one test in the repository has D = 0, for which a quadratic part that is assembled wrongly cannot be seen; whether the objective is the right one and whether infeasible and unbounded problems are told apart concerns all problems.", "anchors": ["src/opt/opt_cgal.cpp:67-158", "include/amino/opt/qp.h", "include/amino/opt/opt.h:56-60"]}
{"id": "C153", "title": "Vector functions of the Fortran module", "statement": "aa_la_norm2 gives the Euclidean norm, and while it runs, its scale is the largest magnitude so far and its scaled sum of squares lies between one and the number of elements, so that nothing overflows unless the norm does. aa_la_unit gives the vector of norm one in the same direction, aa_la_proj and aa_la_orth the orthogonal projections on the line of b and on its complement, and each fails only for a zero vector. aa_la_angle gives the angle between nonzero vectors, aa_la_cross the cross product, aa_la_ssd the squared distance, aa_la_lerp the point of the line. aa_la_colssd gives the squared distances of all pairs of columns, also through its C interface for any numbers of columns. aa_la_colmean and aa_la_rowmean give the point with the least sum of squared distances, aa_la_colcov a positive semidefinite matrix that has the variance along every direction, and aa_la_std the square root of its diagonal.", "quantifier": "All lengths and all vectors over the reals; at least one column or row for means, two for covariances and deviations.", "why_tests_cant": "Tests take a few short vectors; overflow of intermediate results depends on the order and magnitude of all elements, and that projections, angles and means are what geometry says is a statement about all vectors.", "anchors": ["src/la_implf.F90:59-425", "src/la_mod.F90:158-240"]}
{"id": "C154", "title": "Arithmetic in scene files", "statement": "Wherever the documented grammar of scene files allows an expression (after def, as an element of an array, as the value of an attribute), an expression of numbers, names, + - * / ^, unary minus and parentheses gets the value ordinary arithmetic gives it, with unary minus first, then powers from the right, then * and / from the left, then + and - from the left, and names standing for their latest definition; text that is not of the grammar is refused.", "quantifier": "all token sequences of definitions, attributes and arrays, all definitions, all numbers", "why_tests_cant": "There are infinitely many nested expressions; tests try a few (the only ones in the repository are a commented-out list), and a misread nested expression silently gives a robot the wrong geometry.", "anchors": ["lisp/rx/inex.lisp:37-100", "lisp/rx/scenefile/curly.lisp:225-230", "lisp/rx/scenefile/curly.lisp:274-329", "lisp/rx/scenefile/curly.lisp:347-370", "doc/md/scenefile.md:52-63"]}
{"id": "C155", "title": "Linear programs written as symbolic constraints", "statement": "lp with a list of constraints (=, <= or >= between a sum of factor times variable and a value) and a list of objective terms hands the solver the program that was written: the variables are those that occur, the objective is the given sum, a point is feasible iff it satisfies every constraint and, for each variable that no constraint bounds on a side, the default bound of that side, and the variables given as binary or integer have that type. A program that has solutions is never refused.", "quantifier": "For all lists of constraints and objective terms over any ordered set of variables, repeated variables and constraints included, all default bounds, and all lists of binary and integer variables.", "why_tests_cant": "Tests solve a few small programs. That merging terms, merging constraints on equal sums, turning one-variable constraints into bounds and packing rows keep the feasible set is a statement about all programs and all points.", "anchors": ["lisp/opt/opt-matrix.lisp:57-178", "lisp/opt/opt-symbolic.lisp:45-70", "lisp/opt/opt-symbolic.lisp:106-157", "lisp/opt/opt-symbolic.lisp:193-266", "lisp/opt/opt-symbolic.lisp:339-522", "lisp/sparse.lisp:45-81"]}
{"id": "C156", "title": "Meshes written by the scene compiler keep every corner", "statement": "For every triangle mesh whose corners each name a vertex and a normal of the mesh, and which either has no materials or gives each face one of its materials, the calls the scene compiler writes (aa_rx_mesh_set_vertices, _indices, _normals, _uv) succeed in describing the same mesh: as many faces in the same order, each corner with the position and the normal it had, counts that agree with the arrays, one normal for each vertex, no unused vertices, one vertex for corners that agree in position, normal and material, and texture coordinates that lie in the piece of the texture that belongs to the material of the face.", "quantifier": "for all meshes with equally many vertex and normal indices in range (a multiple of three), all numbers n of materials, and texture indices either absent with n = 0 or one per face in 0..n-1", "why_tests_cant": "Vertices are duplicated depending on which position/normal/material combinations occur; a mesh file in a test exercises one pattern of sharing.", "anchors": ["lisp/rx/mesh.lisp:71-129", "lisp/rx/sg-gen.lisp:180-216", "lisp/rx/sg-gen.lisp:222-252"]}
{"id": "C157", "title": "Colours of Wavefront materials in compiled meshes", "statement": "For every list of MTL files whose values lie between 0 and 1 and every list of materials that an OBJ file uses, the texture the scene compiler writes has four bytes for each material: red, green and blue of its diffuse colour Kd (grey if it has none or the material is not defined) and its alpha value d (opaque if it has none), each the nearest integer to 255 times the value, from the last definition of the material in the files.", "quantifier": "for all lists of MTL files with values in [0,1] and all lists of used materials", "why_tests_cant": "Whether a material lacks Kd or d, is undefined or defined twice depends on the files; sample meshes give both values once.", "anchors": ["lisp/rx/wavefront.lisp:123-155", "lisp/rx/wavefront.lisp:157-194", "lisp/rx/util.lisp:45-47", "lisp/rx/sg-gen.lisp:155-158", "lisp/rx/sg-gen.lisp:192-202"]}
{"id": "C158", "title": "Frames, geometry and classes of scene files", "statement": "For every scene file that is read, the scene has exactly the frames of the file, each with the parent it names or else the frame that encloses it, and each with exactly the geometry written in it, in order; two frames of the same name are an error. Each attribute of a frame or of geometry has the value of its own last statement, or else the value given by a class it names (directly or through classes); what a frame or geometry states itself wins over its classes, and among several classes the choice is made alike for frames, geometry and classes. The classes of geometry are those it names and those they name in turn. Attributes allowed in geometry are allowed in classes.", "quantifier": "for all scene files (nested frames, geometry and classes with arbitrary statements)", "why_tests_cant": "Overriding depends on the nesting of blocks, the order of statements and the graph of classes; sample files use one class with disjoint attributes.", "anchors": ["lisp/rx/scenefile/curly.lisp:373-591", "lisp/rx/scenegraph.lisp:641-655", "lisp/rx/scenegraph.lisp:686-690", "doc/md/scenefile.md"]}
{"id": "C159", "title": "Lisp scene graphs: poses are products along the tree and survive moves of frames and copies", "statement": "In scene graphs of the Lisp library, scene-graph-tf-absolute gives the product of the motions of the frames from the global frame to the one asked for; scene-graph-tf-relative gives the motion that leads from the pose of the first frame to that of the second; scene-graph-tf-absolute-map has the pose of every frame, whatever the order of the frames, and nothing else. scene-graph-reparent, without a transform, gives a fixed frame a new parent and leaves every frame of the graph where it is, and always leaves a graph in which the frames still have poses. prefix-scene-graph gives a copy, with new names, in which every frame is where it was relative to the frame of the prefix, and the pairs of frames that may collide are those of the original.", "quantifier": "All scene graphs, groups of transforms, motions of joints, configurations, frames, new parents and prefixes.", "why_tests_cant": "Trees and configurations are unbounded; tests compare a few frames of a few robots and rarely move frames onto their own descendants.", "anchors": ["lisp/rx/scenegraph.lisp:970-987", "lisp/rx/scenegraph.lisp:1009-1034", "lisp/rx/scenegraph.lisp:1037-1052", "lisp/rx/scenegraph.lisp:1056-1068", "lisp/rx/scenegraph.lisp:1071-1091", "lisp/rx/scenegraph.lisp:866-911"]}
{"id": "C160", "title": "Compiled scene graphs are the scene graphs of the Lisp library", "statement": "The function that scene-graph-genc writes, called with no scene graph and any root, builds a C scene graph that has one frame for each frame of the Lisp scene graph and no others, with its parent (the root for frames of the global frame), transform, joint type, axis, configuration, offset, mass and inertia, and its geometry in order with its shape and drawing options; the limits of every configuration that a joint uses and no others; and just the allowed collisions of the Lisp scene graph. The scene graph that mutable-scene-graph makes from it in Lisp has the same frames, limits and geometry.", "quantifier": "All scene graphs, roots, limits, geometry and drawing options.", "why_tests_cant": "Graphs are unbounded and the calls interact through names; tests compile a few robot models and do not compare the result with the source or the two routes.", "anchors": ["lisp/rx/sg-gen.lisp:44-98", "lisp/rx/sg-gen.lisp:100-153", "lisp/rx/sg-gen.lisp:272-315", "lisp/rx/rx-sg.lisp:58-143", "lisp/rx/geom-bind.lisp:130-151", "src/rx/geom_opt.c:52-62"]}
{"id": "C161", "title": "Scene graphs of URDF files are the robots the files describe", "statement": "For every URDF file, loading it gives a scene graph in which every link has, at every configuration, the pose of its link in URDF (origin and motion of the joints from the root); each visual and each collision node with a shape is one piece of geometry with that shape, scale, flags and material, placed so that the middle of the shape is at the origin of the node; there is no other geometry; the inertia of links is the tensor given; and defaults of URDF (axis x, lower limit 0) hold.", "quantifier": "All URDF robots: all joints, links, origins, shapes, and configurations", "why_tests_cant": "Names, frames and offsets interact over trees of any depth; robots tested have one visual per link, uniform scales, diagonal inertia", "anchors": ["lisp/rx/scenefile/urdf.lisp:127-162", "lisp/rx/scenefile/urdf.lisp:164-192", "lisp/rx/scenefile/urdf.lisp:235-351", "lisp/rx/scenefile/urdf.lisp:353-374"]}
{"id": "C162", "title": "Adding, merging and removing frames of Lisp scene graphs keep frames, limits and allowed collisions", "statement": "For all Lisp scene graphs: scene-graph of frames, scene graphs and nested lists has one frame for each name among them and no other; merging fails only for duplicate frames or configurations, and otherwise the result has the frames, configurations, files and allowed collisions of both with their poses (new ones replace old ones if superseding); allowing collisions of two frames allows just these in either order; cleaning a frame removes it, its configuration and its allowed collisions and nothing else, and leaves every other frame a pose; the limits known for a configuration are those of the joints that use it; scene-graph-position-limit-p returns exactly the configurations out of limits; and the centre map gives every configuration of a joint the middle of its limits.", "quantifier": "All scene graphs, frames, names, limits and nestings of things", "why_tests_cant": "Names and sets combine in unboundedly many ways; tests merge two or three robots", "anchors": ["lisp/rx/scenegraph.lisp:516-523", "lisp/rx/scenegraph.lisp:572-596", "lisp/rx/scenegraph.lisp:641-683", "lisp/rx/scenegraph.lisp:704-755", "lisp/rx/scenegraph.lisp:1117-1124"]}
{"id": "C163", "title": "Scene files written from scene graphs are read back as the same scene graphs", "statement": "For every Lisp scene graph, the scene file that object-rope writes for it can be read, and the scene graph read has the same frames (name, parent, transform, joint type, axis, offset, variable, limits, inertia), the same geometry in the same order (shape, sizes, drawing options, classes) and the same allowed collisions, and nothing else.", "quantifier": "All scene graphs: all frames, names, joints, shapes and options", "why_tests_cant": "A round trip over unboundedly many names, shapes and options; the driver only writes files for a person to look at", "anchors": ["lisp/rx/sg-rope.lisp:40-136", "lisp/rx/scenefile/curly.lisp:88-108", "lisp/rx/scenefile/curly.lisp:373-591"]}
{"id": "C164", "title": "Key frames are shown at their times with straight motion between them", "statement": "An animation made from key frames shows at the time of each key frame its configuration, from the first to the last, and between two neighbouring key frames each joint moves along the straight line from one value to the other; outside there is nothing.  The order in which the key frames are listed does not matter, clipping the start removes only a standstill at the start, an animation has one frame for each period and ends by itself, and a trajectory file gives one key frame for each line of data whatever blank lines and comments it has.", "quantifier": "all lists of key frames, search trees that hold their set, time offsets, times, rates and trajectory files", "why_tests_cant": "Which of two neighbouring pairs a search tree finds at a shared end, what happens at the last key frame, at equal times, with different joints or with comments in a file depends on inputs that samples with well chosen times do not hit.", "anchors": ["lisp/rx/animate.lisp:42-148", "lisp/rx/animate.lisp:318-376", "lisp/rx/trajectory.lisp:51-82", "lisp/rx/scenegraph.lisp:399-413"]}
{"id": "C165", "title": "Frames are rendered once each, on hosts within their jobs, until all are done", "statement": "Rendering an animation on several hosts renders each frame exactly once, never runs more processes on a host than the jobs it was given nor any before its files have been copied, returns only when no process is left, and always returns.", "quantifier": "all lists of hosts with their jobs, all lists of frames and all orders in which processes end", "why_tests_cant": "The order in which processes and copies end is decided by other machines; a run of a test sees one interleaving, and lost wake-ups or double counting show in few.", "anchors": ["lisp/rx/animate.lisp:378-408", "lisp/rx/animate.lisp:433-543"]}
{"id": "C166", "title": "Absolute transforms of transform trees are products along the parents", "statement": "In a tree of tagged transforms, made by inserting transforms and removing frames, what is known of a frame is the last transform inserted for it, and its absolute transform is the product of the transforms from the world down to it; it is an error only if a parent is missing or frames are parents of themselves.", "quantifier": "all histories of insertions and removals, names of frames, transforms and frames asked for", "why_tests_cant": "Names are compared as strings in some places and as objects in others, so whether a tree works depends on its history; tests that insert and ask once do not show it.", "anchors": ["lisp/tf-type.lisp:314-412", "lisp/tf-op.lisp:592-598"]}
{"id": "C167", "title": "Orientations of the Lisp library turn points alike in every form", "statement": "In exact arithmetic, every conversion of an orientation of the Lisp library (quaternion, complex number, axis and angle, angle about an axis, Euler angles, rotation matrix, nil), to a quaternion, rotation matrix, axis and angle, Euler angles, transform, dual quaternion or printed form, turns points as the orientation does; every orientation can transform points; products and inverses compose and undo.", "quantifier": "all orientations of length one and all points", "why_tests_cant": "The methods are one per kind and target, written by copying; a sample of kinds and angles misses the pair with a wrong axis or the one without a method.", "anchors": ["lisp/tf-op.lisp:151-562", "lisp/tf-type.lisp:172-278"]}
{"id": "C168", "title": "Velocities solved for in Python follow the references last set", "statement": "SceneDK.solve_vel raises an exception exactly if neither a reference pose nor a reference velocity was set. Otherwise it returns the solution, at the current configuration, for the sum of the reference velocity as it was when it was set last and the velocity towards the pose set last, whatever was solved for before, and it changes no reference and no vector of the program.", "quantifier": "all programs that set references and configurations, write to vectors and solve, in any order", "why_tests_cant": "Whether an earlier call or a later write leaks into a velocity depends on the order of calls; tests solve once.", "anchors": ["python/amino/kinematics.py:138-225", "src/rx/scene_wk.c:78-105", "src/rx/scene_wk.c:171-195"]}
{"id": "C169", "title": "Checked scene graphs of the Lisp library have poses for all frames", "statement": "A scene graph that passes check-scene-graph or check-scene-graph-parents has, in every configuration, an absolute pose for every frame, and check-scene-graph also makes sure that the frames of allowed collisions exist. The checks reject only scene graphs with a frame without a pose or with an allowed collision of a frame that is missing.", "quantifier": "all scene graphs with different names of frames, configurations and frames", "why_tests_cant": "Which chains of parents end is a matter of all shapes of scene graphs; tests check a few that are well formed.", "anchors": ["lisp/rx/scenegraph.lisp:349-368", "lisp/rx/scenegraph.lisp:808-833", "lisp/rx/scenegraph.lisp:1009-1034"]}
{"id": "C170", "title": "Videos of animations show all frames in order, and then the last one for a while", "statement": "animate-encode makes a video with the images frame-N.png of a directory in the order of their numbers, each once, followed by the last image for pad - 1 further frames, whatever the order in which the directory is listed; if there are no images it signals an error.", "quantifier": "all nonempty sets of consecutive frame numbers, orders of listing and pads; and the empty directory", "why_tests_cant": "Listings by name put 10 before 2, so which frames are lost depends on the numbers and their order; a test renders a few frames from 0 on.", "anchors": ["lisp/rx/animate.lisp:195-239", "lisp/rx/animate.lisp:427-431"]}
{"id": "C171", "title": "Inverse kinematics from Python solves for what was set last", "statement": "After any sequence of ref_tf = \u2026, set_seed, set_seed_center, set_seed_rand, set_obj, set_tol_angle, set_tol_trans and restart_time = \u2026 on a SceneIK, solve gives aa_rx_ik_solve the reference set last (None is the identity), the tolerances, objective and restart time set last (at first the defaults and zero), and starts from the seed set last (at first the centered configuration), with zeros for the other variables of the scene; it returns the vector if this succeeds, None if not, and raises exactly if no reference was set. No call ends the process or is undefined.", "quantifier": "all sub-scenegraphs, sequences of calls, references, seeds, and behaviours of the algorithms", "why_tests_cant": "A test sets a reference and a seed once and looks at the solution; which of several values is used, and what a seed of the wrong length does, is a statement about all sequences of calls.", "anchors": ["python/amino/kinematics.py:259-335", "src/rx/scene_ik.c:74-250", "python/amino/scenegraph.py:774-780"]}
{"id": "C172", "title": "Separation distances read from Python are symmetric and those of the latest check", "statement": "For a SceneCollisionDist after any sequence of check calls: dist[i, j] and points[i, j], with frames given by number or name, raise exactly if a frame is unknown and are never undefined; dist[i, j] is dist[j, i] and the first element of points[i, j]; points[j, i] has the two points of points[i, j] exchanged; distance and points of a frame and itself are zero; distances and points are those of the latest check, whatever checks there were before.", "quantifier": "all scenes, sequences of checks, pairs allowed between them, answers of the collision library and orders of visits, and frames", "why_tests_cant": "Entries are stored once per pair and reused by later checks; which entries a check leaves as they were depends on the pairs allowed and the objects visited.", "anchors": ["python/amino/collision.py:237-303", "src/rx/amino_fcl.cpp:546-780"]}
{"id": "C173", "title": "Sparse matrices of the Lisp library have the rows they are made from", "statement": "(crs-matrix columns values) signals an error unless there are as many lists of columns as of values, each with as many columns as values, and at least one element. Otherwise it gives a matrix in compressed row storage with as many rows as lists and one column more than the largest column, whose arrays have the lengths that with-foreign-crs asks for; its row pointers begin with 0 and end with the count of elements, and the columns and values between two row pointers are the lists given for this row, in their order.", "quantifier": "all sequences of lists of columns (natural numbers) and of values, with columns and counts within the range of a C int", "why_tests_cant": "Whether pointers of rows stay right depends on empty rows at the begin, the end or in between, and on the counts of all rows.", "anchors": ["lisp/sparse.lisp:40-111", "lisp/sparse.lisp:117-138"]}
