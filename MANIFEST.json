{
 "claims": [
  {
   "property": "C01",
   "status": "partial",
   "theorems": [
    "Verif.Region.C01_region_blocks_owned_disjoint_partial",
    "Verif.Region.C01_alloc_fresh_partial",
    "Verif.Region.C01_violates_unaligned_malloc"
   ],
   "note": "PARTIAL: the statement quantifies over all malloc placements; the theorems assume malloc is 16-aligned or aa_mem_region_release is never called. Without that the claim is false (C01_violates_unaligned_malloc)."
  },
  {
   "property": "C02",
   "status": "partial",
   "theorems": [
    "Verif.Region.C02_region_alignment_partial",
    "Verif.Region.align_bits",
    "Verif.Region.C02_violates_after_release"
   ],
   "note": "PARTIAL: same platform assumption as C01; false without it (C02_violates_after_release)."
  },
  {
   "property": "C03",
   "status": "partial",
   "theorems": [
    "Verif.Region.C03_pop_keeps_older_partial",
    "Verif.Region.C03_violates_mark_at_end",
    "Verif.Region.C03_violates_mark_at_start"
   ],
   "note": "code violates the claim for saved pointers at the end of a chunk or at the start of an empty chained chunk"
  },
  {
   "property": "C04",
   "status": "proved",
   "theorems": [
    "Verif.Region.C04_no_leak_no_double_free",
    "Verif.Region.C04_no_leak_no_double_free_partial"
   ],
   "note": "All histories of init, alloc, tmpalloc, pop of any pointer and release, all malloc placements. The second theorem is the same for histories that also track the client's blocks."
  },
  {
   "property": "C05",
   "status": "partial",
   "theorems": [
    "Verif.Region.C05_release_keeps_capacity",
    "Verif.Region.C05_reuse_partial",
    "Verif.Region.C05_fitting_allocs_do_not_grow",
    "Verif.Region.C05_release_keeps_capacity_partial",
    "Verif.Region.C05_violates_unaligned"
   ],
   "note": "Capacity: all histories and placements. Reuse: proved for regions of several chunks, and for one chunk when the total fits after the first aligned byte. Violation: one chunk at an address that is not 16-byte aligned grows although the padded total equals its free size."
  },
  {
   "property": "C06",
   "status": "proved",
   "theorems": [
    "Verif.Region.C06_tmpalloc_alloc_same",
    "Verif.Region.C06_defined",
    "Verif.Region.C06_tmpalloc_alloc_same_partial"
   ],
   "note": "All states of all histories (any popped pointer, any malloc placement), all sizes."
  },
  {
   "property": "C07",
   "status": "partial",
   "theorems": [
    "Verif.Region.C07_tmprealloc_preserves_partial",
    "Verif.Region.C07_violates_empty_chunk"
   ],
   "note": "use after free when the top chunk is empty (witness)"
  },
  {
   "property": "C08",
   "status": "proved",
   "theorems": [
    "Verif.Pool.C08_pool_never_twice",
    "Verif.Pool.C08_pool_defined",
    "Verif.Pool.C08_pool_lifo",
    "Verif.Pool.C08_pool_blocks_disjoint_partial",
    "Verif.Pool.C08_pool_lifo_partial"
   ],
   "note": "All histories of alloc, free of allocated blocks and writes to allocated blocks, all malloc placements. The _partial theorems also allow aa_mem_pool_release, under the assumption that malloc is 16-byte aligned."
  },
  {
   "property": "C09",
   "status": "proved",
   "theorems": [
    "Verif.RList.C09_rlist_refines_deque"
   ],
   "note": ""
  },
  {
   "property": "C10",
   "status": "proved",
   "theorems": [
    "Verif.Vector.C10_vector_push"
   ],
   "note": ""
  },
  {
   "property": "C11",
   "status": "proved",
   "theorems": [
    "Verif.Bits.C11_get",
    "Verif.Bits.C11_set",
    "Verif.Bits.C11_words",
    "Verif.Bits.C11_getn"
   ],
   "note": ""
  },
  {
   "property": "C12",
   "status": "partial",
   "theorems": [
    "Verif.Bits.C12_bits_ops_empty_partial",
    "Verif.Bits.C12_violates_never_returns",
    "Verif.Bits.C12_violates_out_of_bounds"
   ],
   "note": "the code violates the claim for every nonempty length (loop counter never decremented, access one past the end); only the empty case holds"
  },
  {
   "property": "C13",
   "status": "proved",
   "theorems": [
    "Verif.Swap.C13_memswap"
   ],
   "note": ""
  },
  {
   "property": "C14",
   "status": "proved",
   "theorems": [
    "Verif.Heap.C14_build",
    "Verif.Heap.C14_sort"
   ],
   "note": ""
  },
  {
   "property": "C15",
   "status": "partial",
   "theorems": [
    "Verif.Heap.C15_check_partial",
    "Verif.Heap.C15_violates_root"
   ],
   "note": "a violation at the root is reported as 0, the same as success"
  },
  {
   "property": "C16",
   "status": "partial",
   "theorems": [
    "Verif.Refcount.C16_refcount_frees_once_partial",
    "Verif.Refcount.C16_count_exact_partial",
    "Verif.Refcount.C16_mutex_progress_partial",
    "Verif.Refcount.C16_mutex_progress",
    "Verif.Refcount.C16_mutex_exclusion",
    "Verif.Refcount.C16_violates_wrap"
   ],
   "note": "Every schedule, any number of threads, both versions, while fewer than 2^32 references exist at a time. Progress and mutual exclusion of the mutex version hold without the bound. Violation: the 32-bit counter wraps, and a decrement returns 1 while 2^32 references remain."
  },
  {
   "property": "C17",
   "status": "proved",
   "theorems": [
    "Verif.Time.C17_add_sub",
    "Verif.Time.C17_cmp",
    "Verif.Time.C17_sub_add",
    "Verif.Time.C17_no_overflow",
    "Verif.Time.C17_units"
   ],
   "note": "overflow of the seconds field is not modelled"
  },
  {
   "property": "C18",
   "status": "partial",
   "theorems": [
    "Verif.Endian.C18_value_conversions",
    "Verif.Endian.C18_memory_conversions",
    "Verif.Endian.C18_bytes_injective",
    "Verif.Endian.C18_violates_big_endian_api"
   ],
   "note": "conversions proved on both hosts; the big endian host does not define h_to_be (witness)"
  },
  {
   "property": "C19",
   "status": "partial",
   "theorems": [
    "Verif.Scalar.C19_fclamp",
    "Verif.Scalar.C19_clamp_variants",
    "Verif.Scalar.C19_fdeadzone",
    "Verif.Scalar.C19_sign",
    "Verif.Scalar.C19_imodulo_partial",
    "Verif.Scalar.C19_violates_overflow",
    "Verif.Scalar.C19_fmodulo",
    "Verif.Scalar.C19_angles",
    "Verif.Num.C19_modulo_sound",
    "Verif.Num.C19_modulo_partial",
    "Verif.Num.C19_modulo_overflow_violates",
    "Verif.Num.C19_modulo_minus_one_violates",
    "Verif.Num.C19_remainder",
    "Verif.Num.C19_degrees"
   ],
   "note": "integer modulo of either width overflows for moduli above half the range and for the least number modulo -1 (witnesses); whatever is returned is right; doubles are modelled as reals"
  },
  {
   "property": "C20",
   "status": "partial",
   "theorems": [
    "Verif.Scalar.C20_circ_std_partial",
    "Verif.Scalar.C20_violates_missing_sqrt"
   ],
   "note": "the code returns sqrt 2 times the circular standard deviation (square root of R missing)"
  },
  {
   "property": "C21",
   "status": "proved",
   "theorems": [
    "Verif.Tf.C21_qmul",
    "Verif.Tf.C21_qmul_a",
    "Verif.Tf.C21_qconj",
    "Verif.Tf.C21_qcmul_qmulc",
    "Verif.Tf.C21_vector_products",
    "Verif.Tf.C21_qinv",
    "Verif.Tf.C21_qnorm",
    "Verif.Tf.C21_laws",
    "Verif.Tf.C21_qmatrix",
    "Verif.Tf.C21_qnormalize",
    "Verif.Tf.C21_qmulnorm"
   ],
   "note": "denotation into Mathlib's quaternion algebra"
  },
  {
   "property": "C22",
   "status": "partial",
   "theorems": [
    "Verif.Vec.C22_kernels_partial",
    "Verif.Vec.C22_spec",
    "Verif.Vec.C22_vqmul_vector_partial",
    "Verif.Vec.C22_violates_vqmul",
    "Verif.Vec.C22_tfmul_2d_upper_partial",
    "Verif.Vec.C22_violates_tfmul_2d"
   ],
   "note": "all vector kernels but aa_vec_vqmul (lane error) and aa_vecm_tfmul_2d agree with the scalar code; witnesses for those two"
  },
  {
   "property": "C23",
   "status": "proved",
   "theorems": [
    "Verif.Tf.C23_qrot",
    "Verif.Tf.C23_compose",
    "Verif.Tf.C23_inverse",
    "Verif.Tf.C23_rigid",
    "Verif.Tf.C23_norm",
    "Verif.Tf.C23_linear"
   ],
   "note": "rotation by a unit quaternion is the conjugation action"
  },
  {
   "property": "C24",
   "status": "proved",
   "theorems": [
    "Verif.Tf.C24_matrix_ops",
    "Verif.Tf.C24_acts",
    "Verif.Tf.C24_hom",
    "Verif.Tf.C24_conj",
    "Verif.Tf.C24_isRot",
    "Verif.Tf.C24_two_to_one"
   ],
   "note": "homomorphism into SO(3) with kernel {1,-1}"
  },
  {
   "property": "C25",
   "status": "proved",
   "theorems": [
    "Verif.Tf.C25_rotmat2quat",
    "Verif.Tf.C25_roundtrip",
    "Verif.Tf.C25_surjective",
    "Verif.Tf.C25_no_division_by_zero"
   ],
   "note": "for every rotation matrix and every branch"
  },
  {
   "property": "C26",
   "status": "proved",
   "theorems": [
    "Verif.Tf.C26_actions",
    "Verif.Tf.C26_point",
    "Verif.Tf.C26_conversions",
    "Verif.Tf.C26_compose",
    "Verif.Tf.C26_inverse",
    "Verif.Tf.C26_duqu",
    "Verif.Tf.C26_duqu_algebra",
    "Verif.Tf.C26_duqu_normal",
    "Verif.Tf.C26_duqu_normalize",
    "Verif.Tf.C26_chain"
   ],
   "note": "all three representations, specification in Mathlib matrices, quaternions and dual numbers over quaternions"
  },
  {
   "property": "C27",
   "status": "partial",
   "theorems": [
    "Verif.Tf.C27_tfm",
    "Verif.Tf.C27_qutr",
    "Verif.Tf.C27_duqu",
    "Verif.Tf.C27_relative",
    "Verif.Tf.C27_relative_rotation_partial",
    "Verif.Tf.C27_violates_relative_rotation"
   ],
   "note": "group laws hold; relative-transform convention is not uniform: aa_tf_9rel / aa_tf_qrel compute R1 R2^-1 while aa_tf_93rel / aa_tf_12rel compute T1^-1 T2 (witness)"
  },
  {
   "property": "C28",
   "status": "partial",
   "theorems": [
    "Verif.Tf.C28_qpexp",
    "Verif.Tf.C28_qexp",
    "Verif.Tf.C28_qexp_n_partial",
    "Verif.Tf.C28_violates_qexp_n",
    "Verif.Tf.C28_exp_ln_partial",
    "Verif.Tf.C28_violates_ln_neg_one",
    "Verif.Tf.C28_ln_exp_trig",
    "Verif.Tf.C28_ln_exp_series",
    "Verif.Tf.C28_pow"
   ],
   "note": "exact in the trigonometric branches, explicit error bounds in the series branches; fails at q = -1 (division by zero) and aa_tf_qexp_n drops exp(w) (witnesses)"
  },
  {
   "property": "C29",
   "status": "partial",
   "theorems": [
    "Verif.Tf.C29_endpoints_partial",
    "Verif.Tf.C29_geodesic",
    "Verif.Tf.C29_unit",
    "Verif.Tf.C29_derivative",
    "Verif.Tf.C29_slerpdiff_partial",
    "Verif.Tf.C29_violates_end"
   ],
   "note": "PARTIAL: at 1 the result is q2 only when the dot product is nonnegative, otherwise -q2 (same rotation); qslerpdiff is the derivative exactly when the angle is zero or at least 2^-13, and within 2^-100 otherwise. Unit norm and constant speed hold for all parameters."
  },
  {
   "property": "C30",
   "status": "partial",
   "theorems": [
    "Verif.Tf.C30_axang2quat",
    "Verif.Tf.C30_axang",
    "Verif.Tf.C30_axis_angle",
    "Verif.Tf.C30_euler",
    "Verif.Tf.C30_rotmat2eulerzyx_partial",
    "Verif.Tf.C30_quat2eulerzyx_partial",
    "Verif.Tf.C30_violates_quat2eulerzyx",
    "Verif.Tf.C30_violates_rotmat2eulerzyx",
    "Verif.Tf.C30_rotvec2quat",
    "Verif.Tf.C30_quat2rotvec_partial",
    "Verif.Tf.C30_violates_quat2rotvec",
    "Verif.Tf.C30_quat2axang",
    "Verif.Tf.C30_quat_axang_quat",
    "Verif.Tf.C30_rotvec_axang",
    "Verif.Tf.C30_permute",
    "Verif.Tf.C30_rotvec_permute",
    "Verif.Tf.C30_rotvec_near",
    "Verif.Tf.C30_axang_normalize"
   ],
   "note": "Conversions hold for all inputs; exact except in the series branches, which carry explicit bounds. Missing: ZYX Euler extraction at gimbal lock (quaternion version returns another rotation, matrix version divides by zero) and quat2rotvec at -1 (division by zero), both shown by violates theorems."
  },
  {
   "property": "C31",
   "status": "proved",
   "theorems": [
    "Verif.Tf.C31_quat_inverse",
    "Verif.Tf.C31_quat_path",
    "Verif.Tf.C31_rotmat_inverse",
    "Verif.Tf.C31_rotmat_path",
    "Verif.Tf.C31_quat_rotmat",
    "Verif.Tf.C31_qutr",
    "Verif.Tf.C31_tfmat",
    "Verif.Tf.C31_duqu",
    "Verif.Tf.C31_twist"
   ],
   "note": "Derivatives are Mathlib HasDerivAt; the velocity is shown to be the velocity of every point carried by the moving frame. Rounding not modelled."
  },
  {
   "property": "C32",
   "status": "partial",
   "theorems": [
    "Verif.Tf.C32_tfmat_expv",
    "Verif.Tf.C32_qutr_expv",
    "Verif.Tf.C32_duqu_exp",
    "Verif.Tf.C32_qutr_expv_series",
    "Verif.Tf.C32_duqu_exp_series",
    "Verif.Tf.C32_tfmat_expv_series_partial",
    "Verif.Tf.C32_violates_series",
    "Verif.Tf.C32_tfmat_svel",
    "Verif.Tf.C32_qutr_svel",
    "Verif.Tf.C32_duqu_svel",
    "Verif.Tf.C32_sdiff",
    "Verif.Tf.C32_rotmat",
    "Verif.Tf.C32_duqu_exp_scalar"
   ],
   "note": "Over the reals. In the trigonometric branches the matrix, quaternion-translation and dual quaternion exponentials and the svel integrators all equal the flow of x' = w x x + v. Series branches of the quaternion forms are within 2^-84 / 2^-160. The series branch of the matrix exponential has a spurious factor theta in cc; C32_violates_series gives a witness and C32_tfmat_expv_series_partial the best bound."
  },
  {
   "property": "C33",
   "status": "partial",
   "theorems": [
    "Verif.Mat.C33_views",
    "Verif.Mat.C33_bounds",
    "Verif.Mat.C33_block_block",
    "Verif.Mat.C33_violates_mat_diag",
    "Verif.Mat.C33_vector",
    "Verif.Mat.C33_vector2",
    "Verif.Mat.C33_swap",
    "Verif.Mat.C33_reductions",
    "Verif.Mat.C33_matrix",
    "Verif.Mat.C33_matrix2",
    "Verif.Mat.C33_trans",
    "Verif.Mat.C33_inc_partial",
    "Verif.Mat.C33_violates_inc"
   ],
   "note": "views, their composition and bounds, and all elementwise mutators as exact frame statements; aa_dmat_inc proved when rows differs from cols or the matrix is contiguous, violated by a square matrix with padding (C33_violates_inc); the AA_MAT_DIAG macro violates its length for tall matrices"
  },
  {
   "property": "C34",
   "status": "partial",
   "theorems": [
    "Verif.Mat.C34_slice_partial",
    "Verif.Mat.C34_bounds",
    "Verif.Mat.C34_violates_slice",
    "Verif.Mat.C34_violates_slice_cpp",
    "Verif.Mat.C34_violates_const_view"
   ],
   "note": "exact when the step divides the range; otherwise the last element is dropped, and the C++ wrappers pass stop as step and drop the increment (violations proved)"
  },
  {
   "property": "C35",
   "status": "partial",
   "theorems": [
    "Verif.Mat.C35_gemv",
    "Verif.Mat.C35_gemm_partial",
    "Verif.Mat.C35_gemm_matrix",
    "Verif.Mat.C35_violates_gemm"
   ],
   "note": "gemv in full; gemm without transposes or with square transposed operands; for rectangular transposed operands the checks are wrong (C35_violates_gemm)"
  },
  {
   "property": "C36",
   "status": "partial",
   "theorems": [
    "Verif.La.C36_elementwise",
    "Verif.La.C36_cross",
    "Verif.La.C36_det",
    "Verif.La.C36_euclidean",
    "Verif.La.C36_normalize",
    "Verif.La.C36_angle",
    "Verif.La.C36_point_plane",
    "Verif.La.C36_plane_hessian",
    "Verif.La.C36_transpose",
    "Verif.La.C36_trace_partial",
    "Verif.La.C36_violates_trace",
    "Verif.La.C36_matrix",
    "Verif.La.C36_linterp",
    "Verif.La.C36_lerp",
    "Verif.La.C36_quadterp",
    "Verif.La.C36_quadterp_dx_partial",
    "Verif.La.C36_violates_quadterp_dx"
   ],
   "note": "all formulas except two: aa_la_trace sums absolute values (exactly the trace iff no negative diagonal element) and aa_la_quadterp_dx returns b + c*t/2 (right iff c*t = 0); both violations proved"
  },
  {
   "property": "C37",
   "status": "partial",
   "theorems": [
    "Verif.Pinv.C37_dpinv",
    "Verif.Pinv.C37_dpinv_arr",
    "Verif.Pinv.C37_damped_minimises",
    "Verif.Pinv.C37_xlsnp",
    "Verif.Pinv.C37_dls",
    "Verif.Pinv.C37_wk_dx2dq_np",
    "Verif.Pinv.C37_pinv_partial",
    "Verif.Pinv.C37_dzdpinv_partial",
    "Verif.Pinv.C37_dzdpinv_arr",
    "Verif.Pinv.C37_violates_svd_ld",
    "Verif.Pinv.C37_violates_pinv_ld"
   ],
   "note": "Damped pseudo-inverses (both implementations, all paddings, wide and tall), damped and projected least squares, and the workspace controller are proved. The inverses from the singular value decomposition hold for unpadded matrices; padded operands or results are proved wrong (aa_la_d_svd reads its copy with the wrong leading dimension, aa_dmat_pinv and aa_dmat_dzdpinv ignore As->ld). dposv, dgesdd and BLAS are represented by their documented effect."
  },
  {
   "property": "C38",
   "status": "partial",
   "theorems": [
    "Verif.Hungarian.C38_opt_partial",
    "Verif.Hungarian.C38_assign_partial",
    "Verif.Hungarian.C38_max2min",
    "Verif.Hungarian.C38_violates_nonpositive",
    "Verif.Hungarian.C38_violates_negative",
    "Verif.Hungarian.C38_violates_termination"
   ],
   "note": "Whenever the search ends, the assignment is an optimal complete matching with mutually inverse arrays, for all m, n and costs of any sign; max2min turns maximisation into minimisation. Termination is false: the alternating path of step 5 is cut short (C38_violates_termination, a nonnegative 4x4 matrix), and with no positive cost step 6 never creates a zero (C38_violates_nonpositive/negative)."
  },
  {
   "property": "C39",
   "status": "proved",
   "theorems": [
    "Verif.Diffeq.C39_grad",
    "Verif.Diffeq.C39_jac",
    "Verif.Diffeq.C39_exact",
    "Verif.Diffeq.C39_limit",
    "Verif.Diffeq.C39_cubic"
   ],
   "note": "All dimensions, points, steps and callbacks; the calls are recorded. Exact for polynomials of degree at most two in the coordinate, tends to the partial derivative otherwise."
  },
  {
   "property": "C40",
   "status": "partial",
   "theorems": [
    "Verif.Ode.C40_fixed",
    "Verif.Ode.C40_rkf45",
    "Verif.Ode.C40_rkck45_partial",
    "Verif.Ode.C40_dorpri45_partial",
    "Verif.Ode.C40_dorpri45_repaired",
    "Verif.Ode.C40_rkbs23",
    "Verif.Ode.C40_linear",
    "Verif.Ode.C40_lsim",
    "Verif.Ode.C40_columns",
    "Verif.Ode.C40_violates_rkck45",
    "Verif.Ode.C40_violates_dorpri45",
    "Verif.Ode.C40_violates_fifth"
   ],
   "note": "Local error O(h^(p+1)) on every system analytic at the start point, for all methods (full Butcher order theory, proved). Fails for aa_odestep_rkck45's second solution (two weights exchanged, order 1), for aa_odestep_dorpri45 on time-dependent systems (node 8/9 is integer division), and the second solutions of dorpri45/rkbs23 are not of the documented fifth order."
  },
  {
   "property": "C41",
   "status": "partial",
   "theorems": [
    "Verif.Ode.C41_fixed",
    "Verif.Ode.C41_adaptive_partial",
    "Verif.Ode.C41_violates_time",
    "Verif.Ode.C41_violates_derivative"
   ],
   "note": "Holds for the fixed-step integrators. For the adaptive ones the time given to the system and to the check never advances, and the derivative presented (and restarted from) is not that at the presented state: both proved as violations."
  },
  {
   "property": "C42",
   "status": "proved",
   "theorems": [
    "Verif.Ode.C42_sol",
    "Verif.Ode.C42_calls",
    "Verif.Ode.C42_path"
   ],
   "note": "All integrators, systems and stateful check functions; for runs that return."
  },
  {
   "property": "C43",
   "status": "partial",
   "theorems": [
    "Verif.Ik.C43_limits_partial",
    "Verif.Ik.C43_pose_partial",
    "Verif.Ik.C43_violates_angle",
    "Verif.Ik.C43_violates_shared",
    "Verif.Ik.C43_clamped",
    "Verif.Ik.C43_violates_limits"
   ],
   "note": "For every robot, seed, target, restart list and integrated system: success implies the limits hold (min <= max assumed) and the tip pose, in the configuration with the result on the chain and the start elsewhere, is within tol_trans and turned by less than TWICE tol_angle (chain frames, unit target, joints as constructed, no configuration shared with frames above the chain). The statement itself is false: violates_angle (qangle is half the rotation angle), violates_shared (shared configurations), violates_limits (min > max is accepted)."
  },
  {
   "property": "C44",
   "status": "partial",
   "theorems": [
    "Verif.Ct.C44_contents_partial",
    "Verif.Ct.C44_back_partial",
    "Verif.Ct.C44_front_partial",
    "Verif.Ct.C44_access_partial",
    "Verif.Ct.C44_violates_first_link",
    "Verif.Ct.C44_violates_near_points"
   ],
   "note": "List contents after any calls are the deep copies with repeated neighbours removed, in order, and accessors agree. Violations: back() of the empty list is read when the first node is linked (its prev pointer is indeterminate), and points within 0.001 of the last one are dropped although different."
  },
  {
   "property": "C45",
   "status": "partial",
   "theorems": [
    "Verif.Ct.C45_linear_partial",
    "Verif.Ct.C45_generates",
    "Verif.Ct.C45_violates_repeated_point",
    "Verif.Ct.C45_violates_repeated_point_listed"
   ],
   "note": "Whenever finite segments are generated (proved when neighbouring configurations differ) all parts hold for every time. Violation: repeated configurations, which the point list accepts when velocities differ, give 0/0."
  },
  {
   "property": "C46",
   "status": "partial",
   "theorems": [
    "Verif.Ct.C46_generates",
    "Verif.Ct.C46_repaired_partial",
    "Verif.Ct.C46_acceleration_partial",
    "Verif.Ct.C46_velocity_one_joint_partial",
    "Verif.Ct.C46_velocity_twice_partial",
    "Verif.Ct.C46_violates_continuity",
    "Verif.Ct.C46_violates_velocity"
   ],
   "note": "aa_ct_seg_ddq_eval subtracts the acceleration: position jumps and the end is not at rest for every pair of different points (violation). With the sign repaired the curve is continuously differentiable and at rest at every way point. Acceleration limits always hold; velocity limits hold for one joint, within a factor two in general; two-joint violation of the velocity limit."
  },
  {
   "property": "C47",
   "status": "partial",
   "theorems": [
    "Verif.Ct.C47_blend_partial",
    "Verif.Ct.C47_two_points_partial",
    "Verif.Ct.C47_links_partial",
    "Verif.Ct.C47_null_first_link_partial",
    "Verif.Ct.C47_violates_first_link"
   ],
   "note": "All parts hold whenever the overlap loop ends, with velocity and acceleration limits in addition, for limits of the right sign and reading the previous link of the first segment as NULL; that link is in fact taken from the back of an empty list (violation). Termination of the overlap loop (not part of the statement) is proved for two points."
  },
  {
   "property": "C48",
   "status": "partial",
   "theorems": [
    "Verif.Ct.C48_fresh_partial",
    "Verif.Ct.C48_forward_linear_partial",
    "Verif.Ct.C48_forward_trap_partial",
    "Verif.Ct.C48_forward_blend_partial",
    "Verif.Ct.C48_violates_history"
   ],
   "note": "Fresh lists answer inside exactly when a segment does; histories with non-decreasing times are independent of each other for all three generators. Violation: going back in time after the iterator moved answers outside. When outside, the state is not compared."
  },
  {
   "property": "C49",
   "status": "partial",
   "theorems": [
    "Verif.Sg.C49_contents",
    "Verif.Sg.C49_error_iff",
    "Verif.Sg.C49_order_partial",
    "Verif.Sg.C49_configs_partial",
    "Verif.Sg.C49_root",
    "Verif.Sg.C49_violates_empty_name",
    "Verif.Sg.C49_violates_new_graph",
    "Verif.Sg.C49_cycle_accepted",
    "Verif.Sg.C49_violates_config_name"
   ],
   "note": "C49_contents and C49_error_iff hold for all histories. C49_order_partial and C49_configs_partial need an acyclic parent relation, no frame with the empty name, and for the configuration count a graph that was changed since creation. Without them the property fails: a frame named \"\" hides its children (C49_violates_empty_name), a new graph has no configuration count (C49_violates_new_graph), a cycle is accepted by init (C49_cycle_accepted), and two joints may share a configuration name (C49_violates_config_name)."
  },
  {
   "property": "C50",
   "status": "partial",
   "theorems": [
    "Verif.Sg.C50_joint",
    "Verif.Sg.C50_tf_partial",
    "Verif.Sg.C50_fk_partial",
    "Verif.Sg.C50_violates_fk_stride"
   ],
   "note": "Product along the unique path for aa_rx_sg_tf, aa_rx_sg_fill_tf_abs (every increment) and aa_rx_fk_all (increment 1), for acyclic graphs without an empty frame name. C50_joint gives the meaning of each joint. aa_rx_fk_all ignores the increment (C50_violates_fk_stride)."
  },
  {
   "property": "C51",
   "status": "proved",
   "theorems": [
    "Verif.Sg.C51_update"
   ],
   "note": "For every graph, whenever the transforms of q0 are defined. Real arithmetic, so the comparison of configurations is exact."
  },
  {
   "property": "C52",
   "status": "partial",
   "theorems": [
    "Verif.Sg.C52_fixed_revolute_partial",
    "Verif.Sg.C52_prismatic_tfmat_partial",
    "Verif.Sg.C52_graph_partial",
    "Verif.Sg.C52_violates_prismatic_tfmat",
    "Verif.Sg.C52_violates_prismatic_duqu",
    "Verif.Sg.C52_violates_fixed_tfmat"
   ],
   "note": "Fixed and revolute frames agree, and whole graphs of them (unit quaternions and axes, frames as constructed). A prismatic matrix agrees exactly when the frame rotation leaves the displacement alone. The code violates the property: the prismatic matrix slides along the unrotated axis, the prismatic dual quaternion is not written, the fixed matrix overruns by six doubles."
  },
  {
   "property": "C53",
   "status": "partial",
   "theorems": [
    "Verif.Sg.C53_vel_partial",
    "Verif.Sg.C53_twist_partial",
    "Verif.Sg.C53_violates_shared",
    "Verif.Sg.C53_violates_empty"
   ],
   "note": "C53_vel_partial (world-frame velocity Jacobians) and C53_twist_partial (twist Jacobian) show that every column is the derivative of the tip pose computed by aa_rx_sg_tf, for all configurations. Needed: bodies with a unit quaternion and a unit axis, an indexed acyclic graph without an empty name, a non-empty chain and no configuration shared between joints of the path. Without them it fails: with a shared configuration the columns are not derivatives (C53_violates_shared) and an empty chain reads before its frame array (C53_violates_empty)."
  },
  {
   "property": "C54",
   "status": "partial",
   "theorems": [
    "Verif.Sg.C54_scatter",
    "Verif.Sg.C54_gather",
    "Verif.Sg.C54_round_trip_partial",
    "Verif.Sg.C54_expand",
    "Verif.Sg.C54_set_get_partial",
    "Verif.Sg.C54_chain_configs_partial",
    "Verif.Sg.C54_violates_shared"
   ],
   "note": "C54_scatter, C54_gather and C54_expand hold for all index maps with valid numbers (for repeated configurations the last wins). The round trip needs different configurations (C54_round_trip_partial, C54_set_get_partial); chains of joints with different configuration names have them (C54_chain_configs_partial). Joints may share a configuration, and then gathering after scattering does not return the input (C54_violates_shared)."
  },
  {
   "property": "C55",
   "status": "partial",
   "theorems": [
    "Verif.Sg.C55_chain_partial",
    "Verif.Sg.C55_other_root_partial",
    "Verif.Sg.C55_path_exists",
    "Verif.Sg.C55_violates_multiple"
   ],
   "note": "Proved for every tip and for roots above the tip or not, in indexed acyclic graphs without an empty name (C55_chain_partial, C55_other_root_partial, C55_path_exists). The function for several tips returns an empty sub-scenegraph for every input (C55_violates_multiple)."
  },
  {
   "property": "C56",
   "status": "partial",
   "theorems": [
    "Verif.Sg.C56_history_partial",
    "Verif.Sg.C56_last_set",
    "Verif.Sg.C56_ops",
    "Verif.Sg.C56_copy_partial",
    "Verif.Sg.C56_violates_fill",
    "Verif.Sg.C56_violates_fill_size",
    "Verif.Sg.C56_violates_merge",
    "Verif.Sg.C56_violates_copy",
    "Verif.Sg.C56_violates_fill_self"
   ],
   "note": "For every history of set/fill/clear/merge/copy operations on stores of collision sets that avoids filling from a larger set and merging diagonal pairs, get returns the last value written for the unordered pair. Violated: fill of a set of another size, merge drops diagonal pairs, set_copy into a non-empty set. Filling a set from itself is undefined."
  },
  {
   "property": "C57",
   "status": "partial",
   "theorems": [
    "Verif.Sg.C57_partial",
    "Verif.Sg.C57_violates_reindex",
    "Verif.Sg.C57_violates_replace",
    "Verif.Sg.C57_violates_remove",
    "Verif.Sg.C57_violates_root",
    "Verif.Sg.C57_violates_uninit"
   ],
   "note": "Proved for all histories without removed or replaced frames whose collision data is dirty before the last aa_rx_sg_cl_init. Violated: indices go stale when a frame is added after aa_rx_sg_cl_init; removing or replacing an allowed frame leaves a dangling name pointer; the root frame cannot be allowed; dirty_collision is uninitialized."
  },
  {
   "property": "C58",
   "status": "partial",
   "theorems": [
    "Verif.Sg.C58_partial",
    "Verif.Sg.C58_violates_joint",
    "Verif.Sg.C58_violates_tfmat_duqu"
   ],
   "note": "Holds for the quaternion-translation transforms when the frame is fixed or its joint is at zero and the new relative transform is the one from aa_rx_sg_rel_tf. Violated for a joint away from zero, and for matrices and dual quaternions since the members R and S stay as they were."
  },
  {
   "property": "C59",
   "status": "partial",
   "theorems": [
    "Verif.Opt.C59_glpk",
    "Verif.Opt.C59_glpk_all",
    "Verif.Opt.C59_clp",
    "Verif.Opt.C59_clp_all",
    "Verif.Opt.C59_raw_partial",
    "Verif.Opt.C59_lpsolve_gm_partial",
    "Verif.Opt.C59_lpsolve_crs_partial",
    "Verif.Opt.C59_violates_lpsolve_free",
    "Verif.Opt.C59_violates_lpsolve_eq",
    "Verif.Opt.C59_violates_raw"
   ],
   "note": "GLPK and CLP bounds proved for all pairs. Back ends that pass bounds through need the lower bound below +inf and the upper above -inf. lp_solve: proved for rows that are bounded on at least one side and not equalities. Violations: a free lp_solve row displaces the next constraint, an equality row fails an assertion, and a raw +inf lower bound is taken literally."
  },
  {
   "property": "C60",
   "status": "partial",
   "theorems": [
    "Verif.Lc3.C60_partial",
    "Verif.Lc3.C60_square",
    "Verif.Lc3.C60_violates_memory",
    "Verif.Lc3.C60_violates_seven"
   ],
   "note": "Proved for six joints and for a feasible solution of the linear program. Violations: with fewer than six joints memory is read and written out of bounds; with seven joints the null-space term is not added to the seventh joint, so limits can be exceeded. Taking solver success as feasibility is an assumption about the library."
  },
  {
   "property": "C61",
   "status": "partial",
   "theorems": [
    "Verif.Planar.C61_partial",
    "Verif.Planar.C61_complete",
    "Verif.Planar.C61_violates_axis"
   ],
   "note": "Proved when both link lengths and the second coordinate of the target are nonzero. Violation: reachable targets on the first axis divide by zero."
  },
  {
   "property": "C62",
   "status": "partial",
   "theorems": [
    "Verif.Wf.C62_float_partial",
    "Verif.Wf.C62_violates_exponent",
    "Verif.Wf.C62_violates_long",
    "Verif.Wf.C62_materials_partial",
    "Verif.Wf.C62_violates_unselected",
    "Verif.Wf.C62_violates_range"
   ],
   "note": "Numbers: proved without exponent and for integer and fraction digits that fit a long; violations for exponents (ignored) and long fractions (saturated). Materials: proved for all directive sequences with at most 2^31 materials; faces before the first usemtl get index 0; the material file name lookup accepts an index equal to the count."
  },
  {
   "property": "C63",
   "status": "partial",
   "theorems": [
    "Verif.La.C63_min_max",
    "Verif.La.C63_loc",
    "Verif.La.C63_mat_max",
    "Verif.La.C63_mean",
    "Verif.La.C63_colcov_partial",
    "Verif.La.C63_violates_colcov",
    "Verif.La.C63_vecstd",
    "Verif.La.C63_median"
   ],
   "note": "all but the covariance with a padded result, for which colcov is wrong (C63_violates_colcov)"
  },
  {
   "property": "C64",
   "status": "partial",
   "theorems": [
    "Verif.Ct.C64_check_blend_partial",
    "Verif.Ct.C64_check_linear_partial",
    "Verif.Ct.C64_violates_used_list"
   ],
   "note": "Proved for linear and blended trajectories not evaluated before. Violation: on a list last evaluated in a later segment the check returns 0 without calling the function."
  },
  {
   "property": "C65",
   "status": "proved",
   "theorems": [
    "Verif.Tfp.C65_apply_complex",
    "Verif.Tfp.C65_apply_matrix",
    "Verif.Tfp.C65_isometry",
    "Verif.Tfp.C65_compose_complex",
    "Verif.Tfp.C65_compose_matrix",
    "Verif.Tfp.C65_invert_complex",
    "Verif.Tfp.C65_invert_matrix",
    "Verif.Tfp.C65_convert",
    "Verif.Tfp.C65_roundtrip",
    "Verif.Tfp.C65_angle",
    "Verif.Tfp.C65_log_exp"
   ],
   "note": "planar transforms in matrix, complex and vector-angle form over the reals: application, isometry, composition, inverse, conversions, exponential and logarithm"
  },
  {
   "property": "C66",
   "status": "proved",
   "theorems": [
    "Verif.Tf.C66_proximal",
    "Verif.Tf.C66_distal",
    "Verif.Tf.C66_representations"
   ],
   "note": "proximal and distal DH transforms against the product of elementary screw motions, in all representations"
  },
  {
   "property": "C67",
   "status": "partial",
   "theorems": [
    "Verif.Tf.C67_log_spec",
    "Verif.Tf.C67_qln_jac_partial",
    "Verif.Tf.C67_duqu_ln_jac_partial",
    "Verif.Tf.C67_qdpexp_partial",
    "Verif.Tf.C67_qdpexpj_partial",
    "Verif.Tf.C67_qduln_partial",
    "Verif.Tf.C67_qdulnj_partial",
    "Verif.Tf.C67_violates_qdulnj"
   ],
   "note": "Jacobians and derivatives proved against HasDerivAt of the principal logarithm and of Mathlib's exponential; exact in the trigonometric branches and at the limit point, within stated tiny bounds in the truncated-series branches. Violated by aa_tf_qdulnj at the identity (0/0)."
  },
  {
   "property": "C68",
   "status": "partial",
   "theorems": [
    "Verif.Tf.C68_value",
    "Verif.Tf.C68_derivative_partial",
    "Verif.Tf.C68_violates_orthogonal",
    "Verif.Tf.C68_violates_moving"
   ],
   "note": "value proved; derivative proved when the angle between the end points is stationary and they are not orthogonal. Violated when the angle changes (rate of cos used as rate of sin) and for orthogonal end points (division by cos = 0)."
  },
  {
   "property": "C69",
   "status": "partial",
   "theorems": [
    "Verif.Tf.C69_partial",
    "Verif.Tf.C69_violates_near",
    "Verif.Tf.C69_violates_short"
   ],
   "note": "proved for the regular branch and exactly parallel or opposite vectors. Violated for nearly parallel vectors (angle from the squared sine) and for short vectors (branch test not scale invariant)."
  },
  {
   "property": "C70",
   "status": "proved",
   "theorems": [
    "Verif.Tf.C70_qvelrk1",
    "Verif.Tf.C70_qvelrk4"
   ],
   "note": "error constants 1/4 and 1/1920 against any path with the given constant angular velocity"
  },
  {
   "property": "C71",
   "status": "partial",
   "theorems": [
    "Verif.Tf.C71_qutr_lnv_partial",
    "Verif.Tf.C71_violates_qutr_neg_one",
    "Verif.Tf.C71_duqu_ln_partial",
    "Verif.Tf.C71_violates_duqu_neg_one",
    "Verif.Tf.C71_rotmat_lnv_partial",
    "Verif.Tf.C71_tfmat_lnv_partial",
    "Verif.Tf.C71_rotmat2axang_partial",
    "Verif.Tf.C71_violates_length"
   ],
   "note": "Over the reals. Exact away from angle zero, with an error of at most 2^-77 (rotmat) or 2^-100 in the series branches. The violations: the quaternion -1 divides by zero, and near a half turn the rotation vector can be longer than pi. rotmat2axang below 2^-13 is not covered."
  },
  {
   "property": "C72",
   "status": "proved",
   "theorems": [
    "Verif.Tf.C72_rotmat_xy",
    "Verif.Tf.C72_rotmat_yz",
    "Verif.Tf.C72_rotmat_zx",
    "Verif.Tf.C72_needs_perpendicular",
    "Verif.Tf.C72_rotmat_normalize",
    "Verif.Tf.C72_normalize_idempotent",
    "Verif.Tf.C72_mzlook"
   ],
   "note": "Over the reals. C72_needs_perpendicular shows that rotmat_xy does not orthogonalize."
  },
  {
   "property": "C73",
   "status": "proved",
   "theorems": [
    "Verif.Tf.C73_qsvel",
    "Verif.Tf.C73_qsdiff",
    "Verif.Tf.C73_qsacc",
    "Verif.Tf.C73_qangle_rel",
    "Verif.Tf.C73_qslerpalg",
    "Verif.Tf.C73_qslerpdiffalg"
   ],
   "note": "Over the reals; the stepping functions are exact outside the series branch."
  },
  {
   "property": "C74",
   "status": "proved",
   "theorems": [
    "Verif.Wk.C74_adds",
    "Verif.Wk.C74_dx_pos",
    "Verif.Wk.C74_dqcenter",
    "Verif.Wk.C74_dqcenter_values",
    "Verif.Wk.C74_violates_fixed_joint"
   ],
   "note": "Over the reals, size checks not modelled. The rate is half of the gain because aa_tf_qutr_lnv returns half of the twist. Coinciding limits divide by zero (C74_violates_fixed_joint)."
  },
  {
   "property": "C75",
   "status": "proved",
   "theorems": [
    "Verif.Scalar.C75_box_muller",
    "Verif.Scalar.C75_scores",
    "Verif.Scalar.C75_mean",
    "Verif.Scalar.C75_circ_mean",
    "Verif.Scalar.C75_frand",
    "Verif.Scalar.C75_mahalanobis"
   ],
   "note": "Over the reals: rand() is an arbitrary number up to RAND_MAX and the uniform variates have a continuous distribution. The local array of aa_stat_mahalanobis is disjoint from the arguments."
  },
  {
   "property": "C76",
   "status": "partial",
   "theorems": [
    "Verif.Scalar.C76_excluded_partial",
    "Verif.Scalar.C76_violates_moving_mean",
    "Verif.Scalar.C76_excluded_circ_partial",
    "Verif.Scalar.C76_violates_circ"
   ],
   "note": "The means and kept samples are right. The deviation of aa_stat_excluded_mean_std is taken about the mean of the preceding pass, so it is too large unless the mean stood still; the loop compares only the number of kept samples, and a five-sample witness stops after two passes with sqrt(13) instead of sqrt(1/2). The circular version inherits the factor sqrt(2) of C20. A zero resultant (infinite deviation) is outside the model."
  },
  {
   "property": "C77",
   "status": "partial",
   "theorems": [
    "Verif.Io.C77_getline_partial",
    "Verif.Io.C77_getline_grow_partial",
    "Verif.Io.C77_violates_exact_fill",
    "Verif.Io.C77_violates_fresh_region",
    "Verif.Io.C77_read_realloc"
   ],
   "note": "Lines that fit with their terminator in the current chunk, or that overflow a chunk in use by at most twice its size, are read correctly. A line that exactly fills the chunk comes back as uninitialised memory (the final allocation moves without copying), and a line longer than an unused chunk is a use after free (compare C07). Not covered: lines that need a second growth."
  },
  {
   "property": "C78",
   "status": "partial",
   "theorems": [
    "Verif.Io.C78_parsevector",
    "Verif.Io.C78_fread_matrix_fix",
    "Verif.Io.C78_fread_matrix_heap_partial",
    "Verif.Io.C78_violates_small_buffer",
    "Verif.Io.C78_violates_zero"
   ],
   "note": "strtod is an arbitrary function that consumes what it converts; line reading is taken from C77 as a list of lines. aa_io_fread_matrix_heap needs n > 0 and an initial buffer of none or at least n elements: with fewer the doubling is not enough and it writes out of bounds (witness), with n = 0 it divides by zero. A failed conversion in aa_io_parsevector stores zero in the next element."
  },
  {
   "property": "C79",
   "status": "partial",
   "theorems": [
    "Verif.Ik.C79_root_partial",
    "Verif.Ik.C79_violates_angle",
    "Verif.Ik.C79_violates_base"
   ],
   "note": "Proved for chains that start at the root with twice tol_angle. The code accepts up to twice tol_angle, and for a chain below another frame it reads the column of that frame from uninitialised memory (witnesses)."
  },
  {
   "property": "C80",
   "status": "partial",
   "theorems": [
    "Verif.Sg.C80_get_partial",
    "Verif.Sg.C80_defined",
    "Verif.Sg.C80_violates_set_after_init"
   ],
   "note": "Exact for forests: the value last set if the configuration had some limit when aa_rx_sg_init rebuilt the indices, no limit otherwise. A first limit set after aa_rx_sg_init stays invisible, even after another aa_rx_sg_init (witness)."
  },
  {
   "property": "C81",
   "status": "partial",
   "theorems": [
    "Verif.Sg.C81_center",
    "Verif.Sg.C81_sub_center",
    "Verif.Sg.C81_rand",
    "Verif.Sg.C81_ct_limits",
    "Verif.Sg.C81_ct_sg_limits_partial",
    "Verif.Sg.C81_gain",
    "Verif.Sg.C81_violates_ct_sg_limits",
    "Verif.Sg.C81_violates_ct_sg_limits_eff"
   ],
   "note": "Everything but aa_rx_ct_sg_limits for configurations without a limit, which gives 0..0 or uninitialised efforts (witnesses)."
  },
  {
   "property": "C82",
   "status": "partial",
   "theorems": [
    "Verif.Sg.C82_frames_partial",
    "Verif.Sg.C82_kinematics_partial",
    "Verif.Sg.C82_limits_partial",
    "Verif.Sg.C82_allowed_partial",
    "Verif.Sg.C82_violates_inertial",
    "Verif.Sg.C82_violates_late_limit",
    "Verif.Sg.C82_violates_empty",
    "Verif.Sg.C82_violates_removed"
   ],
   "note": "Frames, configurations, geometry, kinematics, limits and allowed collisions agree for every history whose frames form a forest with non-empty names (allowed collisions: without removed frames). The code violates the statement for mass and inertia (not copied), limits first set after the initialisation, an initialised graph without frames, and allowed pairs of removed frames."
  },
  {
   "property": "C83",
   "status": "partial",
   "theorems": [
    "Verif.GlMask.C83_mask_partial",
    "Verif.GlMask.C83_violates_grow"
   ],
   "note": "Proved for histories in which no call needs more room than the first call of a series has allocated. Violated otherwise: frame_mask + old_size adds octets to a pointer to words, so that clearing the new part writes beyond the block at every second growth."
  },
  {
   "property": "C84",
   "status": "proved",
   "theorems": [
    "Verif.Gl.C84_frustum",
    "Verif.Gl.C84_coordinates",
    "Verif.Gl.C84_screen",
    "Verif.Gl.C84_position",
    "Verif.Gl.C84_look"
   ],
   "note": "Over the reals; rounding to GLfloat and the shader programs are outside the model."
  },
  {
   "property": "C85",
   "status": "partial",
   "theorems": [
    "Verif.GlMesh.C85_box",
    "Verif.GlMesh.C85_sphere",
    "Verif.GlMesh.C85_cylinder",
    "Verif.GlMesh.C85_torus",
    "Verif.GlMesh.C85_cone_partial",
    "Verif.GlMesh.C85_violates_cone"
   ],
   "note": "Box, sphere, cylinder and torus hold as stated. For a cone indices, positions and the normals of the ends are proved; the normals of its side are those of a cylinder, which C85_violates_cone shows to be wrong whenever the radii differ."
  },
  {
   "property": "C86",
   "status": "proved",
   "theorems": [
    "Verif.GlMesh.C86_grid",
    "Verif.GlMesh.C86_box"
   ],
   "note": "Grid indices are natural numbers in the model, equal to the unsigned ones of the code below 2^30 lines."
  },
  {
   "property": "C87",
   "status": "partial",
   "theorems": [
    "Verif.GlMesh.C87_box",
    "Verif.GlMesh.C87_sphere",
    "Verif.GlMesh.C87_cone",
    "Verif.GlMesh.C87_torus_partial",
    "Verif.GlMesh.C87_violates_torus"
   ],
   "note": "Box, sphere, cone and cylinder (a cone with equal radii) hold as stated. A torus is closed if its arc is a number of full turns; C87_violates_torus shows that all other arcs (0 < minor < major radius) are open at their ends."
  },
  {
   "property": "C88",
   "status": "partial",
   "theorems": [
    "Verif.Fcl.C88_check_partial",
    "Verif.Fcl.C88_violates_cone",
    "Verif.Fcl.C88_violates_cylinder"
   ],
   "note": "FCL is a parameter with a contract (narrow phase exact on the shapes, broad phase visits every colliding pair). Proved for meshes, boxes, spheres and cylinders of scale 1 with nonnegative height. Violated: cones, tori and grids get no collision object; a scaled cylinder is shifted by half of its unscaled height."
  },
  {
   "property": "C89",
   "status": "partial",
   "theorems": [
    "Verif.Fcl.C89_dist_partial",
    "Verif.Fcl.C89_violates_cone"
   ],
   "note": "FCL is a parameter with a contract (distance and nearest points, every pair visited, results below DBL_MAX). For meshes, boxes, spheres and unscaled cylinders; cones get no collision object (C89_violates_cone), and scaled cylinders are misplaced as in C88."
  },
  {
   "property": "C90",
   "status": "partial",
   "theorems": [
    "Verif.Mp.C90_history_partial",
    "Verif.Mp.C90_violates_allow_config",
    "Verif.Mp.C90_violates_disallowed"
   ],
   "note": "Proved for histories that do not allow a configuration after the start, do not disallow a pair allowed by the scene graph, and set no joint goal after a workspace goal. The first two make the code answer wrongly (C90_violates_*), the third is undefined behaviour when planning (C91_violates_dangling). FCL and OMPL by contract; workspace goals without their sampling."
  },
  {
   "property": "C91",
   "status": "partial",
   "theorems": [
    "Verif.Mp.C91_path_partial",
    "Verif.Mp.C91_violates_stale",
    "Verif.Mp.C91_violates_restart",
    "Verif.Mp.C91_violates_dangling"
   ],
   "note": "Proved for the histories of C90 with a single start and no path found before. With a second plan the old path is returned (C91_violates_stale), with a second start paths may begin at the first (C91_violates_restart), and a joint goal after a workspace goal leaves a dangling pointer (C91_violates_dangling). Only waypoints, not motions between them; path simplification off."
  },
  {
   "property": "C92",
   "status": "partial",
   "theorems": [
    "Verif.Fcl.C92_allow_config_partial",
    "Verif.Fcl.C92_violates_reindex"
   ],
   "note": "For histories as in C57_partial (no frame removed or replaced, names not empty, collision data marked dirty since the last initialisation) and geometry as in C88; C92_violates_reindex shows a failure otherwise, as do the violations of C57 and C88. Forward kinematics is given by its poses; FCL by contract."
  },
  {
   "property": "C93",
   "status": "partial",
   "theorems": [
    "Verif.Life.C93_live_partial",
    "Verif.Life.C93_data_partial",
    "Verif.Life.C93_blocks_partial",
    "Verif.Life.C93_owner_partial",
    "Verif.Life.C93_end_partial",
    "Verif.Life.C93_violates_texture",
    "Verif.Life.C93_violates_self",
    "Verif.Life.C93_violates_limits",
    "Verif.Life.C93_violates_wrap"
   ],
   "note": "Shown for all sequences of calls that avoid four faults, each shown by a witness: aa_rx_mesh_set_texture over copied texture coordinates leaks them; aa_rx_sg_copy_frame_geom of a frame to itself is undefined; destroying a copy of a graph with limits frees memory made by new; 2^32 references wrap the count and abort."
  },
  {
   "property": "C94",
   "status": "partial",
   "theorems": [
    "Verif.Life.C94_open_partial",
    "Verif.Life.C94_read_partial",
    "Verif.Life.C94_closed_partial",
    "Verif.Life.C94_violates_copy",
    "Verif.Life.C94_violates_second"
   ],
   "note": "How often a plugin is open is determined exactly for all sequences (that avoid the faults of C93). Data of single meshes is always readable and their plugin is closed with the last of them; data of a graph is readable while the graph is there. Missing because false: a copy of a graph does not keep the plugin open, and of two plugins loaded into one graph the first is never closed."
  },
  {
   "property": "C95",
   "status": "partial",
   "theorems": [
    "Verif.Ik.C95_trans_partial",
    "Verif.Ik.C95_qlnpv_partial",
    "Verif.Ik.C95_dqln_partial",
    "Verif.Ik.C95_jcenter",
    "Verif.Ik.C95_violates_frame",
    "Verif.Ik.C95_violates_qlnpv_fd"
   ],
   "note": "For the tip of a non-empty chain whose path shares no configuration. qlnpv: angles below pi, exact from 2^-12 on and at zero and within 2^-98 otherwise; dqln: angles below pi that are zero or at least 2^-51. For a frame other than the tip the gradient is that of the tip (C95_violates_frame); aa_rx_ik_opt_err_qlnpv_fd overruns its arrays (C95_violates_qlnpv_fd)."
  },
  {
   "property": "C96",
   "status": "partial",
   "theorems": [
    "Verif.Ik.C96_limits_partial",
    "Verif.Ik.C96_pose_partial",
    "Verif.Ik.C96_args",
    "Verif.Ik.C96_box",
    "Verif.Ik.C96_violates_limits",
    "Verif.Ik.C96_violates_angle"
   ],
   "note": "For every robot, target, restart list and optimizer: success implies the pose is within tol_trans and turned by less than TWICE tol_angle (chain frames, unit target, joints as constructed, no configuration shared with frames above the chain); the limits hold if the seeds are within the limits and NLopt keeps its contract. The statement itself is false: violates_limits (a seed outside the limits that reaches the target is returned, since NLopt refuses it and its result is ignored), violates_angle (qangle is half the rotation angle)."
  },
  {
   "property": "C97",
   "status": "partial",
   "theorems": [
    "Verif.Ik.C97_path_partial",
    "Verif.Ik.C97_start_partial",
    "Verif.Ik.C97_args",
    "Verif.Ik.C97_violates_unlimited"
   ],
   "note": "For every chain whose configurations all have limits with min <= max: termination, number of points, each point nearest allowed to the RK4 state, first point the start. The statement itself is false: violates_unlimited (a joint without position limits is zero in every point, because missing limits are left as zero). The servo law is an arbitrary function of time and configuration; the trajectory's stale state after its end is not modelled."
  },
  {
   "property": "C98",
   "status": "proved",
   "theorems": [
    "Verif.Ct.C98_list",
    "Verif.Ct.C98_all"
   ],
   "note": "Loop over the flat array composed with the point list model of C44."
  },
  {
   "property": "C99",
   "status": "partial",
   "theorems": [
    "Verif.Lp.C99_clp",
    "Verif.Lp.C99_glpk_partial",
    "Verif.Lp.C99_lpsolve_partial",
    "Verif.Lp.C99_violates_glpk_status",
    "Verif.Lp.C99_violates_glpk_empty",
    "Verif.Lp.C99_violates_glpk_binary",
    "Verif.Lp.C99_violates_lpsolve_free",
    "Verif.Lp.C99_violates_lpsolve_eq",
    "Verif.Lp.C99_violates_lpsolve_change"
   ],
   "note": "CLP without further hypotheses. GLPK when the library's status is optimal, there is a row and a column, and no bounds follow a binary type: the code does not look at the status (an infeasible program gives zero), a program without rows ends the process, bounds after a binary type replace 0 and 1. LP-Solve for dense rows with distinct bounds of which one is finite and changes of direction, objective and bounds: dense rows without bounds shift the others, equal bounds abort, changed constraints leave old rows. LP-Solve's set_type is not modelled."
  },
  {
   "property": "C100",
   "status": "partial",
   "theorems": [
    "Verif.Lp.C100_partial",
    "Verif.Lp.C100_violates_glpk_crs",
    "Verif.Lp.C100_violates_lpsolve"
   ],
   "note": "Four of the six functions release everything; the sparse GLPK and the dense LP-Solve call finish a context twice and lose one every time."
  },
  {
   "property": "C101",
   "status": "partial",
   "theorems": [
    "Verif.Mat.C101_vector_partial",
    "Verif.Mat.C101_inplace_partial",
    "Verif.Mat.C101_matrix_partial",
    "Verif.Mat.C101_compound",
    "Verif.Mat.C101_divide",
    "Verif.Mat.C101_violates_alias",
    "Verif.Mat.C101_violates_transpose",
    "Verif.Mat.C101_violates_copy"
   ],
   "note": "Proved for every expression accepted by the overloads when the target is no operand, or is the operand that the tree copies first, or for compound assignment. Counterexamples: x = x + y gives 2y; a product with a transposed matrix that is not square ends in the error handler; assigning one DMat to another copies the view and not the elements."
  },
  {
   "property": "C102",
   "status": "partial",
   "theorems": [
    "Verif.Tf.Cpp.C102_convert_partial",
    "Verif.Tf.Cpp.C102_pair_partial",
    "Verif.Tf.Cpp.C102_components",
    "Verif.Tf.Cpp.C102_default_partial",
    "Verif.Tf.Cpp.C102_mul",
    "Verif.Tf.Cpp.C102_members",
    "Verif.Tf.Cpp.C102_inverse_partial",
    "Verif.Tf.Cpp.C102_violates_dualquat",
    "Verif.Tf.Cpp.C102_violates_tfmat"
   ],
   "note": "Proved for all constructors, products and member functions except DualQuat objects (every constructor recurses without end), QuatTran of a transformation matrix (eight numbers written into seven), and AxisAngle of a rotation matrix with an angle below 2^-13 (approximated)."
  },
  {
   "property": "C103",
   "status": "partial",
   "theorems": [
    "Verif.Tfp.Cpp.C103_convert",
    "Verif.Tfp.Cpp.C103_pair",
    "Verif.Tfp.Cpp.C103_mul",
    "Verif.Tfp.Cpp.C103_apply",
    "Verif.Tfp.Cpp.C103_inverse",
    "Verif.Tfp.Cpp.C103_angle",
    "Verif.Tfp.Cpp.C103_elements",
    "Verif.Tfp.Cpp.C103_default_partial",
    "Verif.Tfp.Cpp.C103_violates_default"
   ],
   "note": "Over the reals. Everything but the default constructor is proved for all values that stand for a rotation or pose. Fails for the default constructor of AngleP, documented as the zero rotation: it leaves the angle uninitialised (C103_violates_default). Overloads for pointers and references are one case."
  },
  {
   "property": "C104",
   "status": "proved",
   "theorems": [
    "Verif.Dual.C104_derivative",
    "Verif.Dual.C104_arrays"
   ],
   "note": "Over the reals; by induction over expressions, with the derivatives of Mathlib."
  },
  {
   "property": "C105",
   "status": "partial",
   "theorems": [
    "Verif.GeomOpt.C105_options_partial",
    "Verif.GeomOpt.C105_geometry_partial",
    "Verif.GeomOpt.C105_shape_unique",
    "Verif.GeomOpt.C105_violates_specular"
   ],
   "note": "Proved for all options but two. Fails for the green and blue components of the specular reflection: after any history the getter of each returns what was set for the other (C105_violates_specular). The names of the color components are those of set_color3(red, blue, green) in the header. Lifetimes of geometry and meshes are in C93; octrees are not modelled."
  },
  {
   "property": "C106",
   "status": "partial",
   "theorems": [
    "Verif.MpSeq.C106_sequence",
    "Verif.MpSeq.C106_display_partial",
    "Verif.MpSeq.C106_restart_partial",
    "Verif.MpSeq.C106_frames_partial",
    "Verif.MpSeq.C106_violates_empty",
    "Verif.MpSeq.C106_violates_first_plan",
    "Verif.MpSeq.C106_violates_no_variables",
    "Verif.MpSeq.C106_violates_start",
    "Verif.MpSeq.C106_violates_leak"
   ],
   "note": "Over the reals, times in seconds; the sequence is proved in full, the display for a first plan that is not empty and graphs with variables. Fails for a sequence without plans or with an empty first plan (undefined frame), for graphs without variables (array of length zero), for a window that runs already (the pass begins at the zero of the clock), and for memory (the structures of the elements are never released)."
  },
  {
   "property": "C107",
   "status": "partial",
   "theorems": [
    "Verif.WinCall.C107_once_partial",
    "Verif.WinCall.C107_result_partial",
    "Verif.WinCall.C107_returns_partial",
    "Verif.WinCall.C107_violates_overlap",
    "Verif.WinCall.C107_violates_race",
    "Verif.WinCall.C107_violates_context",
    "Verif.WinCall.C107_violates_wakeup",
    "Verif.WinCall.C107_violates_inner",
    "Verif.WinCall.C107_violates_create"
   ],
   "note": "Proved for all interleavings of any number of threads while there is no window: functions run exactly once with their context and no data race; for calls that do not overlap also the returned value, and that each call returns within 200 steps of the code without deadlock. Violated in the code: overlapping calls mix up results and one never returns; the display loop handles calls without the mutex, so there is a data race, a function may be run with NULL, and a wake-up can be lost; functions run while there is no window that take the mutex again (inner calls, aa_rx_win_create) deadlock; creation of a window does not wake the loop."
  },
  {
   "property": "C108",
   "status": "partial",
   "theorems": [
    "Verif.SdlCam.C108_event",
    "Verif.SdlCam.C108_orbits",
    "Verif.SdlCam.C108_slides",
    "Verif.SdlCam.C108_undo",
    "Verif.SdlCam.C108_drag",
    "Verif.SdlCam.C108_drag_right",
    "Verif.SdlCam.C108_level",
    "Verif.SdlCam.C108_distance",
    "Verif.SdlCam.C108_drawn",
    "Verif.SdlCam.C108_update_partial",
    "Verif.SdlCam.C108_violates_resize"
   ],
   "note": "All parts are proved except one that fails: a new size of the window changes the picture and does not ask to draw it (C108_violates_resize); every other change does (C108_update_partial). Differences of mouse positions are integers without overflow. The height of the window is not zero."
  },
  {
   "property": "C109",
   "status": "partial",
   "theorems": [
    "Verif.SdlLoop.C109_events_partial",
    "Verif.SdlLoop.C109_quit",
    "Verif.SdlLoop.C109_close",
    "Verif.SdlLoop.C109_frames",
    "Verif.SdlLoop.C109_shown",
    "Verif.SdlLoop.C109_wait",
    "Verif.SdlLoop.C109_period",
    "Verif.SdlLoop.C109_violates_event",
    "Verif.SdlLoop.C109_violates_keydown"
   ],
   "note": "Two parts fail: the display function never finds an event in the parameters, the pointer is uninitialised in the first frame and afterwards refers to a variable whose block has been left (C109_violates_event); handlers bound by aa_sdl_bind_event for SDL_KEYDOWN are never called (C109_violates_keydown). The rest is proved. Times are integers of any size; the timeout in milliseconds fits into an int. The frame rate is positive. Bindings by other threads while the loop runs are not modelled."
  },
  {
   "property": "C110",
   "status": "proved",
   "theorems": [
    "Verif.TfAvg.C110_average",
    "Verif.TfAvg.C110_agree",
    "Verif.TfAvg.C110_signs",
    "Verif.TfAvg.C110_mean",
    "Verif.TfAvg.C110_median"
   ],
   "note": "The distance of rotations is the Frobenius distance of their matrices; minimality over all unit quaternions is from the spectral theorem of Mathlib, and the model builds the quaternion matrix as the code does. LAPACK geev is an arbitrary function with the contract EevSpec, which exists_eev shows to be satisfiable. Exact reals. The local memory region is a scratch array disjoint from the other arrays (Placed)."
  },
  {
   "property": "C111",
   "status": "partial",
   "theorems": [
    "Verif.Tf.C111_matrix",
    "Verif.Tf.C111_cross",
    "Verif.Tf.C111_jacobian",
    "Verif.Tf.C111_derivative",
    "Verif.Tf.C111_arith",
    "Verif.Tf.C111_norm",
    "Verif.Tf.C111_vnorm_partial",
    "Verif.Tf.C111_violates_vnorm",
    "Verif.Tf.C111_pure"
   ],
   "note": "Proved except for aa_tf_duqu_vnorm, which adds the product of the scalar parts to the dual part of the norm; it is right when that product is zero (C111_vnorm_partial) and wrong for a pose turned about x and moved along x (C111_violates_vnorm)."
  },
  {
   "property": "C112",
   "status": "proved",
   "theorems": [
    "Verif.Tf.C112_accepts",
    "Verif.Tf.C112_sound"
   ],
   "note": "Real arithmetic; aa_la_inv is an arbitrary function that inverts invertible matrices."
  },
  {
   "property": "C113",
   "status": "partial",
   "theorems": [
    "Verif.Tf.C113_rotvec_near_partial",
    "Verif.Tf.C113_quat_near_partial",
    "Verif.Tf.C113_violates_far",
    "Verif.Tf.C113_violates_identity"
   ],
   "note": "Proved (in exact arithmetic, among all rotation vectors of the rotation) if the rotation turns by at least 0.0001, is not the identity, and the reference is within three and a half turns of the given vector (quaternion: within two and a half turns of zero). False four turns away, where only three turns are tried, and for the identity, which has rotation vectors about every axis while the code returns zero."
  },
  {
   "property": "C114",
   "status": "proved",
   "theorems": [
    "Verif.Tf.C114_proj"
   ],
   "note": "Real arithmetic."
  },
  {
   "property": "C115",
   "status": "proved",
   "theorems": [
    "Verif.Tf.C115_random",
    "Verif.Tf.C115_normalize"
   ],
   "note": "Real arithmetic; rand() is an arbitrary sequence of numbers up to RAND_MAX."
  },
  {
   "property": "C116",
   "status": "partial",
   "theorems": [
    "Verif.Care.C116_hamiltonian",
    "Verif.Care.C116_care_partial",
    "Verif.Care.C116_frame",
    "Verif.Care.C116_violates_status"
   ],
   "note": "Partial: C116_care_partial proves everything the statement says of stabilizable and detectable systems, for any dgees and dgels that keep their documented contracts in the two calls made (exact arithmetic; info = 0). The last sentence is false: C116_violates_status, the status is always 0, also when the system for X is singular and X is no solution."
  },
  {
   "property": "C117",
   "status": "partial",
   "theorems": [
    "Verif.Lls.C117_lls",
    "Verif.Lls.C117_packed",
    "Verif.Lls.C117_plane_partial",
    "Verif.Lls.C117_plane_fit_partial",
    "Verif.Lls.C117_violates_origin"
   ],
   "note": "Least squares holds under the LAPACK contract of dgelsd with info 0. The fitted hyperplane is right whenever its offset is not zero; a hyperplane through the origin is never returned (C117_violates_origin). Reals instead of floating point."
  },
  {
   "property": "C118",
   "status": "partial",
   "theorems": [
    "Verif.Qr.C118_qr_partial",
    "Verif.Qr.C118_eev_partial",
    "Verif.Qr.C118_violates_lda",
    "Verif.Qr.C118_violates_size",
    "Verif.Qr.C118_violates_eev"
   ],
   "note": "Holds for packed A (lda equal to the number of rows) with Q of m x m elements, under the LAPACK contracts (Householder reflections; characteristic polynomial). With lda larger, R is no factor of A (C118_violates_lda) and eev runs over its scratch array (C118_violates_eev); Q is written behind its documented m x n size (C118_violates_size). Complex left eigenvectors are not stated. Reals instead of floating point."
  },
  {
   "property": "C119",
   "status": "partial",
   "theorems": [
    "Verif.Region.C119_zalloc_partial",
    "Verif.Region.C119_dup_partial",
    "Verif.Region.C119_strdup_partial",
    "Verif.Region.C119_printf_partial",
    "Verif.Region.C119_violates_large",
    "Verif.Region.C119_violates_temporary"
   ],
   "note": "Platform assumption of C01 (16-byte aligned malloc or no release), sources that are live blocks or memory outside the region, and for printf chunks well below 2 GiB. With 2 GiB free the printf loop never ends (C119_violates_large); copying from a temporary block reads freed memory (C119_violates_temporary). Formatting itself (vsnprintf) is given by its resulting text."
  },
  {
   "property": "C120",
   "status": "proved",
   "theorems": [
    "Verif.Cv.C120_hsv",
    "Verif.Cv.C120_injective",
    "Verif.Cv.C120_dim",
    "Verif.Cv.C120_cycle",
    "Verif.Cv.C120_mirror",
    "Verif.Cv.C120_red"
   ],
   "note": "exact arithmetic; the wheel is the complex plane with red at 1 and green at exp(2 pi i/3)"
  },
  {
   "property": "C121",
   "status": "partial",
   "theorems": [
    "Verif.Validate.C121_f",
    "Verif.Validate.C121_v_partial",
    "Verif.Validate.C121_vunit",
    "Verif.Validate.C121_timespec_partial",
    "Verif.Validate.C121_violates_nan",
    "Verif.Validate.C121_violates_count",
    "Verif.Validate.C121_violates_time"
   ],
   "note": "aa_valid_f and aa_valid_vunit in full; aa_valid_v for fewer than 2^31 elements that are numbers, aa_valid_timespec for times whose seconds differ by a long; violated otherwise: a NaN element is accepted, an array of 2^31 elements is not looked at, the comparison overflows"
  },
  {
   "property": "C122",
   "status": "partial",
   "theorems": [
    "Verif.TjX.C122_path_partial",
    "Verif.TjX.C122_count",
    "Verif.TjX.C122_violates_near",
    "Verif.TjX.C122_violates_status",
    "Verif.TjX.C122_violates_small_state"
   ],
   "note": "proved for poses that differ by more than 0.001 in some number and states of at least five configurations; violated: nearer poses give NULL, the evaluation always reports AA_CT_SEG_OUT, and with at most four configurations six efforts are cleared over the quaternion of the pose"
  },
  {
   "property": "C123",
   "status": "partial",
   "theorems": [
    "Verif.Py.C123_convert_partial",
    "Verif.Py.C123_total_partial",
    "Verif.Py.C123_pair",
    "Verif.Py.C123_default",
    "Verif.Py.C123_mul",
    "Verif.Py.C123_apply",
    "Verif.Py.C123_inv",
    "Verif.Py.C123_parts",
    "Verif.Py.C123_numbers",
    "Verif.Py.C123_violates_rpy",
    "Verif.Py.C123_violates_euler"
   ],
   "note": "Conversions that succeed keep the map (except EulerRPY of a YAngle, and AxAng of a rotation matrix with an angle below 2^-13); quaternions, matrices and poses can always be made. Pairs, defaults, products, inverses, images, parts and lists in full. Fails: EulerRPY(YAngle(t)) is the identity for every t; EulerZYX and EulerRPY of a quaternion, matrix, axis-angle or Euler angles, and AxAng of Euler angles, raise an exception."
  },
  {
   "property": "C124",
   "status": "partial",
   "theorems": [
    "Verif.PyMat.C124_operators_partial",
    "Verif.PyMat.C124_inplace_partial",
    "Verif.PyMat.C124_views_partial",
    "Verif.PyMat.C124_index_partial",
    "Verif.PyMat.C124_owner",
    "Verif.PyMat.C124_keep",
    "Verif.PyMat.C124_safe_partial",
    "Verif.PyMat.C124_violates_dangling",
    "Verif.PyMat.C124_violates_isub",
    "Verif.PyMat.C124_violates_isub_all",
    "Verif.PyMat.C124_violates_abort",
    "Verif.PyMat.C124_violates_slice",
    "Verif.PyMat.C124_violates_block",
    "Verif.PyMat.C124_violates_inc",
    "Verif.PyMat.C124_violates_overlap"
   ],
   "note": "Proved for every reachable state when the operands are alive: new objects, changes in place, views, indexing, safety; an object with storage of its own is always alive and keeps its views alive. Violated: views do not keep the storage they show, -= on a vector makes a new object, slices out of range and wrong sizes stop the process, slices whose step does not divide the extent are short, blocks with step 1 or open bounds are refused, += of a number on a square block writes outside, partly overlapping operands."
  },
  {
   "property": "C125",
   "status": "partial",
   "theorems": [
    "Verif.PySg.C125_frames_partial",
    "Verif.PySg.C125_configs_partial",
    "Verif.PySg.C125_vector_partial",
    "Verif.PySg.C125_dict",
    "Verif.PySg.C125_fk_partial",
    "Verif.PySg.C125_violates_config_name",
    "Verif.PySg.C125_violates_config_range",
    "Verif.PySg.C125_violates_frame_name",
    "Verif.PySg.C125_violates_actual",
    "Verif.PySg.C125_violates_init",
    "Verif.PySg.C125_violates_sequence",
    "Verif.PySg.C125_violates_atomic",
    "Verif.PySg.C125_violates_fk_root",
    "Verif.PySg.C125_violates_fk_fresh",
    "Verif.PySg.C125_violates_fk_grown",
    "Verif.PySg.C125_violates_fk_exception"
   ],
   "note": "Proved for all such scenes: lookup by name and id, parents, dictionaries to vectors and back, poses after an assignment. The code violates the rest: ensure_config_name(id) returns a frame name, config_name is unchecked (undefined past the names), frame_name(FRAME_NONE) is '?', ensure_frame_id_actual('') raises TypeError, init() ignores a missing parent, config_vector accepts sequences of any length and changes the vector before raising, fk[root] aborts, a new SceneFK reads unwritten memory, a SceneFK older than the last added frame writes past its memory, a failed assignment changes config only."
  },
  {
   "property": "C126",
   "status": "proved",
   "theorems": [
    "Verif.Tf.C126_qjac",
    "Verif.Tf.C126_diff2qdiff",
    "Verif.Tf.C126_diff2vel"
   ],
   "note": "Rates against Mathlib's quaternion exponential, everywhere; the series branch by explicit remainder bounds."
  },
  {
   "property": "C127",
   "status": "partial",
   "theorems": [
    "Verif.Tf.C127_squad_ends",
    "Verif.Tf.C127_smooth_partial",
    "Verif.Tf.C127_violates_opposite",
    "Verif.Tf.C127_violates_turn",
    "Verif.Tf.C127_slerp3_value",
    "Verif.Tf.C127_slerp3_derivative_partial",
    "Verif.Tf.C127_violates_slerp3"
   ],
   "note": "(a) in full. (b) for keys at less than a right angle of the quaternion sphere on either side, with angles zero or at least 2^-13; violated for opposite quaternions (no control point) and for keys on different sides (the motion turns back at the key). (c) the value in full; the derivative only while the angle between the two orientations is stationary; violated otherwise."
  },
  {
   "property": "C128",
   "status": "partial",
   "theorems": [
    "Verif.TfAvg.C128_average_partial",
    "Verif.TfAvg.C128_agree_partial",
    "Verif.TfAvg.C128_violates_scale",
    "Verif.TfAvg.C128_violates_null"
   ],
   "note": "For given weights that sum to one. Violated by other weights (the translation is scaled by their sum) and by NULL (dereferenced)."
  },
  {
   "property": "C129",
   "status": "partial",
   "theorems": [
    "Verif.TfAvg.C129_fixed_partial",
    "Verif.TfAvg.C129_violates_array"
   ],
   "note": "The functions of a fixed number of coefficients; aa_tf_horner reads outside of every array."
  },
  {
   "property": "C130",
   "status": "partial",
   "theorems": [
    "Verif.IkParm.C130_use_partial",
    "Verif.IkParm.C130_release_partial",
    "Verif.IkParm.C130_violates_copy_of_owned",
    "Verif.IkParm.C130_violates_steal_again",
    "Verif.IkParm.C130_violates_seed_leak",
    "Verif.IkParm.C130_violates_seed_stolen",
    "Verif.IkParm.C130_violates_no_gains",
    "Verif.IkParm.C130_violates_seed_ignored"
   ],
   "note": "Proved for all sequences of calls: (a) and (b) if no array is given again the block it owns and a reference comes with gains; (c) in addition for sequences in which no seed is copied or stolen. The rest is false: the violates theorems give use after free, double free, leaked seeds, a null read without gains; the seed of the parameters is never used by the solver."
  },
  {
   "property": "C131",
   "status": "partial",
   "theorems": [
    "Verif.PyLife.C131_safe_partial",
    "Verif.PyLife.C131_lifetime_partial",
    "Verif.PyLife.C131_release_partial",
    "Verif.PyLife.C131_simple_partial",
    "Verif.PyLife.C131_violates_plan",
    "Verif.PyLife.C131_violates_window_dropped",
    "Verif.PyLife.C131_violates_replace",
    "Verif.PyLife.C131_violates_second_window"
   ],
   "note": "Proved for all programs without SceneWin and MotionPlan; with them if the sub-scenegraph of every planner is kept by the program, one window is made, the window is kept while its thread runs and its graph is not replaced under a running frame. The code violates each: MotionPlan does not keep its sub-scenegraph, a dropped window is destroyed under its thread, replacing the graph drops the old one before the window is told, and a second window is a null pointer."
  },
  {
   "property": "C132",
   "status": "partial",
   "theorems": [
    "Verif.WinShow.C132_shows_partial",
    "Verif.WinShow.C132_release_partial",
    "Verif.WinShow.C132_stop",
    "Verif.WinShow.C132_open",
    "Verif.WinShow.C132_violates_short",
    "Verif.WinShow.C132_violates_race",
    "Verif.WinShow.C132_violates_leak",
    "Verif.WinShow.C132_violates_is_running",
    "Verif.WinShow.C132_violates_restart"
   ],
   "note": "Frames, configurations and release of contexts proved for all histories in which sequences are not set during a frame and configurations are long enough for the graph. The code violates the rest: set_display does not take the mutex, short configurations are read past their end, configurations leak, is_running is true before run, a stopped window shows one frame when run again. Not modelled: set_sg_sub with workspace control, display functions of the user."
  },
  {
   "property": "C133",
   "status": "partial",
   "theorems": [
    "Verif.GlDraw.C133_picture_partial",
    "Verif.GlDraw.C133_vertex",
    "Verif.GlDraw.C133_violates_mesh"
   ],
   "note": "Proved for clients that do not change a mesh once geometry with it has been drawn and for masks that do not grow a second time (C83). Refuted otherwise: the buffers made at the first picture are never renewed, so that a changed mesh keeps its old shape. Colours, textures and rounding to float are not modelled."
  },
  {
   "property": "C134",
   "status": "partial",
   "theorems": [
    "Verif.TjXPb.C134_blend_partial",
    "Verif.TjXPb.C134_violates_rates",
    "Verif.TjXPb.C134_violates_minus_one",
    "Verif.TjXPb.C134_violates_close",
    "Verif.TjXPb.C134_violates_angular_velocity"
   ],
   "note": "Proved for neighbouring poses more than 0.001 apart in translation, whenever the generator finishes: evaluation succeeds exactly on the recorded duration, the pose is that of a C1 curve of translation and rotation vector (orientation within 2^-86, exact for vectors of 2^-12 and more) from rest at the first pose to rest at the last (orientation within 2^-85, up to the sign of the quaternion); the rates of the six numbers and their accelerations are within the limits. The statement as such is false: evaluation never writes dX and ddX, a first orientation given as -1 divides by zero, a last pose within 0.001 of the one before is never reached, and the limits bound the rate of the rotation vector, not the angular velocity (example: more than 0.25 with a limit of 0.1). Termination of the generator is not shown for more than two poses."
  },
  {
   "property": "C135",
   "status": "partial",
   "theorems": [
    "Verif.Ct.C135_blend_partial",
    "Verif.Ct.C135_violates_linear",
    "Verif.Ct.C135_violates_trap",
    "Verif.Ct.C135_trap_ends",
    "Verif.Ct.C135_violates_first_step",
    "Verif.Ct.C135_violates_region",
    "Verif.Ct.C135_violates_region_reached",
    "Verif.Ct.C135_violates_region_lost"
   ],
   "note": "Proved for blended trajectories whose first segment is at least one step long. The code rejects smooth linear trajectories (it compares with the end of the trajectory), every trapezoidal trajectory, and blended ones with a longer step; the region is not restored on every return, and memory of the caller can be freed."
  },
  {
   "property": "C136",
   "status": "partial",
   "theorems": [
    "Verif.Ct.C136_linear_q_partial",
    "Verif.Ct.C136_linear_dq_partial",
    "Verif.Ct.C136_violates_trap_q",
    "Verif.Ct.C136_violates_blend",
    "Verif.Ct.C136_violates_blend_length",
    "Verif.Ct.C136_violates_outside"
   ],
   "note": "Proved for linear trajectories (positions and velocities at times of the trajectory, nothing stored past the arrays). The code stores through null pointers for trapezoidal (positions only) and blended trajectories, past the end for a shorter state, and overwrites the array outside the trajectory. eval_dq of trapezoidal trajectories is modelled but not stated."
  },
  {
   "property": "C137",
   "status": "proved",
   "theorems": [
    "Verif.RegionLocal.C137_isolated",
    "Verif.RegionLocal.C137_apart",
    "Verif.RegionLocal.C137_no_leak",
    "Verif.RegionLocal.C137_block",
    "Verif.RegionLocal.C137_size"
   ],
   "note": "Refinement of private regions (one per thread) by induction over all interleavings; each call is one step; malloc is an oracle in the heap shared by all threads; undefined behaviour (double free, dead structure, key not made) is a separate outcome that is proved never to occur."
  },
  {
   "property": "C138",
   "status": "partial",
   "theorems": [
    "Verif.Ik.C138_first_partial",
    "Verif.Ik.C138_sqp_partial",
    "Verif.Ik.C138_violates_single_step",
    "Verif.Ik.C138_violates_lost"
   ],
   "note": "False as written for the Jacobian solver: cx->iteration is not reset on a restart, so every attempt after a failed one stops after one step, and a solution an attempt by itself finds is lost. Proved: without restarts one attempt with at most max_iterations + 1 steps; a first success is returned; restarts of the SQP solver are independent for any optimizer that is a function of bounds and start."
  },
  {
   "property": "C139",
   "status": "partial",
   "theorems": [
    "Verif.Octree.C139_frames_partial",
    "Verif.Octree.C139_bare_partial",
    "Verif.Octree.C139_iff_partial",
    "Verif.Octree.C139_first_iff_partial",
    "Verif.Octree.C139_violates_side",
    "Verif.Octree.C139_violates_static",
    "Verif.Octree.C139_violates_earlier"
   ],
   "note": "False as written: the dimension is a static local initialised once per process, with the cubic root of a side length. Proved for all trees: names, frames, centres, one cube per occupied leaf, nothing else changed; without options everything; with options exactly when the sides are right (in a first call: exactly if all occupied leaves have side one)."
  },
  {
   "property": "C140",
   "status": "partial",
   "theorems": [
    "Verif.Svd.C140_svd_partial",
    "Verif.Svd.C140_packed_partial",
    "Verif.Svd.C140_violates_lda",
    "Verif.Svd.C140_violates_ldu"
   ],
   "note": "False as written: with both factors the packed copy of A is read with A's leading dimension (outside of the copy for every padded A of two columns); with one factor the leading dimension of that factor is ignored. Proved: packed arguments (aa_la_svd of non-empty matrices, all choices of factors), and every choice of leading dimensions that fits the calls made, given LAPACK's contract."
  },
  {
   "property": "C141",
   "status": "partial",
   "theorems": [
    "Verif.WfScan.C141_lines_partial",
    "Verif.WfScan.C141_unknown_partial",
    "Verif.WfScan.C141_counts_partial",
    "Verif.WfScan.C141_violates_incomplete",
    "Verif.WfScan.C141_violates_split",
    "Verif.WfScan.C141_violates_exponent",
    "Verif.WfScan.C141_violates_overflow"
   ],
   "note": "Proved for all files of supported lines with numbers without exponents and indices below 2^31; other first words are refused; counts for every file. Fails: a file cut short within a vertex is accepted, a vertex may run over lines, exponents are ignored, an index of 2^31 overflows."
  },
  {
   "property": "C142",
   "status": "partial",
   "theorems": [
    "Verif.MtlScan.C142_lines_partial",
    "Verif.MtlScan.C142_unknown_partial",
    "Verif.MtlScan.C142_violates_orphan",
    "Verif.MtlScan.C142_violates_incomplete",
    "Verif.MtlScan.C142_violates_split",
    "Verif.MtlScan.C142_violates_noeol"
   ],
   "note": "Proved for all files of supported lines in which newmtl comes before properties, numbers without exponents; other first words are refused. Fails: a property before newmtl writes through the null pointer, files cut short within a colour are accepted, a colour may run over lines, a last illum line without newline is refused; exponents are ignored as in C62."
  },
  {
   "property": "C143",
   "status": "partial",
   "theorems": [
    "Verif.MatIter.C143_iterate_vec_partial",
    "Verif.MatIter.C143_iterate_vec_once_partial",
    "Verif.MatIter.C143_iterate_rows",
    "Verif.MatIter.C143_iterate_cols_partial",
    "Verif.MatIter.C143_init",
    "Verif.MatIter.C143_assign_partial",
    "Verif.MatIter.C143_col_mat_partial",
    "Verif.MatIter.C143_row_mat_partial",
    "Verif.MatIter.C143_writes_inside",
    "Verif.MatIter.C143_inc_zero_violates",
    "Verif.MatIter.C143_no_rows_violates",
    "Verif.MatIter.C143_assign_long_violates",
    "Verif.MatIter.C143_no_list_violates",
    "Verif.MatIter.C143_long_column_violates",
    "Verif.MatIter.C143_short_column_violates",
    "Verif.MatIter.C143_empty_first_violates"
   ],
   "note": "Rows of every matrix and DVec::init of every list as stated. Elements of a vector need a positive increment, columns a positive leading dimension (else nothing is visited: violated); col_mat and row_mat need at least one list and lists of one length (else: out of bounds, stale or dropped elements: violated). Postfix and backward operators of the matrix iterators do not compile and are not modelled."
  },
  {
   "property": "C144",
   "status": "partial",
   "theorems": [
    "Verif.IkJacStep.C144_writes_partial",
    "Verif.IkJacStep.C144_tracks_partial",
    "Verif.IkJacStep.C144_nearest_partial",
    "Verif.IkJacStep.C144_shortest_partial",
    "Verif.IkJacStep.C144_bounded",
    "Verif.IkJacStep.C144_descends_partial",
    "Verif.IkJacStep.C144_x2dq_partial",
    "Verif.IkJacStep.C144_leak_violates",
    "Verif.IkJacStep.C144_no_gain_violates",
    "Verif.IkJacStep.C144_no_joints_violates"
   ],
   "note": "The singular value decomposition of LAPACK is a hypothesis at the call. Tracking, nearest, shortest and descent need every singular value at least sqrt(s2min): below, the result is damped and the motion towards the reference moves the end effector (violated). The bound holds always. A reference without gains and an arm without joints are undefined (violated)."
  },
  {
   "property": "C145",
   "status": "partial",
   "theorems": [
    "Verif.IkCx.C145_last_partial",
    "Verif.IkCx.C145_lengths_partial",
    "Verif.IkCx.C145_size",
    "Verif.IkCx.C145_solve_partial",
    "Verif.IkCx.C145_pose_partial",
    "Verif.IkCx.C145_unknown_name_violates",
    "Verif.IkCx.C145_root_violates",
    "Verif.IkCx.C145_no_ee_violates",
    "Verif.IkCx.C145_no_variables_violates",
    "Verif.IkCx.C145_write_start_violates"
   ],
   "note": "Forward kinematics is an arbitrary function of the configuration. Sequences without stores through the references, for sub-scenegraphs with variables. Violated: a store through the reference of get_start leaves the old poses; a name that no frame has, the root frame, or no end effector at all make the solver read memory that is not there; creation without variables."
  },
  {
   "property": "C146",
   "status": "partial",
   "theorems": [
    "Verif.FkObj.C146_isolated",
    "Verif.FkObj.C146_poses_partial",
    "Verif.FkObj.C146_set_rel_partial",
    "Verif.FkObj.C146_copy_partial",
    "Verif.FkObj.C146_safe_partial",
    "Verif.FkObj.C146_grown_violates",
    "Verif.FkObj.C146_bound_violates",
    "Verif.FkObj.C146_none_violates"
   ],
   "note": "Proved while the scene graph is not changed, for vectors of increment one (C50 has the violation for others), and for set_rel if the pose of the parent is a unit quaternion. Violated: an object made before frames are added is written past its end, the id one past the last frame is read, and get_rel accepts the id of an unknown frame."
  },
  {
   "property": "C147",
   "status": "partial",
   "theorems": [
    "Verif.PyMp.C147_first_partial",
    "Verif.PyMp.C147_reused_violates",
    "Verif.PyMp.C147_length_violates",
    "Verif.PyMp.C147_leak_violates"
   ],
   "note": "Proved for the first call on an object with lists of the right lengths. A second call for which nothing is found answers the old path; a short start is read past its end, other wrong lengths end the process; the array of every path is leaked."
  },
  {
   "property": "C148",
   "status": "partial",
   "theorems": [
    "Verif.MatAlloc.C148_vector_partial",
    "Verif.MatAlloc.C148_matrix_partial",
    "Verif.MatAlloc.C148_vector_dup_partial",
    "Verif.MatAlloc.C148_matrix_dup_partial",
    "Verif.MatAlloc.C148_wrap_violates",
    "Verif.MatAlloc.C148_null_violates",
    "Verif.MatAlloc.C148_long_violates"
   ],
   "note": "Proved for sizes whose bytes fit 64 bits (and, for duplicates, sizes that are ints), if there is memory. Larger sizes wrap and give a block without room; without memory the null pointer is written; a vector of 2^31 elements or more is not copied."
  },
  {
   "property": "C149",
   "status": "partial",
   "theorems": [
    "Verif.PyCl.C149_history_partial",
    "Verif.PyCl.C149_config_violates",
    "Verif.PyCl.C149_twice_violates",
    "Verif.PyCl.C149_replace_violates",
    "Verif.PyCl.C149_self_violates"
   ],
   "note": "Proved for histories in which fill, allow_set and allow_config meet no other pairs. They replace instead of adding: allow_config forgets every pair allowed before, so that allowing the same configuration twice makes it collide; filling a set from itself is undefined. Geometry is as in C88."
  },
  {
   "property": "C150",
   "status": "partial",
   "theorems": [
    "Verif.Inv.C150_inv_partial",
    "Verif.Inv.C150_packed_partial",
    "Verif.Inv.C150_cpp_partial",
    "Verif.Inv.C150_python_partial",
    "Verif.Inv.C150_unreported_violates",
    "Verif.Inv.C150_destroyed_violates",
    "Verif.Inv.C150_empty_violates"
   ],
   "note": "Proved for non-empty matrices, given what LAPACK documents of dgetrf and dgetri: the result is 0 exactly if the determinant is not 0, and then the inverse is in place; nothing else changes. Violated: a singular matrix is overwritten by its factors, Python and C++ return these without a report, and for the empty matrix LAPACK stops the program (lda = 0)."
  },
  {
   "property": "C151",
   "status": "proved",
   "theorems": [
    "Verif.Spline.C151_cubic",
    "Verif.Spline.C151_quintic",
    "Verif.Spline.C151_cubic_least",
    "Verif.Spline.C151_quintic_least"
   ],
   "note": "Over the reals. The polynomial is a Mathlib polynomial determined by its ends (Ends3, Ends5), its derivatives are formal ones, the integrals Mathlib interval integrals. Array assignments are loops; arguments may overlap each other but not the results."
  },
  {
   "property": "C152",
   "status": "partial",
   "theorems": [
    "Verif.Qp.C152_handed",
    "Verif.Qp.C152_solve_partial",
    "Verif.Qp.C152_quadratic_violates",
    "Verif.Qp.C152_precondition_violates",
    "Verif.Qp.C152_infeasible_violates",
    "Verif.Qp.C152_unbounded_violates",
    "Verif.Qp.C152_geq_violates"
   ],
   "note": "The constraints and bounds always reach CGAL; the cost does so exactly if the symmetric part of D is diagonal and equal to its last column (set_d is called with j1, j1 for every j2), and then a problem that has a solution is solved. Violated for D = 1 of size 2; CGAL may be handed a program that is not convex; infeasible and unbounded problems give 0 because solves_quadratic_program accepts their certificates too; A x >= b is refused."
  },
  {
   "property": "C153",
   "status": "partial",
   "theorems": [
    "Verif.LaF.C153_norm2",
    "Verif.LaF.C153_unit",
    "Verif.LaF.C153_proj",
    "Verif.LaF.C153_angle",
    "Verif.LaF.C153_elementary",
    "Verif.LaF.C153_colssd_partial",
    "Verif.LaF.C153_mean",
    "Verif.LaF.C153_cov",
    "Verif.LaF.C153_colssd_violates"
   ],
   "note": "Everything but the C interface of aa_la_colssd, which declares B with as many columns as A and so reads outside of it when B has more. Rounding is not modelled; the bounds of the intermediate results of aa_la_norm2 are those of the real numbers."
  },
  {
   "property": "C154",
   "status": "partial",
   "theorems": [
    "Verif.Curly.C154_def_iff",
    "Verif.Curly.C154_def_sound",
    "Verif.Curly.C154_def_partial",
    "Verif.Curly.C154_array_partial",
    "Verif.Curly.C154_attribute_partial",
    "Verif.Curly.C154_minus_in_parentheses_violates",
    "Verif.Curly.C154_power_in_parentheses_violates",
    "Verif.Curly.C154_attribute_wrong_violates",
    "Verif.Curly.C154_attribute_refused_violates",
    "Verif.Curly.C154_malformed_violates"
   ],
   "note": "Proved: exactly which token sequences give a definition a value, that the value is always the right one, and that every malformed definition is refused (the shunting yard follows precedence and associativity for every expression); arrays and attributes likewise for well-formed text. Violated: operands in parentheses that contain a unary minus or a power make loading fail; attributes of the form x - y or starting with a parenthesis are refused; radius x - (-y) silently gets y - x; scale 2 1 + and [1,,2] are accepted. The regular expressions of the lexer are not modelled."
  },
  {
   "property": "C155",
   "status": "partial",
   "theorems": [
    "Verif.OptExp.C155_lp_partial",
    "Verif.OptExp.C155_accepts_partial",
    "Verif.OptExp.C155_integer_violates",
    "Verif.OptExp.C155_default_upper_violates",
    "Verif.OptExp.C155_bounds_only_violates",
    "Verif.OptExp.C155_two_bounds_violates",
    "Verif.OptExp.C155_equation_order_violates"
   ],
   "note": "Over an ordered field. Proved for every program that gets to the solver with the default upper bound of variables and no integer variables, at points whose sums lie within the default bounds of rows. Proved violations: integer variables become binary, a given default upper bound is ignored, programs of one-variable constraints only are refused, so are two bounds of a variable with different factors and an equation after another bound of the same sum."
  },
  {
   "property": "C156",
   "status": "proved",
   "theorems": [
    "Verif.MeshDe.C156_mesh"
   ],
   "note": "The hash table is modelled as the list of its keys in order of insertion; texture coordinates over an ordered field; printing of the numbers is not modelled."
  },
  {
   "property": "C157",
   "status": "partial",
   "theorems": [
    "Verif.MtlLisp.C157_rgba_partial",
    "Verif.MtlLisp.C157_alpha_violates",
    "Verif.MtlLisp.C157_diffuse_violates",
    "Verif.MtlLisp.C157_undefined_violates"
   ],
   "note": "Holds if all used materials are defined with Kd and d. The has_ functions return C integers and 0 is true in Lisp, so a material without d is written as wholly transparent and one without Kd as black; the defaults of scene-genc-mesh-texture are not association lists, so an undefined material is an error."
  },
  {
   "property": "C158",
   "status": "partial",
   "theorems": [
    "Verif.CurlyScene.C158_scene_partial",
    "Verif.CurlyScene.C158_class_order_violates",
    "Verif.CurlyScene.C158_rotation_violates",
    "Verif.CurlyScene.C158_mesh_violates",
    "Verif.CurlyScene.C158_parent_geometry_violates",
    "Verif.CurlyScene.C158_parent_frame_violates",
    "Verif.CurlyScene.C158_cone_violates",
    "Verif.CurlyScene.C158_duplicate_violates"
   ],
   "note": "Holds for files without duplicate frame names and without classes that give a parent, with the rules that frames take the first of several classes and geometry and classes the last, and that a quaternion (shape) wins over rpy (mesh) wherever it comes from. Violations: different order for frames and geometry, own rpy or mesh ignored, classes with a parent, cone radii refused in classes, duplicate frames dropped silently. Definitions and conversions of values are not modelled."
  },
  {
   "property": "C159",
   "status": "partial",
   "theorems": [
    "Verif.LispSg.C159_absolute",
    "Verif.LispSg.C159_relative",
    "Verif.LispSg.C159_map",
    "Verif.LispSg.C159_reparent_partial",
    "Verif.LispSg.C159_prefix",
    "Verif.LispSg.C159_cycle_violates",
    "Verif.LispSg.C159_prefix_collisions_violates"
   ],
   "note": "Absolute, relative and tabulated poses, and poses of prefixed copies under the global frame, as stated. Reparenting keeps all poses if the new parent is not below the frame; scene-graph-reparent does not check that, and a frame put below itself leaves a cycle on which scene-graph-tf-absolute never returns. Copies with a prefix forget allowed collisions. Transforms are a group, so rounding and normalize are not modelled."
  },
  {
   "property": "C160",
   "status": "partial",
   "theorems": [
    "Verif.SgGen.C160_compiled_partial",
    "Verif.SgGen.C160_same_partial",
    "Verif.SgGen.C160_inertial_violates",
    "Verif.SgGen.C160_torus_violates",
    "Verif.SgGen.C160_root_violates",
    "Verif.SgGen.C160_removed_violates",
    "Verif.SgGen.C160_color_violates"
   ],
   "note": "Proved for graphs without torus or text, without inertial parameters of fixed frames, without parents named by the empty string (unless the root is), and whose allowed collisions are between frames of the graph; the two routes agree if besides every piece of geometry has a colour and is loaded and no frame has inertial parameters. Each exception is a violation in the code, with a witness. Text of the C function, numbers as literals and contents of meshes are not modelled here."
  },
  {
   "property": "C161",
   "status": "partial",
   "theorems": [
    "Verif.Urdf.C161_urdf_partial",
    "Verif.Urdf.C161_visuals_violates",
    "Verif.Urdf.C161_material_violates",
    "Verif.Urdf.C161_scale_violates",
    "Verif.Urdf.C161_inertia_violates",
    "Verif.Urdf.C161_axis_violates",
    "Verif.Urdf.C161_limit_violates"
   ],
   "note": "For trees of supported joints (axis given, both limits or none) and links with one material, uniform mesh scales and distinct names of added frames: loading succeeds, links have their URDF poses at all configurations, every shape appears at its place and nothing else does. The code loses the second of two offset visuals, takes the first material for all, drops two mesh scales, makes the inertia tensor unsymmetric, and rejects joints relying on the default axis or lower limit. Mass and inertia placement is not in the positive theorem."
  },
  {
   "property": "C162",
   "status": "partial",
   "theorems": [
    "Verif.SgSet.C162_allow",
    "Verif.SgSet.C162_allow_all",
    "Verif.SgSet.C162_remove",
    "Verif.SgSet.C162_merge",
    "Verif.SgSet.C162_add_partial",
    "Verif.SgSet.C162_limits",
    "Verif.SgSet.C162_center",
    "Verif.SgSet.C162_center_partial",
    "Verif.SgSet.C162_things",
    "Verif.SgSet.C162_limits_violates",
    "Verif.SgSet.C162_clean_violates",
    "Verif.SgSet.C162_center_violates",
    "Verif.SgSet.C162_children_violates"
   ],
   "note": "Allowed collisions, merging, things and the check of limits hold as stated. A frame that replaces another keeps the old limits, a cleaned frame keeps its configuration (so that it cannot be merged again) and leaves its children without pose, and the centre map uses names of frames instead of those of configurations; the partial theorems cover fresh configurations named like their frames."
  },
  {
   "property": "C163",
   "status": "partial",
   "theorems": [
    "Verif.SgRope.C163_roundtrip_partial",
    "Verif.SgRope.C163_words",
    "Verif.SgRope.C163_limits_violates",
    "Verif.SgRope.C163_options_violates",
    "Verif.SgRope.C163_grid_violates",
    "Verif.SgRope.C163_cone_violates",
    "Verif.SgRope.C163_word_violates"
   ],
   "note": "Round trip proved for names that are words (characterised) and for boxes, spheres, cylinders and meshes with visibility, collision, colour and alpha. Not written, and so lost: allowed collisions, limits, inertia, scale, specular, shadows, classes, the spacing of grids; cones are an error; names are not quoted, so frame-1 is not read. The text of numbers is not modelled."
  },
  {
   "property": "C164",
   "status": "partial",
   "theorems": [
    "Verif.Keyframe.C164_set",
    "Verif.Keyframe.C164_compare",
    "Verif.Keyframe.C164_between",
    "Verif.Keyframe.C164_span",
    "Verif.Keyframe.C164_at_key_partial",
    "Verif.Keyframe.C164_limits",
    "Verif.Keyframe.C164_order",
    "Verif.Keyframe.C164_clip",
    "Verif.Keyframe.C164_clip_error",
    "Verif.Keyframe.C164_frames",
    "Verif.Keyframe.C164_load",
    "Verif.Keyframe.C164_load_names",
    "Verif.Keyframe.C164_load_step_partial",
    "Verif.Keyframe.C164_last_violates",
    "Verif.Keyframe.C164_early_violates",
    "Verif.Keyframe.C164_clip_violates",
    "Verif.Keyframe.C164_names_violates",
    "Verif.Keyframe.C164_times_violates",
    "Verif.Keyframe.C164_load_violates",
    "Verif.Keyframe.C164_load_column_violates"
   ],
   "note": "For key frames at different times and every shape of the search tree: the pairs of neighbours are the set, motion is straight between them, nothing is returned exactly before the first and from the last on, joints stay within the limits of the key frames, the order does not matter, clipping removes exactly a standstill at the start and fails exactly when nothing moves, animations have one frame for each period before the last key frame and end, files with times load whatever blank lines they have. Violated: the last key frame is never shown, an animation that starts before the first key frame is empty, joints that the next key frame leaves out are lost, two key frames at one time lose the motion after them and make an error, clipping a standstill is an error, comments shift times when a time step is given, and then a column of times is taken for a joint."
  },
  {
   "property": "C165",
   "status": "partial",
   "theorems": [
    "Verif.NetRender.C165_once",
    "Verif.NetRender.C165_done",
    "Verif.NetRender.C165_ends",
    "Verif.NetRender.C165_load_partial",
    "Verif.NetRender.C165_live_partial",
    "Verif.NetRender.C165_all_partial",
    "Verif.NetRender.C165_empty_violates",
    "Verif.NetRender.C165_jobs_violates",
    "Verif.NetRender.C165_twice_violates"
   ],
   "note": "For every interleaving of the thread with ends of processes and copies: each frame is in one place at all times, on return all are rendered and no process is left, and every run is finite. For different hosts the load stays within the jobs, and with a job on some host the thread is never stuck, so every run that cannot go on has rendered all frames. Violated: no frames at all is an error, hosts without jobs make it wait for ever, a host listed twice runs more processes than either entry allows. Hooks are single steps; a hook that interrupts the thread in the middle of an update is not modelled."
  },
  {
   "property": "C166",
   "status": "partial",
   "theorems": [
    "Verif.TfTree.C166_insert",
    "Verif.TfTree.C166_remove",
    "Verif.TfTree.C166_absolute_partial",
    "Verif.TfTree.C166_map_partial",
    "Verif.TfTree.C166_remove_violates",
    "Verif.TfTree.C166_mul_violates"
   ],
   "note": "What is known of frames is proved for all trees. Absolute transforms, of one frame and of all, are proved for trees made by any insertions, under whatever string objects, and by removing frames that are no parents. Violated otherwise: a parent that is removed and inserted again under an equal string has children whose absolute transforms fail an assertion for ever, since products compare names by eql."
  },
  {
   "property": "C167",
   "status": "partial",
   "theorems": [
    "Verif.LispTf.C167_quaternion",
    "Verif.LispTf.C167_pair",
    "Verif.LispTf.C167_matrix",
    "Verif.LispTf.C167_axis",
    "Verif.LispTf.C167_euler_partial",
    "Verif.LispTf.C167_product",
    "Verif.LispTf.C167_inverse",
    "Verif.LispTf.C167_tf_partial",
    "Verif.LispTf.C167_readable_partial",
    "Verif.LispTf.C167_print_partial",
    "Verif.LispTf.C167_defined",
    "Verif.LispTf.C167_tf_violates",
    "Verif.LispTf.C167_transform_violates",
    "Verif.LispTf.C167_print_violates"
   ],
   "note": "Proved for quaternions, pairs with translations, matrices, axes, products and inverses of all kinds. Violated: the transform of a rotation about z turns about y; Euler angles have no rotation matrix, so transforming points by them is an error; the printed form of a human-readable transform has the pitch for the yaw. Missing for Euler angles: quaternions with a pitch of a right angle (see C30)."
  },
  {
   "property": "C168",
   "status": "partial",
   "theorems": [
    "Verif.PyDk.C168_solve_partial",
    "Verif.PyDk.C168_frame",
    "Verif.PyDk.C168_write_violates"
   ],
   "note": "Proved for all programs that do not write to the vector that is the reference velocity, nor use the vector dx of the object as the reference. Violated otherwise: the reference velocity is kept by reference, so writing to the vector changes it, other than the reference pose, which is copied."
  },
  {
   "property": "C169",
   "status": "partial",
   "theorems": [
    "Verif.SgCheck.C169_check",
    "Verif.SgCheck.C169_poses_partial",
    "Verif.SgCheck.C169_reject_partial",
    "Verif.SgCheck.C169_cycle_violates"
   ],
   "note": "What the checks accept is characterised exactly; poses are proved to exist if no frame is its own ancestor, and rejected parents to leave a frame without a pose if no frame has an empty name. Violated: two frames that are the parents of each other pass both checks and have no poses (the code has a TODO for it)."
  },
  {
   "property": "C170",
   "status": "partial",
   "theorems": [
    "Verif.Encode.C170_used",
    "Verif.Encode.C170_video_partial",
    "Verif.Encode.C170_listing_violates",
    "Verif.Encode.C170_start_violates",
    "Verif.Encode.C170_empty"
   ],
   "note": "Shown for images numbered from below 5 on, with the least number listed first. Violated otherwise: sort-frames sorts the list of images destructively, and the links are then made from a variable that has only the images from the one listed first on; C170_used says which. ffmpeg finds no images numbered from 5 on, as no start number is passed. Behaviour of SBCL's sort and of ffmpeg is modelled, not part of /repo."
  },
  {
   "property": "C171",
   "status": "partial",
   "theorems": [
    "Verif.PyIk.C171_solve_partial",
    "Verif.PyIk.C171_seed_violates",
    "Verif.PyIk.C171_no_frame_violates",
    "Verif.PyIk.C171_no_variable_violates"
   ],
   "note": "Shown for sub-scenegraphs with variables and an end effector, and seeds of their length. Violated otherwise: a seed of another length ends the process (SubSceneGraph.config_vector does not check it, aa_dvec_copy aborts), solve without end effectors reads a frame that is not there, and creation without variables has an array of length zero. What the algorithms do is an arbitrary function."
  },
  {
   "property": "C172",
   "status": "partial",
   "theorems": [
    "Verif.PyDist.C172_access",
    "Verif.PyDist.C172_latest_partial",
    "Verif.PyDist.C172_stale_violates"
   ],
   "note": "Access, symmetry and distances are shown in full. Violated: aa_rx_cl_dist_check does not reset points, so points of a pair that the latest check does not compute, such as one allowed since, are those of an earlier check."
  },
  {
   "property": "C173",
   "status": "proved",
   "theorems": [
    "Verif.Sparse.C173_rows"
   ],
   "note": "For values of any type (conversion to double-float is left out)."
  }
 ]
}
