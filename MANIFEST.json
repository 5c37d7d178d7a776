{
 "claims": [
  {
   "property": "C01",
   "status": "proved",
   "theorems": [
    "Nda.Perm.C01_applyInverse_apply",
    "Nda.Perm.C01_apply_applyInverse",
    "Nda.Perm.C01_apply_compose",
    "Nda.Perm.C01_applyInverse_compose",
    "Nda.Perm.C01_compose_assoc",
    "Nda.Perm.C01_inverse",
    "Nda.Perm.C01_applyInverse_eq_apply_inverse",
    "Nda.Perm.C01_apply_perm",
    "Nda.Perm.C01_isValid_true_iff",
    "Nda.Perm.C01_isValid_false_iff",
    "Nda.Perm.C01_identity",
    "Nda.Perm.C01_reverseIdentity",
    "Nda.Perm.C01_transposition",
    "Nda.Perm.C01_cycle",
    "Nda.Perm.C01_cycle_invalid_witness"
   ],
   "note": "All clauses for every rank; out-of-range entries in the validity test are a separate undefined outcome. cycle is a permutation under its stated precondition 0<=p<=pos<=R and a witness shows it is not otherwise."
  },
  {
   "property": "C02",
   "status": "partial",
   "theorems": [
    "Nda.Perm.C02_decode_encode_partial",
    "Nda.Perm.C02_encode_injective_partial",
    "Nda.Perm.C02_encode_undefined",
    "Nda.Perm.C02_static_extents_witness",
    "Nda.Perm.C02_static_extents_partial"
   ],
   "note": "Round trip and injectivity for all ranks up to 8 with entries below 16. False of the code beyond: encode is undefined for every rank >= 9 (C02_encode_undefined) although ranks up to 15 are accepted, and static_extents only checks its first entry (C02_static_extents_witness)."
  },
  {
   "property": "C03",
   "status": "proved",
   "theorems": [
    "Nda.IdxMap.C03_fresh_bijection",
    "Nda.IdxMap.C03_empty_ellipsis",
    "Nda.IdxMap.C03_strides"
   ],
   "note": "For all ranks, memory orders, extents (zero and one included) and flags."
  },
  {
   "property": "C04",
   "status": "proved",
   "theorems": [
    "Nda.IdxMap.C04_toIdx_call",
    "Nda.IdxMap.C04_call_toIdx",
    "Nda.IdxMap.C04_toIdx_nested",
    "Nda.IdxMap.C04_empty_witness"
   ],
   "note": "Both directions for every freshly built layout of rank at least 1, and tuple recovery for every layout with nested strides (views with positive steps). Positions of an empty array do not exist; decoding one is division by zero (C04_empty_witness)."
  },
  {
   "property": "C05",
   "status": "proved",
   "theorems": [
    "Nda.LayoutTransforms.C05_chain_safe"
   ],
   "note": "For every freshly built array of any rank, memory order and non-negative extents and every finite chain of in-range slices (negative steps and ellipsis included), index permutations and additions of unit fast dimensions; the slot is moreover the one of the array element the chain names."
  },
  {
   "property": "C06",
   "status": "proved",
   "theorems": [
    "Nda.LayoutTransforms.C06_slice_elements",
    "Nda.LayoutTransforms.C06_shape_unique",
    "Nda.LayoutTransforms.C06_rejects"
   ],
   "note": "Definedness, extents, elements for all argument lists matching the rank with non-zero steps; other lists are rejected. Rank limited to 128, the sentinel of the code (the code itself limits it to 15)."
  },
  {
   "property": "C07",
   "status": "partial",
   "theorems": [
    "Nda.LayoutTransforms.C07_flags_hold_partial",
    "Nda.LayoutTransforms.C07_static_extents_hold",
    "Nda.LayoutTransforms.C07_slice_keeps_flags",
    "Nda.LayoutTransforms.C07_linear_access",
    "Nda.LayoutTransforms.C07_fast_dims_witness"
   ],
   "note": "Promises hold after every chain of slices, permutations and unit fast dimensions as long as the latter are not added to a layout of class 'evenly spaced, not unit stride'. In that case the code is wrong: C07_fast_dims_witness. Linear access is correct whenever the promises hold."
  },
  {
   "property": "C08",
   "status": "proved",
   "theorems": [
    "Nda.LayoutTransforms.C08_order_valid",
    "Nda.LayoutTransforms.C08_test_exact",
    "Nda.LayoutTransforms.C08_chain_order_valid",
    "Nda.LayoutTransforms.C08_empty_witness"
   ],
   "note": "For every regular layout and every allowed view operation, and along every chain from a fresh array of positive extents. For a zero extent the library's own test can fail (C08_empty_witness)."
  },
  {
   "property": "C09",
   "status": "proved",
   "theorems": [
    "Nda.IdxMap.C09_transpose_element",
    "Nda.IdxMap.C09_transpose_compose",
    "Nda.IdxMap.C09_transpose_inverse",
    "Nda.IdxMap.C09_transposed_view",
    "Nda.IdxMap.C09_transposed_twice",
    "Nda.IdxMap.C09_matrix_twice"
   ],
   "note": "All ranks and permutations; element relabelling, shape, composition, inverse, truthfulness of flags."
  },
  {
   "property": "C10",
   "status": "partial",
   "theorems": [
    "Nda.LayoutTransforms.C10_reshape_partial",
    "Nda.LayoutTransforms.C10_reshape_back_partial",
    "Nda.LayoutTransforms.C10_flatten_partial",
    "Nda.LayoutTransforms.C10_policy",
    "Nda.LayoutTransforms.C10_transposed_witness",
    "Nda.LayoutTransforms.C10_reversed_witness"
   ],
   "note": "Proved for contiguous layouts with positive strides in their memory order and the policies that keep it; the round trip and flatten too. False in general of the code: reshape of a transposed view (basic_layout) leaves strides unset, and a reversed view passes the contiguity test (witnesses)."
  },
  {
   "property": "C11",
   "status": "partial",
   "theorems": [
    "Nda.LayoutTransforms.C11_contiguous_sound_partial",
    "Nda.LayoutTransforms.C11_contiguous_complete_partial",
    "Nda.LayoutTransforms.C11_chain_sound_partial",
    "Nda.LayoutTransforms.C11_reversed_witness",
    "Nda.LayoutTransforms.C11_unit_dim_witness",
    "Nda.LayoutTransforms.C11_strided_witness",
    "Nda.IdxMap.C11_strided_complete"
   ],
   "note": "Sound and complete for layouts with positive, sorted strides and for view chains of positive steps; witnesses show the false positive for a reversed view, the false negative for a unit dimension with a large stride, and the false positive of is_strided_1d."
  },
  {
   "property": "C12",
   "status": "partial",
   "theorems": [
    "Nda.LayoutTransforms.C12_same_elements_partial",
    "Nda.LayoutTransforms.C12_strided_witness"
   ],
   "note": "Elements and shape always; linear iteration unchanged unless the layout class is 'evenly spaced, not unit stride', where it is false of the code (C12_strided_witness)."
  },
  {
   "property": "C13",
   "status": "proved",
   "theorems": [
    "Nda.GroupIndices.C13_accepts_iff",
    "Nda.GroupIndices.C13_group",
    "Nda.GroupIndices.C13_view"
   ],
   "note": "All dense layouts, all accepted groupings into non-empty groups; acceptance is characterised exactly (partition of the dimensions, every group consecutive in memory). With no elements the shape and size claims hold; density needs positive extents."
  },
  {
   "property": "C14",
   "status": "partial",
   "theorems": [
    "Nda.BoundCheck.C14_exact_partial",
    "Nda.BoundCheck.C14_accepted_safe_partial",
    "Nda.BoundCheck.C14_element_exact",
    "Nda.BoundCheck.C14_element_ellipsis",
    "Nda.BoundCheck.C14_blind_witness"
   ],
   "note": "Exact for all arguments except range(-1,-1,step>0), which the check never sees (witness); accepted slices are safe; element access is exact. Rank <= 32 because of the 32-bit error code (the code limits ranks to 15)."
  },
  {
   "property": "C15",
   "status": "proved",
   "theorems": [
    "Nda.Loops.C15_for_each",
    "Nda.Loops.C15_enumeration",
    "Nda.Loops.C15_trace",
    "Nda.Loops.C15_empty",
    "Nda.Loops.C15_static",
    "Nda.Loops.C15_static_order",
    "Nda.Loops.C15_static_order_witness"
   ],
   "note": "for_each proved for all ranks, shapes, states and callbacks. for_each_static (unused in the library) hands the callback permuted indices for non-C orders: proved and witnessed."
  },
  {
   "property": "C16",
   "status": "partial",
   "theorems": [
    "Nda.Grid.C16_random_access",
    "Nda.Grid.C16_distance",
    "Nda.IdxMap.C16_iterate_partial",
    "Nda.IdxMap.C16_indices",
    "Nda.IdxMap.C16_empty_never_terminates"
   ],
   "note": "Proved for all layouts without zero extents, for all evenly spaced layout classes and when the slowest extent is zero. False of the code for a zero extent after a non-zero one without the even spacing promise: the loop never terminates (proved for all such layouts). Random access and indices() included."
  },
  {
   "property": "C17",
   "status": "partial",
   "theorems": [
    "Nda.Assign.C17_assign_partial",
    "Nda.Assign.C17_assign_host",
    "Nda.Assign.C17_assign_expr"
   ],
   "note": "Host assignment of arrays, views and expressions proved for all layouts that keep their promises. Block copies between non-host memories proved for non-empty regularly spaced layouts below 2^31 elements; outside that get_block_layout is wrong (C20 witnesses)."
  },
  {
   "property": "C18",
   "status": "partial",
   "theorems": [
    "Nda.Assign.C18_fill_partial",
    "Nda.Assign.C18_negative_stride",
    "Nda.Assign.C18_reversed_witness",
    "Nda.Assign.C18_matrix_partial"
   ],
   "note": "Proved for contiguous layouts, positive strides and the iterator path; false of the code for evenly spaced layouts with non-positive stride (nothing is assigned, proved for all such layouts, reachable witness)."
  },
  {
   "property": "C19",
   "status": "partial",
   "theorems": [
    "Nda.Arr.C19_self_view_witness",
    "Nda.Assign.C19_pointwise",
    "Nda.Assign.C19_compound",
    "Nda.Assign.C19_copy_exact",
    "Nda.Assign.C19_shift_witness",
    "Nda.Assign.C19_shift_left_witness",
    "Nda.Assign.C19_transpose_witness",
    "Nda.Assign.C19_read_ahead",
    "Nda.Arr.C19_resize"
   ],
   "note": "Pointwise and read-ahead expressions, compound assignment, the exact condition for overlapping copies (both directions), and assignments that resize their target (reading it is always a use of freed memory) proved, with witnesses. The as-if-read-first claim is false for shifts, transposes and resizing."
  },
  {
   "property": "C20",
   "status": "partial",
   "theorems": [
    "Nda.Assign.C20_block_layout_partial",
    "Nda.Assign.C20_irregular_witness",
    "Nda.Assign.C20_truncation_witness",
    "Nda.Assign.C20_empty_witness"
   ],
   "note": "Proved for non-empty regularly spaced layouts below 2^31 elements, including when a block layout is reported. False outside: witnesses for irregular spacing, 32-bit truncation and zero extents."
  },
  {
   "property": "C21",
   "status": "proved",
   "theorems": [
    "Nda.Assign.C21_equality",
    "Nda.Assign.C21_views",
    "Nda.Assign.C21_equivalence"
   ],
   "note": "For any element access functions and for views in memory with arbitrary layouts; equivalence relation included."
  },
  {
   "property": "C22",
   "status": "partial",
   "theorems": [
    "Nda.Arr.C22_history_partial",
    "Nda.Arr.C22_resize_same",
    "Nda.Arr.C22_assign_values",
    "Nda.Arr.C22_build_values",
    "Nda.Arr.C22_moved_witness"
   ],
   "note": "All allowed histories of construction, copy, move, assignment, resize and destruction, any rank and stride order, heap storage: no memory error, storage has exactly prod(shape) live elements unless moved from; resize to the same size leaves memory untouched; element values after construction/assignment. Moved-from arrays keep their shape without storage (witness)."
  },
  {
   "property": "C23",
   "status": "partial",
   "theorems": [
    "Nda.Arr.C23_shape2",
    "Nda.Arr.C23_shape3",
    "Nda.Arr.C23_rank1",
    "Nda.Arr.C23_rank2",
    "Nda.Arr.C23_rank3",
    "Nda.Arr.C23_reject_partial",
    "Nda.Arr.C23_ragged_witness",
    "Nda.Arr.C23_empty_witness"
   ],
   "note": "Ranks 1-3 as in the code: element (i,j,k) of the array is element (i,j,k) of the nested list, shape is the list's; exact condition under which the checked build rejects. Ragged lists can be accepted and empty nested lists are undefined behaviour (witnesses)."
  },
  {
   "property": "C24",
   "status": "proved",
   "theorems": [
    "Nda.Swap.C24_bindings",
    "Nda.Swap.C24_swap",
    "Nda.Swap.C24_deep_swap",
    "Nda.Swap.C24_overlap_witness"
   ],
   "note": "All sequences of swap/rebind on any number of view variables; deep_swap for all non-overlapping views of equal shape with any well-formed layouts (also negative strides). Overlapping views excluded (witness)."
  },
  {
   "property": "C25",
   "status": "proved",
   "theorems": [
    "Nda.Algorithms.C25_fold",
    "Nda.Algorithms.C25_sum",
    "Nda.Algorithms.C25_product",
    "Nda.Algorithms.C25_any",
    "Nda.Algorithms.C25_all",
    "Nda.Algorithms.C25_max",
    "Nda.Algorithms.C25_min",
    "Nda.Algorithms.C25_frobenius",
    "Nda.Algorithms.C25_in_memory",
    "Nda.Algorithms.C25_nan_witness",
    "Nda.Algorithms.C25_empty_witness"
   ],
   "note": "All shapes and contents, elements in lexicographic order; min/max for any strict weak order and non-empty arrays; sum/product independent of the order in commutative types; any/all iff exists/forall. Outside the statement: NaN and empty arrays for min/max (witnesses)."
  },
  {
   "property": "C26",
   "status": "proved",
   "theorems": [
    "Nda.Arith.C26_shape",
    "Nda.Arith.C26_eval",
    "Nda.Arith.C26_eval_mixed",
    "Nda.Arith.C26_assign",
    "Nda.Arith.C26_compound_scalar",
    "Nda.Arith.C26_compound",
    "Nda.Arith.C26_linear",
    "Nda.Arith.C26_linear_agrees",
    "Nda.Arith.C26_mixed_witness",
    "Nda.Arith.C26_promises"
   ],
   "note": "All expression trees (unary minus, + - * /, scalars on either side, mapped functions of any arity), all layouts; matrix expressions with scalars as multiples of the identity; assignment and compound assignment, also aliasing at equal indices; linear access. When arrays and matrices are mixed the left operand decides what an added scalar means (witness). An expression promises a smallest stride of one only if every array in it has it, in the same stride order (C26_promises)."
  },
  {
   "property": "C27",
   "status": "proved",
   "theorems": [
    "Nda.Matrix.C27_eye",
    "Nda.Matrix.C27_trace",
    "Nda.Matrix.C27_dagger",
    "Nda.Matrix.C27_transpose_call",
    "Nda.Matrix.C27_diagonal",
    "Nda.Matrix.C27_diagonal_write",
    "Nda.Matrix.C27_diag",
    "Nda.Matrix.C27_vstack",
    "Nda.Matrix.C27_ones_witness"
   ],
   "note": "eye, trace, transpose/dagger (memory matrices of any strides, and mapped calls), diagonal (reading and writing through), diag and vstack, for all sizes, strides and contents. C27_ones_witness: matrix::ones gives the identity matrix (scalar assignment in the matrix algebra). trace uses an int counter: modelled as undefined from extent 2^31 on."
  },
  {
   "property": "C28",
   "status": "partial",
   "theorems": [
    "Nda.Mem.C28_errors",
    "Nda.Mem.C28_history_partial",
    "Nda.Mem.C28_no_leak",
    "Nda.Mem.C28_copy",
    "Nda.Mem.C28_moved_shared_witness",
    "Nda.Mem.C28_pair_leak"
   ],
   "note": "Histories of heap and shared handles: no error, a block is unreleased exactly if a variable owns it, for all histories not using elements through moved-from shared handles, where the claim is false (witness); the bookkeeping pair of shared handles is never deleted (C28_pair_leak)."
  },
  {
   "property": "C29",
   "status": "partial",
   "theorems": [
    "Nda.Mem.C29_sso_partial",
    "Nda.Mem.C29_no_leak",
    "Nda.Mem.C29_self_assign_witness",
    "Nda.Mem.C29_inline_move_witness",
    "Nda.Mem.C29_stack_partial",
    "Nda.Mem.C29_stack_witness"
   ],
   "note": "handle_sso: for all histories without copy self-assignment of non-empty (trivial types: heap) handles and without moves of inline elements of non-trivial types, refinement to lists of values, no error, no leak; both exclusions are false of the code (witnesses). handle_stack: all histories for trivial types; for non-trivial types without default construction and assignment, false of the code (witness)."
  },
  {
   "property": "C30",
   "status": "proved",
   "theorems": [
    "Nda.Alloc.C30_bucket",
    "Nda.Alloc.C30_next",
    "Nda.Alloc.C30_release",
    "Nda.Alloc.C30_oversize_witness"
   ],
   "note": "All histories of requests of 1..ChunkSize bytes, any malloc strategy; exact chunk choice, full/empty. The code does not check request sizes: oversize witness included."
  },
  {
   "property": "C31",
   "status": "proved",
   "theorems": [
    "Nda.Alloc.C31_multi_bucket",
    "Nda.Alloc.C31_routing"
   ],
   "note": "All histories, any malloc strategy: completion, disjointness, sortedness, routing of releases. lower_bound/upper_bound by their contract."
  },
  {
   "property": "C32",
   "status": "partial",
   "theorems": [
    "Nda.Alloc.C32_segregator",
    "Nda.Alloc.C32_leak_check",
    "Nda.Alloc.C32_stats_partial",
    "Nda.Alloc.C32_stats_zero_witness",
    "Nda.Alloc.C32_composed"
   ],
   "note": "Segregator, leak checker, malloc, buckets: proved compositionally for all lawful parts. stats::allocate_zero does not zero (witness), otherwise proved with exact histogram."
  },
  {
   "property": "C33",
   "status": "proved",
   "theorems": [
    "Nda.SymGrp.C33_partition",
    "Nda.SymGrp.C33_orbits"
   ],
   "note": "All shapes, any finite list of rank-preserving symmetry functions (also leaving the array), any limit on excursions outside the array: construction ends, the classes are disjoint and cover all indices, the reserved storage is filled exactly; C33_orbits: for injective symmetries that stay in the array the classes are exactly the orbits."
  },
  {
   "property": "C34",
   "status": "partial",
   "theorems": [
    "Nda.SymGrp.C34_members",
    "Nda.SymGrp.C34_init",
    "Nda.SymGrp.C34_init_symmetric",
    "Nda.SymGrp.C34_symmetrize",
    "Nda.SymGrp.C34_symmetrize_fixed",
    "Nda.SymGrp.C34_fortran_witness",
    "Nda.SymGrp.C34_strided_witness",
    "Nda.SymGrp.C34_init_positions"
   ],
   "note": "Members are reached by chains with the product of operations (all arrays); init / symmetrize for new C-order arrays and C-order dense views only (what init does to contiguous arrays in other stride orders is C34_init_positions). For Fortran-order arrays and strided views the statement is false of the code, which decodes stored linear indices with the wrong layout (C34_fortran_witness, C34_strided_witness)."
  },
  {
   "property": "C35",
   "status": "proved",
   "theorems": [
    "Nda.SymGrp.C35_race_free",
    "Nda.SymGrp.C35_parallel"
   ],
   "note": "Contiguous arrays in any stride order (all_reduce demands contiguous ones), fewer than 2^31 elements: any number of processes and of threads on each, every interleaving of the threads' stores, any addresses of the arrays: no two threads write the same element, every execution can finish, and after the all_reduce every process holds the serial result. init_func pure; element addition a monoid."
  },
  {
   "property": "C36",
   "status": "proved",
   "theorems": [
    "Nda.H5.C36_char_buf",
    "Nda.H5.C36_round_trip",
    "Nda.H5.C36_embedded_nul_witness"
   ],
   "note": "Every array of strings; also what happens to strings with an embedded NUL, and no access outside the buffer."
  },
  {
   "property": "C37",
   "status": "partial",
   "theorems": [
    "Nda.H5.C37_selection_partial",
    "Nda.H5.C37_read_partial",
    "Nda.H5.C37_same_as_memory_partial",
    "Nda.H5.C37_write_partial",
    "Nda.H5.C37_rank_checked",
    "Nda.H5.C37_last_witness",
    "Nda.H5.C37_negative_step_witness",
    "Nda.H5.C37_real_into_complex_witness",
    "Nda.H5.C37_view_checked",
    "Nda.H5.C37_whole",
    "Nda.H5.C37_whole_slice_partial",
    "Nda.H5.C37_write_shape_rejected",
    "Nda.H5.C37_write_kind_rejected"
   ],
   "note": "Selection, read, sliced write and equality with slicing in memory for all shapes, ranks and argument lists with positive steps; missing: negative steps, the last value -1 and real datasets read into complex arrays, where the code differs (witnesses)."
  },
  {
   "property": "C38",
   "status": "proved",
   "theorems": [
    "Nda.H5.C38_names_distinct",
    "Nda.H5.C38_name_not_shape",
    "Nda.H5.C38_round_trip"
   ],
   "note": "Names are injective over all ranks and index tuples, never clash with 'shape', and the round trip recovers shape and elements."
  },
  {
   "property": "C39",
   "status": "partial",
   "theorems": [
    "Nda.Mpi.C39_buffers",
    "Nda.Mpi.C39_gather",
    "Nda.Mpi.C39_chunks",
    "Nda.Mpi.C39_scatter",
    "Nda.Mpi.C39_cover",
    "Nda.Mpi.C39_round_trip",
    "Nda.Mpi.C39_overflow",
    "Nda.Mpi.C39_strided_rejected",
    "Nda.Mpi.C39_fortran_scatter_witness",
    "Nda.Mpi.C39_fortran_gather_witness",
    "Nda.Mpi.C39_local_shape_witness",
    "Nda.Mpi.C39_gather_shape",
    "Nda.Mpi.C39_gather_other",
    "Nda.Mpi.C39_gather_view_rejected",
    "Nda.Mpi.C39_scatter_view_rejected"
   ],
   "note": "C-order contiguous arrays, any number of processes, any root, equal or different slab heights for gather: slabs tile the first dimension, scatter/gather element formulas with frame, round trip. Fortran order is false of the code for both (witnesses); scatter with a differing local extent on a receiving process is an erroneous MPI call (witness). Fewer than 2^31 elements (int counts)."
  },
  {
   "property": "C40",
   "status": "proved",
   "theorems": [
    "Nda.Mpi.C40_broadcast",
    "Nda.Mpi.C40_reduce",
    "Nda.Mpi.C40_all_reduce_sum",
    "Nda.Mpi.C40_overlap_rejected",
    "Nda.Mpi.C40_in_place_size",
    "Nda.Mpi.C40_sizes",
    "Nda.Mpi.C40_reduce_other",
    "Nda.Mpi.C40_broadcast_view_rejected",
    "Nda.Mpi.C40_reduce_view_rejected"
   ],
   "note": "Any stride order, any number of processes: broadcast gives shape and elements of the root; reduce gives the element-wise combination in process order (sum: List.sum), in place or not; overlapping buffers, mismatching in-place sizes and non-contiguous arrays are run-time errors. Fewer than 2^31 elements."
  },
  {
   "property": "C41",
   "status": "partial",
   "theorems": [
    "Nda.Blas.C41_gemm",
    "Nda.Blas.C41_gemm_rejects",
    "Nda.Blas.C41_matmul_partial",
    "Nda.Blas.C41_generic_partial",
    "Nda.Blas.C41_empty_witness",
    "Nda.Blas.C41_step_witness",
    "Nda.Blas.C41_generic_beta_witness",
    "Nda.Blas.C41_result_order"
   ],
   "note": "gemm for every pair of memory orders of A, B, C (and conjugated A/B where the code accepts them), matmul of views, arrays, lazy conjugates and expressions, and the generic product, for all sizes, over any commutative semiring. Missing, with witnesses: an empty inner dimension (leading dimension 0 is rejected by BLAS), views with a step along the fast dimension (wrong result without debug checks), the term beta*c of gemm_generic (lost). Reference BLAS behaviour is assumed; rounding is not modelled."
  },
  {
   "property": "C42",
   "status": "partial",
   "theorems": [
    "Nda.Blas.C42_gemv_partial",
    "Nda.Blas.C42_gemv_rejects",
    "Nda.Blas.C42_matvecmul_partial",
    "Nda.Blas.C42_generic_partial",
    "Nda.Blas.C42_generic_beta_witness",
    "Nda.Blas.C42_empty_witness",
    "Nda.Blas.C42_reversed_witness"
   ],
   "note": "gemv for both memory orders, positive vector strides and non-empty matrices; matvecmul of any operand; the generic version computes (1+beta)*alpha*A*b. Missing, with witnesses: empty inner dimension, reversed vectors passed to gemv, beta of gemv_generic."
  },
  {
   "property": "C43",
   "status": "partial",
   "theorems": [
    "Nda.Blas.C43_ger",
    "Nda.Blas.C43_outer_positions",
    "Nda.Blas.C43_outer_partial",
    "Nda.Blas.C43_outer_fortran_witness"
   ],
   "note": "ger for both memory orders and positive strides is proved in full; outer_product of contiguous arrays of any rank in C order. For other orders C43_outer_positions says what is computed, and C43_outer_fortran_witness shows it is not the outer product."
  },
  {
   "property": "C44",
   "status": "partial",
   "theorems": [
    "Nda.Blas.C44_large_witness",
    "Nda.Blas.C44_blas_dot_partial",
    "Nda.Blas.C44_dot_partial",
    "Nda.Blas.C44_generic_partial",
    "Nda.Blas.C44_scal_partial",
    "Nda.Blas.C44_reversed_witness",
    "Nda.Blas.C44_reversed_oob_witness",
    "Nda.Blas.C44_scal_reversed_witness",
    "Nda.Blas.C44_generic_empty_witness"
   ],
   "note": "dot, dotc, nda::dot with copies, generic dot of non-empty vectors, scal, for positive strides (generic: any stride). Missing, with witnesses: reversed vectors (BLAS starts at the other end), scal of a reversed vector (no-op), generic dot of empty vectors, vectors of 2^31 elements or more (C44_large_witness)."
  },
  {
   "property": "C45",
   "status": "proved",
   "theorems": [
    "Nda.Linalg.C45_inverse_in_place",
    "Nda.Linalg.C45_inverse_in_place_any",
    "Nda.Linalg.C45_lapack_errors",
    "Nda.Linalg.C45_inverse",
    "Nda.Linalg.C45_singular_leftover_witness",
    "Nda.Linalg.C45_empty_view"
   ],
   "note": "Sizes 1 to 3 for every layout without LAPACK; any size with the documented LAPACK contracts (satisfiable: C46_lapack_exists); exact field arithmetic. C45_singular_leftover_witness: a singular 2x2 matrix is left with its diagonal exchanged when the error is thrown."
  },
  {
   "property": "C46",
   "status": "partial",
   "theorems": [
    "Nda.Linalg.C46_lapack_exists",
    "Nda.Linalg.C46_determinant_in_place",
    "Nda.Linalg.C46_rejects",
    "Nda.Linalg.C46_determinant",
    "Nda.Linalg.C46_empty_witness",
    "Nda.Linalg.C46_empty_view",
    "Nda.Linalg.C46_lapack_empty_exists"
   ],
   "note": "Any size (also 0, with and without storage), order and leading dimension, with the documented getrf contract (satisfiable over every field: C46_lapack_exists, C46_lapack_empty_exists). Partial because of what is not an error, against the statement: a non-square matrix without storage (C46_empty_witness gives 1); and what is one: a dense 0x0 view of storage (C46_empty_view)."
  },
  {
   "property": "C47",
   "status": "partial",
   "theorems": [
    "Nda.Clef.C47_value",
    "Nda.Clef.C47_plain_partial",
    "Nda.Clef.C47_sums_partial",
    "Nda.Clef.C47_if_else_witness",
    "Nda.Clef.C47_superfluous_witness",
    "Nda.Clef.C47_twice_witness",
    "Nda.Clef.C47_literal_witness",
    "Nda.Clef.C47_lazy_agrees"
   ],
   "note": "Whatever the tree, whenever evaluation gives an ordinary value it is that of the ordinary expression (C47_value); trees without sums evaluate exactly when the ordinary expression with both branches of every conditional is defined (C47_plain_partial); with sums, when every sum depends on an enclosing index or on exactly the placeholders given (C47_sums_partial). Disagreements, each proved on a witness: if_else evaluates both branches; a sum that depends on only some of the placeholders given stays lazy; a placeholder given twice takes the value at the sum of the two positions; sums over literal placeholders do not compile. Placeholders given expressions: C47_lazy_agrees and C48."
  },
  {
   "property": "C48",
   "status": "partial",
   "theorems": [
    "Nda.Clef.C48_same_value",
    "Nda.Clef.C48_sums",
    "Nda.Clef.C48_stages",
    "Nda.Clef.C48_function",
    "Nda.Clef.C48_function_stages",
    "Nda.Clef.C48_sum_witness",
    "Nda.Clef.C48_capture_witness",
    "Nda.Clef.C48_dangling_witness",
    "Nda.Clef.C48_function_survives",
    "Nda.Clef.C48_outside_survives",
    "Nda.Clef.C48_value_survives",
    "Nda.Clef.C48_substitute",
    "Nda.Clef.C48_substitute_value",
    "Nda.Clef.C48_substitute_partial",
    "Nda.Clef.C48_lazy_if_witness",
    "Nda.Clef.C48_lazy_call_witness",
    "Nda.Clef.C48_lazy_capture_witness",
    "Nda.Clef.C48_if_types"
   ],
   "note": "Any two ways of giving the same values, in any number of stages and any order, agree whenever both give a value (C48_same_value, any tree); without sums the outcomes are the same (C48_stages); functions made of expressions (C48_function, C48_function_stages). Disagreements: placeholders that are indices of a sum are captured (C48_capture_witness); the partially evaluated tree refers to objects stored in the original, which may be gone (C48_dangling_witness). Sums in stages: C48_sums (a value exactly when the expression has it) if every sum depends on an index of a sum around it, or on all placeholders of one of the stages and none of a later one; C48_sum_witness: otherwise the same expression is accepted in stages and rejected at once. Placeholders given expressions, in any number of stages: the result means the original with the placeholders standing for the expressions (C48_substitute, any tree without capture); for operators and calls evaluation then gives a value exactly when the ordinary expression has it (C48_substitute_partial). Disagreements: a conditional whose placeholders are all given, the condition lazily, is rejected (C48_lazy_if_witness); calls of objects without lazy calls (C48_lazy_call_witness); capture (C48_lazy_capture_witness)."
  },
  {
   "property": "C49",
   "status": "partial",
   "theorems": [
    "Nda.Clef.C49_array",
    "Nda.Clef.C49_vector",
    "Nda.Clef.C49_sum",
    "Nda.Clef.C49_sum_one",
    "Nda.Clef.C49_empty",
    "Nda.Clef.C49_all_different_witness",
    "Nda.Clef.C49_sum_witness"
   ],
   "note": "C49_array (arrays of arrays, any rank and layout), C49_vector, C49_sum (any number of indices), C49_sum_one, C49_empty. Assumes that the operators of the right-hand side do not read the elements assigned to, and defined values (with both branches of conditionals); a sum on the right-hand side depends on an index of a sum around it, or on all placeholders of one of the levels and none further in (inner arrays may be empty). Disagreements: two equal placeholders other than the first are accepted on the left and give the wrong index (C49_all_different_witness); a sum not depending on all indices on the left is rejected (C49_sum_witness)."
  },
  {
   "property": "C50",
   "status": "partial",
   "theorems": [
    "Nda.RectStr.C50_lookup",
    "Nda.RectStr.C50_unknown",
    "Nda.RectStr.C50_labels",
    "Nda.RectStr.C50_generated",
    "Nda.RectStr.C50_convert",
    "Nda.RectStr.C50_slice_partial",
    "Nda.RectStr.C50_permute",
    "Nda.RectStr.C50_chain_partial",
    "Nda.RectStr.C50_ellipsis_witness",
    "Nda.RectStr.C50_generated_witness",
    "Nda.RectStr.C50_duplicate_witness",
    "Nda.RectStr.C50_terminate_witness",
    "Nda.RectStr.C50_equal_partial",
    "Nda.RectStr.C50_equal_symmetric",
    "Nda.RectStr.C50_equal_same",
    "Nda.RectStr.C50_equal_witness"
   ],
   "note": "Lookup by strings and integers, unknown strings, labels given or generated, permutations and chains: for all shapes, orders and label sets. Slices and chains: for labels that are given and different within a dimension, and argument lists in which an ellipsis stands for one dimension. The code gets the rest wrong: an ellipsis for no or several dimensions takes the wrong labels (C50_ellipsis_witness), generated labels depend on history (C50_generated_witness), equal labels (C50_duplicate_witness), a wrong number of label lists terminates (C50_terminate_witness), comparison is not transitive and changes when a string is looked up (C50_equal_witness)."
  },
  {
   "property": "C51",
   "status": "partial",
   "theorems": [
    "Nda.Python.C51_to_python",
    "Nda.Python.C51_from_python_partial",
    "Nda.Python.C51_roundtrip_partial",
    "Nda.Python.C51_negative_witness",
    "Nda.Python.C51_multiple_witness",
    "Nda.Python.C51_accept_view",
    "Nda.Python.C51_elements_any",
    "Nda.Python.C51_accept_elements_partial",
    "Nda.Python.C51_elements_witness",
    "Nda.Python.C51_empty_witness",
    "Nda.Python.C51_alive",
    "Nda.Python.C51_alive_array",
    "Nda.Python.C51_moved_parent_witness"
   ],
   "note": "To Python: any strides that fit in 64 bits. From Python: non-negative strides that are multiples of the element size; the code is wrong for negative ones (C51_negative_witness) and non-multiples (C51_multiple_witness). Lifetime: any history before and after, as long as the parent of a view still holds its memory when it is handed over (C51_moved_parent_witness). Acceptance: exact for numpy element types; for converted elements the code tests whether some element converts (C51_elements_any, C51_elements_witness, C51_empty_witness). Python's own reference counting and numpy are assumed."
  },
  {
   "property": "C52",
   "status": "partial",
   "theorems": [
    "Nda.IdxMap.C52_from_dynamic",
    "Nda.IdxMap.C52_default",
    "Nda.IdxMap.C52_static_size",
    "Nda.IdxMap.C52_equal_iff",
    "Nda.IdxMap.C52_degrade_sound",
    "Nda.IdxMap.C52_degrade_order",
    "Nda.IdxMap.C52_convert_keeps",
    "Nda.IdxMap.C52_convert_contiguous_partial",
    "Nda.IdxMap.C52_smallest_witness",
    "Nda.IdxMap.C52_strided_witness"
   ],
   "note": "Construction, static size, equality and all degradations proved. The checked conversion to contiguous is proved for regular positive strides. False of the code for smallest_stride_is_one (no check at all) and strided_1d (inexact test), with witnesses."
  },
  {
   "property": "C53",
   "status": "partial",
   "theorems": [
    "Nda.Linalg.C53_solve_partial",
    "Nda.Linalg.C53_c_order_witness"
   ],
   "note": "Right-hand sides in Fortran order. Fails in C order: getrs_c_order proves that X * transpose(A) = B is solved instead, C53_c_order_witness is a case where A * X differs from B."
  },
  {
   "property": "C54",
   "status": "proved",
   "theorems": [
    "Nda.Linalg.C54_is_diagonal",
    "Nda.Linalg.C54_is_square",
    "Nda.Linalg.C54_cross_product",
    "Nda.Linalg.C54_cross_orthogonal"
   ],
   "note": "All layouts; elements with decidable equality."
  },
  {
   "property": "C55",
   "status": "partial",
   "theorems": [
    "Nda.Blas.C55_vbatch",
    "Nda.Blas.C55_batch_partial",
    "Nda.Blas.C55_strided_partial",
    "Nda.Blas.C55_strided_rejects",
    "Nda.Blas.C55_leading_dimension_witness",
    "Nda.Blas.C55_fortran_witness",
    "Nda.Blas.C55_mkl_batch",
    "Nda.Blas.C55_mkl_strided",
    "Nda.Blas.C55_overflow_witness"
   ],
   "note": "gemm_vbatch in full. gemm_batch: proved when all matrices of one vector share their leading dimension (the code takes that of the first and checks nothing: C55_leading_dimension_witness). gemm_batch_strided: non-empty stacks whose stack index is the slowest; rank-3 Fortran order gives wrong results silently (C55_fortran_witness). Loops without MKL; with MKL (its groups and strides are external, as promised by its documentation) the same results whenever the loops give one: C55_mkl_batch, C55_mkl_strided; the loop over strides overflows for stacks of more than 2^31 elements, MKL does not (C55_overflow_witness)."
  },
  {
   "property": "C56",
   "status": "partial",
   "theorems": [
    "Nda.Norm.C56_norm_partial",
    "Nda.Norm.C56_zero",
    "Nda.Norm.C56_inf",
    "Nda.Norm.C56_neg_inf",
    "Nda.Norm.C56_negative",
    "Nda.Norm.C56_reversed_witness",
    "Nda.Norm.C56_empty_witness"
   ],
   "note": "All orders p against Mathlib's PiLp norm over RCLike. Missing because the code disagrees: p = 2 on a reversed view reads behind the vector (C56_reversed_witness), p = inf on an empty vector dereferences end() (C56_empty_witness)."
  },
  {
   "property": "C57",
   "status": "proved",
   "theorems": [
    "Nda.Linalg.C57_eigenelements",
    "Nda.Linalg.C57_hermitian",
    "Nda.Linalg.C57_unique",
    "Nda.Linalg.C57_eigenvalues",
    "Nda.Linalg.C57_heev_exists"
   ],
   "note": "Over RCLike (real and complex), relative to the assumed behaviour of syev/heev (HeevOK, shown satisfiable by C57_heev_exists). Non-Hermitian arguments: the Hermitian matrix with the same upper triangle. eigenvalues_in_place cannot be compiled for any argument and is not modelled."
  },
  {
   "property": "C58",
   "status": "proved",
   "theorems": [
    "Nda.Linalg.C58_gesvd",
    "Nda.Linalg.C58_gesvd_rejects",
    "Nda.Linalg.C58_unique",
    "Nda.Linalg.C58_gesvd_exists"
   ],
   "note": "Over RCLike, relative to the assumed behaviour of LAPACK gesvd (GesvdOK, shown satisfiable by C58_gesvd_exists). C58_unique: the singular values do not depend on the decomposition."
  },
  {
   "property": "C59",
   "status": "proved",
   "theorems": [
    "Nda.Linalg.C59_least_squares",
    "Nda.Linalg.C59_rejects",
    "Nda.Linalg.C59_no_columns"
   ],
   "note": "Exact arithmetic, relative to GesvdOK. The worker divides by every singular value: for linearly dependent columns the model reports an infinite intermediate result. C59_no_columns: a right-hand side without columns reads the maximum of an empty vector unless A is square."
  },
  {
   "property": "C60",
   "status": "proved",
   "theorems": [
    "Nda.Linalg.C60_hermitian",
    "Nda.Linalg.C60_dimension_required",
    "Nda.Linalg.C60_shape_checked",
    "Nda.Linalg.C60_strided_witness"
   ],
   "note": "Exact arithmetic, relative to GesvdOK. B must be contiguous in C order: reshape checks this in debug builds only, and C60_strided_witness shows what happens otherwise. The error returned is that of the stacked system, divided by sqrt(2 m)."
  },
  {
   "property": "C61",
   "status": "partial",
   "theorems": [
    "Nda.Linalg.C61_gtsv_partial",
    "Nda.Linalg.C61_gtsv_vector_partial",
    "Nda.Linalg.C61_gtsv_rejects",
    "Nda.Linalg.C61_gtsv_exists",
    "Nda.Linalg.C61_c_order_witness",
    "Nda.Linalg.C61_stride_witness"
   ],
   "note": "Relative to GtsvOK (shown satisfiable by C61_gtsv_exists). Proved for diagonals without gaps and a right-hand side that is a vector without gaps or a matrix in Fortran order without gaps. False of the code otherwise: C61_c_order_witness (C order), C61_stride_witness (diagonal with stride 2); the wrapper checks neither."
  },
  {
   "property": "C62",
   "status": "partial",
   "theorems": [
    "Nda.Linalg.C62_gelss_partial",
    "Nda.Linalg.C62_gelss_rejects",
    "Nda.Linalg.C62_gelss_exists",
    "Nda.Linalg.C62_short_witness"
   ],
   "note": "Exact arithmetic, relative to GelssOK (shown satisfiable by C62_gelss_exists), for right-hand sides with at least max(m, n) rows and rcond >= 0. With fewer rows than columns and a right-hand side of m rows, as documented, the solution is written below it: C62_short_witness."
  },
  {
   "property": "C63",
   "status": "partial",
   "theorems": [
    "Nda.AddressSpace.C63_combine",
    "Nda.AddressSpace.C63_accepted",
    "Nda.AddressSpace.C63_expression",
    "Nda.AddressSpace.C63_one_processor_partial",
    "Nda.AddressSpace.C63_commutes",
    "Nda.AddressSpace.C63_compatible",
    "Nda.AddressSpace.C63_same",
    "Nda.AddressSpace.C63_mixed_witness",
    "Nda.AddressSpace.C63_order_witness"
   ],
   "note": "Promotion and the exact condition for acceptance proved for expressions of any depth. One processor reaches all operands only if none is in unified memory (C63_mixed_witness); for three operands acceptance depends on their order (C63_order_witness)."
  },
  {
   "property": "C64",
   "status": "partial",
   "theorems": [
    "Nda.TestTools.C64_close_partial",
    "Nda.TestTools.C64_zero_partial",
    "Nda.TestTools.C64_equal",
    "Nda.TestTools.C64_numbers_partial",
    "Nda.TestTools.C64_nan_witness",
    "Nda.TestTools.C64_conversion_witness"
   ],
   "note": "Exact for magnitudes that are weakly ordered. False with NaN (C64_nan_witness) and for conversions that lose the difference (C64_conversion_witness)."
  },
  {
   "property": "C65",
   "status": "partial",
   "theorems": [
    "Nda.Print.C65_vector",
    "Nda.Print.C65_matrix_partial",
    "Nda.Print.C65_flat_partial",
    "Nda.Print.C65_print_partial",
    "Nda.Print.C65_tuple",
    "Nda.Print.C65_rows_witness",
    "Nda.Print.C65_shape_witness",
    "Nda.Print.C65_order_witness",
    "Nda.Print.C65_rank0_witness"
   ],
   "note": "Vectors, matrices with rows, and tuples: text determines shape and elements. Higher ranks: equal texts iff equal elements for arrays of the same shape and memory order; shape is lost (C65_shape_witness) and the text depends on the memory order (C65_order_witness). Matrices without rows lose their number of columns (C65_rows_witness)."
  },
  {
   "property": "C66",
   "status": "proved",
   "theorems": [
    "Nda.Arith.C66_slice",
    "Nda.Arith.C66_exists",
    "Nda.Arith.C66_value",
    "Nda.Arith.C66_chain",
    "Nda.Arith.C66_scalar_witness"
   ],
   "note": "By induction over expressions and chains; exact condition for the existence of a slice (C66_exists). C66_scalar_witness shows the rejected case."
  },
  {
   "property": "C67",
   "status": "partial",
   "theorems": [
    "Nda.Programs.C67_statement",
    "Nda.Programs.C67_program",
    "Nda.Programs.C67_no_exception",
    "Nda.Programs.C67_program_no_exception",
    "Nda.Programs.C67_determined",
    "Nda.Programs.C67_layout",
    "Nda.Programs.C67_start",
    "Nda.Programs.C67_product",
    "Nda.Programs.C67_product_program",
    "Nda.Programs.C67_product_no_exception",
    "Nda.Programs.C67_product_program_no_exception",
    "Nda.Programs.C67_product_determined"
   ],
   "note": "Proved by refinement for all programs, with products of matrices and vectors (C67_product: no condition on overlaps; extents positive and within int, operands in memory as in C41), whose statements meet Spec.OK: shapes agree, the target overlaps operands only at the same index (plain copies and swaps: not at all, see C19), and scalars are assigned only to non-empty views without negative fastest stride (see C18, where the code is wrong)."
  },
  {
   "property": "C68",
   "status": "proved",
   "theorems": [
    "Nda.Lifetime.C68_ownership",
    "Nda.Lifetime.C68_safe",
    "Nda.Lifetime.C68_usable",
    "Nda.Lifetime.C68_dropped",
    "Nda.Lifetime.C68_resized",
    "Nda.Lifetime.C68_copied",
    "Nda.Lifetime.C68_in_place",
    "Nda.Lifetime.C68_temporary",
    "Nda.Lifetime.C68_regular",
    "Nda.Lifetime.C68_moved"
   ],
   "note": "Ownership invariant for all programs; soundness of the rules (Spec.check, names only) by induction over expressions and programs; converses for temporaries, make_regular, drop, resize, copy assignment and moves. Arrays are on the heap and not empty; operands are evaluated from left to right."
  },
  {
   "property": "C69",
   "status": "proved",
   "theorems": [
    "Nda.Exc.C69_refines",
    "Nda.Exc.C69_leaks",
    "Nda.Exc.C69_only_resize",
    "Nda.Exc.C69_resize",
    "Nda.Exc.C69_resize_then_read",
    "Nda.Exc.C69_resize_back",
    "Nda.Exc.C69_copy_assign",
    "Nda.Exc.C69_copy_without_memory",
    "Nda.Exc.C69_quiet"
   ],
   "note": "Refinement of a machine without memory, by simulation and induction over programs, for every choice of failures; exact effects of a failed resize and of a failed copy assignment for all sizes and failure points; blocks counted. Heap storage that is not shared, contiguous layouts (only the size of the layout is kept), element types with constructors."
  },
  {
   "property": "C70",
   "status": "proved",
   "theorems": [
    "Nda.Clef.C70_text",
    "Nda.Clef.C70_printable",
    "Nda.Clef.C70_meaning",
    "Nda.Clef.C70_evaluation",
    "Nda.Clef.C70_integers",
    "Nda.Clef.C70_callee_witness"
   ],
   "note": "Unique readability by mutual induction over trees (prefix-freeness of the texts), for every way of writing leaves by distinct words; integers are such a way. The callee of a call or subscript is not printed (witness)."
  },
  {
   "property": "C71",
   "status": "partial",
   "theorems": [
    "Nda.Machine.C71_construct",
    "Nda.Machine.C71_construct_exact",
    "Nda.Machine.C71_empty_witness",
    "Nda.Machine.C71_chain_partial",
    "Nda.Machine.C71_step_witness",
    "Nda.Machine.C71_to_idx",
    "Nda.Machine.C71_bound_check_partial",
    "Nda.Machine.C71_check_witness",
    "Nda.Machine.C71_iterate_partial",
    "Nda.Machine.C71_bytes_partial",
    "Nda.Machine.C71_bytes_witness"
   ],
   "note": "Refinement of the unbounded model: every function of the layout is modelled a second time with checked 64-bit operations, and equals the unbounded one below 2^59 elements. Partial because the code has no overflow check: empty arrays with two large extents, ranges with long steps, range ends beyond 2^62, and byte counts from 2^64 on are witnesses."
  },
  {
   "property": "C72",
   "status": "partial",
   "theorems": [
    "Nda.Linalg.C72_getrf_exists",
    "Nda.Linalg.C72_getrf_square",
    "Nda.Linalg.C72_fortran_block",
    "Nda.Linalg.C72_c_order_block",
    "Nda.Linalg.C72_getrf_partial",
    "Nda.Linalg.C72_pivot_witness"
   ],
   "note": "All shapes in Fortran order, by refinement to a contract for LAPACK that is shown to be satisfiable (Gaussian elimination of rectangular matrices). In C order the call names the block of the view if and only if the matrix is square (C72_c_order_block): for every other shape the leading dimension is illegal or the block is not that of the view; nothing in getrf checks this."
  },
  {
   "property": "C73",
   "status": "proved",
   "theorems": [
    "Nda.StdArray.C73_arithmetic",
    "Nda.StdArray.C73_convert",
    "Nda.StdArray.C73_append",
    "Nda.StdArray.C73_pop",
    "Nda.StdArray.C73_front_pop",
    "Nda.StdArray.C73_join",
    "Nda.StdArray.C73_round_trips",
    "Nda.StdArray.C73_sum",
    "Nda.StdArray.C73_product",
    "Nda.StdArray.C73_dot_product",
    "Nda.StdArray.C73_negative_witness"
   ],
   "note": "The loops of the code, with checked reads and writes, refine the list functions of the library."
  },
  {
   "property": "C74",
   "status": "partial",
   "theorems": [
    "Nda.Messages.C74_message_partial",
    "Nda.Messages.C74_copy_loses",
    "Nda.Messages.C74_thrown",
    "Nda.Messages.C74_assert",
    "Nda.Messages.C74_copy_witness"
   ],
   "note": "Simulation over all programs that do not write to a copy of an exception with a text. Partial because the copy constructor makes a stringstream that writes at its beginning: C74_copy_loses shows that text is lost whenever a copy is written to."
  },
  {
   "property": "C75",
   "status": "proved",
   "theorems": [
    "Nda.Divide.C75_divide",
    "Nda.Divide.C75_divide_multiply",
    "Nda.Divide.C75_multiply_divide",
    "Nda.Divide.C75_scalar"
   ],
   "note": "Relative to the contracts of getrf and getri for sizes above 3, for elements of a field; sizes are positive and within the range of int."
  },
  {
   "property": "C76",
   "status": "partial",
   "theorems": [
    "Nda.Factories.C76_zeros",
    "Nda.Factories.C76_ones",
    "Nda.Factories.C76_ones_matrix",
    "Nda.Factories.C76_free",
    "Nda.Factories.C76_arange",
    "Nda.Factories.C76_rand_real",
    "Nda.Factories.C76_rand_complex",
    "Nda.Factories.C76_rand_range",
    "Nda.Factories.C76_rand_float_witness",
    "Nda.Factories.C76_rand_calls"
   ],
   "note": "All shapes, orders and sequences of calls; the generator is a stream of samples. Partial because the claim fails for ones of a matrix (it is the identity, C76_ones_matrix), for the range of float samples (rounding gives 1), and samples of rank 0 come from a generator that is never seeded (C76_rand_calls: the same numbers in every run)."
  },
  {
   "property": "C77",
   "status": "partial",
   "theorems": [
    "Nda.Containers.C77_shape_view",
    "Nda.Containers.C77_range_view",
    "Nda.Containers.C77_equal",
    "Nda.Containers.C77_assign",
    "Nda.Containers.C77_size_partial",
    "Nda.Containers.C77_mapped_size_witness",
    "Nda.Containers.C77_memset",
    "Nda.Containers.C77_memset2D"
   ],
   "note": "Everything but the size of expressions with mapped functions, which does not compile (C77_mapped_size_witness)."
  },
  {
   "property": "C78",
   "status": "partial",
   "theorems": [
    "Nda.DeviceErrors.C78_reported_partial",
    "Nda.DeviceErrors.C78_returned",
    "Nda.DeviceErrors.C78_lost_witness",
    "Nda.DeviceErrors.C78_unsynchronised"
   ],
   "note": "All sequences of calls without the functions whose status is dropped: axpy and copy of real vectors, MAGMA's batched gemm, the query for work space of gesvd (C78_lost_witness)."
  },
  {
   "property": "C79",
   "status": "partial",
   "theorems": [
    "Nda.Scalars.C79_pow_signed",
    "Nda.Scalars.C79_pow_unsigned",
    "Nda.Scalars.C79_pow_narrow",
    "Nda.Scalars.C79_pow_negative",
    "Nda.Scalars.C79_pow_witness",
    "Nda.Scalars.C79_complex",
    "Nda.Scalars.C79_abs2_positive",
    "Nda.Scalars.C79_mixed"
   ],
   "note": "pow for all signed and unsigned types of at least 32 bits and signed narrow types, all exponents >= 0; complex identities in every commutative ring. The code gets the rest wrong: negative exponents give 1, 16-bit unsigned numbers overflow in int (C79_pow_witness)."
  },
  {
   "property": "C80",
   "status": "partial",
   "theorems": [
    "Nda.Print.C80_expression_partial",
    "Nda.Print.C80_mapped_witness",
    "Nda.Print.C80_layout"
   ],
   "note": "Layouts: C80_layout, without restriction. Expressions: C80_expression_partial, unique readability by induction over pairs of trees. Missing because the code does not print it: functions of elements are all printed as \"mapped\" (C80_mapped_witness), adapters only with their shape, and arrays of rank 3 and more or without rows as in C65."
  },
  {
   "property": "C81",
   "status": "partial",
   "theorems": [
    "Nda.Constness.C81_const_view",
    "Nda.Constness.C81_const_array_partial",
    "Nda.Constness.C81_slice_witness",
    "Nda.Constness.C81_element_witness",
    "Nda.Constness.C81_construct_witness",
    "Nda.Constness.C81_make_view_witness",
    "Nda.Constness.C81_exact"
   ],
   "note": "Views of const elements: C81_const_view, all programs. Const arrays: false in the code for subscripts, slices, explicitly constructed views and make_array_view/make_matrix_view (C81_element_witness, C81_slice_witness, C81_construct_witness, C81_make_view_witness); C81_const_array_partial for programs without these four, and C81_exact: exactly these four, applied to a const array, lose the qualifier."
  },
  {
   "property": "C82",
   "status": "partial",
   "theorems": [
    "Nda.Empty.C82_array_partial",
    "Nda.Empty.C82_view_partial",
    "Nda.Empty.C82_moved_witness",
    "Nda.Empty.C82_view_witness",
    "Nda.Empty.C82_null_witness"
   ],
   "note": "C82_array_partial: arrays with heap storage, all histories, false only for moved-from arrays (C82_moved_witness). C82_view_partial: views with an element are never said to be empty, and views said to be empty have none; false in the code for views without elements of an array with elements (C82_view_witness); slices of an array without elements may add an offset to a null pointer (C82_null_witness)."
  },
  {
   "property": "C83",
   "status": "proved",
   "theorems": [
    "Nda.Programs.C83_program",
    "Nda.Programs.C83_ends",
    "Nda.Programs.C83_layout",
    "Nda.Programs.C83_max",
    "Nda.Programs.C83_determined"
   ],
   "note": "C83_program (safety and correctness, invariants for loops), C83_ends (termination is preserved), C83_determined, C83_layout (same decisions in other memory orders), C83_max (max_element composed of the reads that algorithms.hpp does). Local arrays (zeros, or from an expression) may have shapes computed from values read and live until the end of their block; arrays are not resized in these programs (C12, C66); element arithmetic is that of a commutative ring with a division operation, as in C67 with products."
  },
  {
   "property": "C84",
   "status": "partial",
   "theorems": [
    "Nda.Align.C84_heap",
    "Nda.Align.C84_bucket",
    "Nda.Align.C84_inline_partial",
    "Nda.Align.C84_stack_witness",
    "Nda.Align.C84_inside"
   ],
   "note": "C84_heap (blocks of the allocators, all views), C84_bucket (exact condition on the size of chunks), C84_inline_partial (stack arrays and small sso arrays: exact condition, alignment dividing 8), C84_inside. Partial because the alignas of the handles is commented out: C84_stack_witness (long double)."
  },
  {
   "property": "C85",
   "status": "partial",
   "theorems": [
    "Nda.Mem.C85_sso_partial",
    "Nda.Mem.C85_leaks",
    "Nda.Mem.C85_copy_witness",
    "Nda.Mem.C85_stack_partial",
    "Nda.Mem.C85_stack_witness"
   ],
   "note": "C85_sso_partial: simulation of all programs (without the operations excluded in C29) for every set of failing calls, with the exact list of lost blocks and elements; C85_leaks: what is left at the end. C85_stack_partial for handle_stack. Partial because the code disagrees: handle_sso(size) loses its block (C85_leaks), copy constructors of handle_sso and handle_stack(size) delegate, so that the destructor destroys elements that were not made (C85_copy_witness, C85_stack_witness)."
  },
  {
   "property": "C86",
   "status": "proved",
   "theorems": [
    "Nda.Threads.C86_threads",
    "Nda.Threads.C86_ends",
    "Nda.Threads.C86_completes",
    "Nda.Threads.C86_alone",
    "Nda.Threads.C86_any_order",
    "Nda.Threads.C86_forkjoin",
    "Nda.Threads.C86_forkjoin_ends",
    "Nda.Threads.C86_variables",
    "Nda.Threads.C86_rows",
    "Nda.Threads.C86_block",
    "Nda.Threads.C86_blocks",
    "Nda.Threads.C86_race_witness",
    "Nda.Threads.C86_rand_witness",
    "Nda.Threads.C86_rand_alone",
    "Nda.Threads.C86_rand_race"
   ],
   "note": "C86_threads (no race, progress, result), C86_completes, C86_ends (no infinite execution), C86_any_order, C86_forkjoin, C86_forkjoin_ends; C86_alone: access by access the code does what the sequential model does. C86_variables, C86_rows, C86_block(s): places that are disjoint. C86_race_witness: the hypothesis is needed. C86_rand_witness: basic_array::rand has a static generator and races even on different arrays. deep_swap is not included (it copies through new memory). Loads and stores of elements are single steps (sequential consistency; without races the C++ memory model gives the same)."
  },
  {
   "property": "C87",
   "status": "partial",
   "theorems": [
    "Nda.Python.C87_accept",
    "Nda.Python.C87_values_partial",
    "Nda.Python.C87_array_partial",
    "Nda.Python.C87_objects",
    "Nda.Python.C87_reversed_witness",
    "Nda.Python.C87_fortran_witness"
   ],
   "note": "C87_accept, C87_values_partial, C87_array_partial (the constructed array, with C22), C87_objects. Partial because the code disagrees: a numpy array of the right type in reverse order is accepted, not copied and read outside its memory (C87_reversed_witness); the same for strides that are not multiples of the element size; object arrays in Fortran order are refused (C87_fortran_witness)."
  },
  {
   "property": "C88",
   "status": "partial",
   "theorems": [
    "Nda.H5.C88_write_whole_partial",
    "Nda.H5.C88_write_slice_partial",
    "Nda.H5.C88_read_whole_partial",
    "Nda.H5.C88_read_slice_partial",
    "Nda.H5.C88_round_trip_partial",
    "Nda.H5.C88_real_into_complex",
    "Nda.H5.C88_reversed_witness",
    "Nda.H5.C88_shape_unchecked_witness",
    "Nda.H5.C88_backwards_write"
   ],
   "note": "C88_write_whole_partial, C88_write_slice_partial, C88_read_whole_partial, C88_read_slice_partial, C88_round_trip_partial, C88_real_into_complex. Partial because the code disagrees: views in C order with reversed rows pass the contiguity test, and reading into them writes beyond the array (C88_reversed_witness); a dataset of another shape read into a view with gaps is not rejected (C88_shape_unchecked_witness); slices with negative steps or last value -1 (C37). C88_backwards_write: writing any view with a backward dimension that passes the contiguity test is undefined."
  },
  {
   "property": "C89",
   "status": "partial",
   "theorems": [
    "Nda.Mem.C89_history_partial",
    "Nda.Mem.C89_convert_partial",
    "Nda.Mem.C89_array_partial",
    "Nda.Mem.C89_moved_witness"
   ],
   "note": "C89_history_partial, C89_convert_partial, C89_array_partial. Partial because the code disagrees: the exceptions of C28 and C29 (moved-from shared handles, self-assignment and inline moves of small-buffer handles, stack handles of non-trivial types), and a conversion of a shared handle whose share was moved away reads released memory (C89_moved_witness)."
  },
  {
   "property": "C90",
   "status": "partial",
   "theorems": [
    "Nda.SharedThreads.C90_safe_partial",
    "Nda.SharedThreads.C90_counts_partial",
    "Nda.SharedThreads.C90_released_partial",
    "Nda.SharedThreads.C90_completes_partial",
    "Nda.SharedThreads.C90_race",
    "Nda.SharedThreads.C90_release_witness"
   ],
   "note": "C90_safe_partial, C90_counts_partial, C90_released_partial, C90_completes_partial for all threads that follow the rule: an array that was not shared before is shared in one thread only, an array destroyed in a thread is used in no other. Partial because the code disagrees without the rule: get_sptr sets a mutable member of a const array without synchronisation, C90_race (in every state with two threads about to share such an array) and C90_release_witness (the block is released while still owned, even if accesses were atomic)."
  },
  {
   "property": "C91",
   "status": "partial",
   "theorems": [
    "Nda.Alloc.C91_exclusive_partial",
    "Nda.Alloc.C91_private_partial",
    "Nda.Alloc.C91_no_abort_partial",
    "Nda.Alloc.C91_mallocator",
    "Nda.Alloc.C91_test_allocator_partial",
    "Nda.Alloc.C91_bucket_race",
    "Nda.Alloc.C91_multi_bucket_race",
    "Nda.Alloc.C91_last_chunk_race",
    "Nda.Alloc.C91_leak_check_race",
    "Nda.Alloc.C91_stats_race"
   ],
   "note": "Proved without restriction for the default allocator (C91_mallocator). For all other allocators, and all combinations, proved for executions in which the requests and releases of different threads do not overlap in time, while writes to blocks may take place at any time (C91_exclusive_partial, C91_private_partial, C91_no_abort_partial, C91_test_allocator_partial). Partial because the code disagrees otherwise: flags, memory_used and hist are plain variables; C91_bucket_race and C91_multi_bucket_race (in every state with a free chunk both threads can get the same chunk), C91_last_chunk_race, C91_leak_check_race (false abort), C91_stats_race."
  },
  {
   "property": "C92",
   "status": "partial",
   "theorems": [
    "Nda.Spaces.C92_statement_partial",
    "Nda.Spaces.C92_program_partial",
    "Nda.Spaces.C92_no_device",
    "Nda.Spaces.C92_same_as_host",
    "Nda.Spaces.C92_transfer",
    "Nda.Spaces.C92_round_trip",
    "Nda.Spaces.C92_fill_device",
    "Nda.Spaces.C92_fill_device_witness",
    "Nda.Spaces.C92_mixed_witness",
    "Nda.Spaces.C92_terminate_witness",
    "Nda.Spaces.C92_zeros_unified_witness",
    "Nda.Spaces.C92_mismatch"
   ],
   "note": "Proved for all programs whose statements keep the side conditions MemOK (C92_statement_partial, C92_program_partial), hence the same arrays as on the host (C92_same_as_host); without device arrays they run to the end (C92_no_device); transfers of views with at most one gap always succeed (C92_transfer, C92_round_trip). Partial because the code disagrees otherwise: no check for scalars assigned to device arrays (C92_fill_device, for all arrays and scalars), Device op Unified is computed on the processor (C92_mixed_witness), errors leave noexcept functions (C92_terminate_witness), zeros<T, Unified> gives device memory (C92_zeros_unified_witness), block layouts of C20."
  },
  {
   "property": "C93",
   "status": "partial",
   "theorems": [
    "Nda.Spmd.C93_programs",
    "Nda.Spmd.C93_outcome",
    "Nda.Spmd.C93_never_waits",
    "Nda.Spmd.C93_no_mpi",
    "Nda.Spmd.C93_gather_elements",
    "Nda.Spmd.C93_scatter_elements",
    "Nda.Spmd.C93_reduce_view_hangs",
    "Nda.Spmd.C93_gap_hangs",
    "Nda.Spmd.C93_broadcast_hangs",
    "Nda.Spmd.C93_debug_hangs",
    "Nda.Spmd.C93_terminates",
    "Nda.Spmd.C93_self_gather",
    "Nda.Spmd.C93_cells",
    "Nda.Spmd.C93_cells_hang",
    "Nda.Spmd.C93_distributed_map",
    "Nda.Spmd.C93_round_trip",
    "Nda.Spmd.C93_gather_broadcast",
    "Nda.Spmd.C93_distributed_rows",
    "Nda.Spmd.C93_distributed_sum"
   ],
   "note": "Proved for all programs that have a meaning (C93_programs, unique outcome C93_outcome, C93_never_waits, without MPI C93_no_mpi), with the elements gathered and scattered (C93_gather_elements, C93_scatter_elements), scatter-compute-gather (C93_distributed_map, row by row C93_distributed_rows, C93_round_trip), distributed sums (C93_distributed_sum), gather and broadcast (C93_gather_broadcast), arrays of arrays (C93_cells). Partial because errors are not agreed on by the processes: a wrong shape or a gap on one process leaves the others waiting for ever (C93_reduce_view_hangs, C93_gap_hangs, C93_broadcast_hangs, C93_cells_hang), errors in assignments terminate the program (C93_terminates), A = all_gather(A) is undefined (C93_self_gather), debug mode hangs where release works (C93_debug_hangs). Row-major layouts; sizes below 2^31; MPI by contract."
  },
  {
   "property": "C94",
   "status": "partial",
   "theorems": [
    "Nda.Types.C94_kinds",
    "Nda.Types.C94_elements",
    "Nda.Types.C94_operands",
    "Nda.Types.C94_call",
    "Nda.Types.C94_parts",
    "Nda.Types.C94_part_kinds",
    "Nda.Types.C94_sum_partial",
    "Nda.Types.C94_product",
    "Nda.Types.C94_quotient",
    "Nda.Types.C94_numbers",
    "Nda.Types.C94_mapped",
    "Nda.Types.C94_transform",
    "Nda.Types.C94_regular",
    "Nda.Types.C94_mixing_witness",
    "Nda.Types.C94_void",
    "Nda.Types.C94_void_witness",
    "Nda.Types.C94_matvec_witness",
    "Nda.Types.C94_map_witness",
    "Nda.Types.C94_bracket_partial",
    "Nda.Types.C94_bracket_witness",
    "Nda.Types.C94_size_partial",
    "Nda.Types.C94_norm_witness",
    "Nda.Types.C94_ellipsis_witness",
    "Nda.Types.C94_agrees",
    "Nda.Types.C94_agrees_parts"
   ],
   "note": "Proved for all expressions that can be written (Reach): C94_kinds, C94_elements, C94_operands, C94_call, C94_parts (iff), C94_part_kinds, C94_product and C94_quotient (iff), C94_numbers, C94_mapped, C94_transform, C94_regular; agreement with the expressions evaluated and sliced in C26 and C66: C94_agrees, C94_agrees_parts. Partial because sums of arrays and matrices compile (C94_sum_partial, C94_mixing_witness), a product whose left factor has neither array, matrix nor vector algebra is void (C94_void, C94_void_witness, C94_matvec_witness), in release mode functions map onto arrays of different ranks (C94_map_witness), signs have no operator[] (C94_bracket_partial, C94_bracket_witness), mapped functions have no size and no norm (C94_size_partial, C94_norm_witness), and an empty ellipsis is not accepted by mapped functions (C94_ellipsis_witness). One type of numbers; value types, const, memory orders not modelled."
  },
  {
   "property": "C95",
   "status": "proved",
   "theorems": [
    "Nda.Arr.C95_values",
    "Nda.Arr.C95_independent",
    "Nda.Arr.C95_copy",
    "Nda.Arr.C95_swap",
    "Nda.Arr.C95_lazy",
    "Nda.Arr.C95_overlap_witness",
    "Nda.Arr.C95_self_witness"
   ],
   "note": "Simulation of the memory of the program (blocks, handles, layouts, loops over indices) by values: C95_values for all programs; consequences C95_independent, C95_copy, C95_swap, C95_lazy. The condition on right-hand sides is needed (C95_overlap_witness: a(range(1,4)) = a(range(0,3)) makes 1,1,1,1). Move assignment of an array to itself loses its elements (C95_self_witness); moved-from arrays keep their shape and have no elements (C22). Heap storage, one value type per program (arrays of any ranks and stride orders together); views of a resized array are not used after the resize. Assignments are elementwise loops; plain copies of evenly spaced views go through the linear loop of the code, the same by C17 for layouts that keep their promises (C07)."
  },
  {
   "property": "C96",
   "status": "proved",
   "theorems": [
    "Nda.Arr.C96_references",
    "Nda.Arr.C96_lifetime",
    "Nda.Arr.C96_copy_assignment_invalidates",
    "Nda.Arr.C96_expression_assignment_keeps",
    "Nda.Arr.C96_moves_take_views_along"
   ],
   "note": "Simulation of blocks, handles, layouts and borrowed pointers by values, identities of storage and references: C96_references for all programs; C96_lifetime says for every statement which array has the storage of a view afterwards, and that views whose storage none has give no element and cannot be assigned to; C96_copy_assignment_invalidates, C96_expression_assignment_keeps, C96_moves_take_views_along are instances. Views are used only with the shape the array had when they were made (a resize to another shape of the same number of elements keeps the storage, but such views are not used). Heap storage, one value type per program, default accessor. Assignments are elementwise loops; plain copies of evenly spaced views go through the linear loop of the code, the same by C17 for layouts that keep their promises (C07)."
  },
  {
   "property": "C97",
   "status": "proved",
   "theorems": [
    "Nda.Mem.NoRelease.C97_collected",
    "Nda.Mem.NoRelease.C97_kept_alive"
   ],
   "note": "Simulation of blocks, control blocks and counts by a machine without them that never releases anything (Spec.Collected): C97_collected; C97_kept_alive: elements seen through an owner are unchanged by any further statements that do not change that variable and write nothing. As in C28, element accesses through moved-from shared handles are excluded: those are uses after release (C28_moved_shared_witness)."
  },
  {
   "property": "C98",
   "status": "partial",
   "theorems": [
    "Nda.SmallArr.C98_values_partial",
    "Nda.SmallArr.C98_same_partial",
    "Nda.SmallArr.C98_storage_partial",
    "Nda.SmallArr.C98_self_assign_witness"
   ],
   "note": "C98_values_partial, C98_same_partial (same shapes and elements as on the heap), C98_storage_partial (inline iff at most K elements). Missing: copy assignment to itself of an array with more than K elements, where the claim is false (C98_self_assign_witness): handle_sso::operator=(handle_sso const &) releases the storage before copying it. Element types with trivial operations only; elements of class type in such handles are C29."
  },
  {
   "property": "C99",
   "status": "proved",
   "theorems": [
    "Nda.Num.C99_programs",
    "Nda.Num.C99_temporaries",
    "Nda.Num.C99_overlap_witness",
    "Nda.Num.C99_reversed_witness"
   ],
   "note": "C99_programs, C99_temporaries (lazy = with temporaries). Condition on aliasing: an element of the target that the right-hand side reads for an index is not assigned to, or it is the one at this index; C99_overlap_witness shows what happens otherwise. For d = e and d op= e the operands of array d have its shape already. Scalars are assigned with the loops of fill_with_scalar and the diagonal loop of assign_from_scalar; the condition on the view is that of C18 (C99_reversed_witness: a(range(3,-1,-1)) = 5 assigns nothing). Expressions are evaluated elementwise in the loops of assign_from_ndarray (C04, C05, C95); products of matrices are C17, C49. Plain copies of evenly spaced views go through the linear loop of the code, the same by C17 for layouts that keep their promises (C07)."
  },
  {
   "property": "C100",
   "status": "partial",
   "theorems": [
    "Nda.StackArr.C100_values_partial",
    "Nda.StackArr.C100_heap_partial",
    "Nda.StackArr.C100_move_partial",
    "Nda.StackArr.C100_nontrivial_witness"
   ],
   "note": "C100_values_partial, C100_heap_partial (same elements as heap arrays when moves are copies), C100_move_partial (the source of a move keeps its elements). Partial because the code disagrees for non-trivial element types: default construction makes no elements but the destructor destroys them, and assignment of an array of the same type makes elements on top of elements (C100_nontrivial_witness)."
  },
  {
   "property": "C101",
   "status": "partial",
   "theorems": [
    "Nda.Mem.SmallArr.C101_refines_partial",
    "Nda.Mem.SmallArr.C101_only_resize",
    "Nda.Mem.SmallArr.C101_resize_throws",
    "Nda.Mem.SmallArr.C101_small_resize",
    "Nda.Mem.SmallArr.C101_ints",
    "Nda.Mem.SmallArr.C101_heap",
    "Nda.Mem.SmallArr.C101_witness"
   ],
   "note": "C101_refines_partial, C101_only_resize, C101_resize_throws (new shape, old elements), C101_small_resize (elements lost without any exception), C101_ints (the constructor from integers, elements made twice and lost), C101_heap (same sizes and elements as on the heap). Partial because the code disagrees: moves out of buffers leave elements that nobody destroys, self-assignment is undefined, copies that throw are undefined when the stack is unwound (C101_witness)."
  },
  {
   "property": "C102",
   "status": "partial",
   "theorems": [
    "Nda.Mem.StackArr.C102_refines_partial",
    "Nda.Mem.StackArr.C102_only_copy_assignment",
    "Nda.Mem.StackArr.C102_assign",
    "Nda.Mem.StackArr.C102_default"
   ],
   "note": "C102_refines_partial, C102_only_copy_assignment, C102_assign (assignment of whole arrays is undefined), C102_default (default-constructed arrays have no elements, their destructor is undefined). Partial because the code disagrees: for non-trivial element types, arrays from the default constructor have no elements but a destructor that destroys them."
  },
  {
   "property": "C103",
   "status": "partial",
   "theorems": [
    "Nda.Mem.C103_convert_partial",
    "Nda.Mem.C103_throw",
    "Nda.Mem.C103_array_throw",
    "Nda.Mem.C103_history_partial"
   ],
   "note": "C103_convert_partial for conversions in which no copy throws, C103_history_partial for whole programs with all operations on handles. Partial because the code disagrees in all other cases: C103_throw (undefined behaviour for all sources, targets and failing copies), C103_array_throw (the program is terminated, after undefined behaviour if the stack is unwound)."
  }
 ]
}