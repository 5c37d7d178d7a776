{"id": "C01", "title": "Index permutations form a faithful group action", "statement": "Applying an index permutation to a tuple and then its inverse gives the tuple back, composing permutations and applying the composite equals applying them one after the other, inverting is a true inverse, and the validity test accepts exactly the permutations of 0..R-1.", "quantifier": "all ranks, all permutations of that rank, all tuples", "why_tests_cant": "There are R! permutations for each rank and R is unbounded; a test only enumerates a few ranks.", "anchors": ["c++/nda/layout/permutation.hpp: apply, apply_inverse, compose, inverse, is_valid, identity, reverse_identity, transposition, cycle"]}
{"id": "C02", "title": "Encoding a permutation or static shape in an integer loses nothing", "statement": "Decoding an encoded integer tuple returns the tuple, so two layouts (stride order or static extents) that differ are never confused; the ranks and entries for which this holds are exactly those the library accepts.", "quantifier": "all tuples of entries 0..15 of every supported rank", "why_tests_cant": "16^R tuples per rank; the boundary where the shift is no longer defined is never hit by tests at ranks up to 6.", "anchors": ["c++/nda/layout/permutation.hpp: encode, decode", "c++/nda/declarations.hpp: static_extents"]}
{"id": "C03", "title": "A freshly constructed array gives every element its own memory slot", "statement": "In an array built from a shape, for any memory order, every in-range index tuple designates a slot inside the allocated storage, two different tuples designate different slots, and every slot is designated by some tuple.", "quantifier": "all ranks, all shapes (including zero and one extents), all memory orders", "why_tests_cant": "Shapes and ranks are unbounded; a collision or gap may only appear for particular extents.", "anchors": ["c++/nda/layout/idx_map.hpp: idx_map, compute_strides_contiguous, operator(), size"]}
{"id": "C04", "title": "Linear position and index tuple determine each other", "statement": "For an array with contiguous storage in any memory order, converting an index tuple to its linear position and back returns the tuple, and converting any linear position to a tuple and back returns the position.", "quantifier": "all ranks, shapes, memory orders, index tuples and linear positions", "why_tests_cant": "The conversion uses successive remainders by the strides; errors show only for specific combinations of extents and orders.", "anchors": ["c++/nda/layout/idx_map.hpp: to_idx, operator()"]}
{"id": "C05", "title": "No chain of view operations ever reaches outside the parent storage or aliases two indices", "statement": "Starting from an owning array, after any finite sequence of in-range slicing, index permutation, and adding unit dimensions, every in-range index tuple of the resulting view designates a slot inside the original storage, and distinct tuples designate distinct slots.", "quantifier": "all arrays, all finite sequences of view operations, all index tuples", "why_tests_cant": "The set of sequences is infinite and each step depends on the strides left by the previous ones.", "anchors": ["c++/nda/layout/slice_static.hpp: slice_stride_order", "c++/nda/layout/idx_map.hpp: transpose, slice", "c++/nda/layout_transforms.hpp"]}
{"id": "C06", "title": "Slicing selects exactly the elements the arguments name", "statement": "Element p of a(args...) is the element of a whose coordinates are read off the arguments: an integer fixes the coordinate, a range gives first + step*p, a full range gives p, and an ellipsis stands for as many full ranges as are missing; the extents of the slice are the lengths of those selections.", "quantifier": "all layouts, all argument lists accepted by the call operator (with or without an ellipsis at any position), all index tuples of the slice", "why_tests_cant": "The number of argument patterns is exponential in the rank and the ellipsis can expand to any number of dimensions, including none.", "anchors": ["c++/nda/layout/slice_static.hpp: slice_stride_order_impl, q_of_n, n_of_p_map, q_of_p_map, get_offset, get_l, get_s", "c++/nda/_impl_basic_array_view_common.hpp: call"]}
{"id": "C07", "title": "Compile-time layout guarantees always hold at run time", "statement": "Whenever a view's type promises that its elements are contiguous, evenly spaced, or have unit fastest stride, the run-time strides satisfy that promise, so element access and loops that rely on it touch the right elements.", "quantifier": "all arrays and all finite sequences of slicing, permutation and reinterpretation operations", "why_tests_cant": "The promise is computed once per type by a classification of the argument pattern; a wrong class is only visible for patterns and extents a test did not choose.", "anchors": ["c++/nda/layout/slice_static.hpp: slice_layout_prop", "c++/nda/traits.hpp: layout_prop_e", "c++/nda/layout/idx_map.hpp: myget, call_impl, min_stride", "c++/nda/layout_transforms.hpp: reinterpret_add_fast_dims_of_size_one"]}
{"id": "C08", "title": "The memory order recorded for a view is a valid order of its strides", "statement": "After any in-range slice of an array whose recorded memory order sorts its strides, the recorded memory order of the slice is a permutation of its dimensions and sorts the strides of the slice (for dimensions of extent greater than one).", "quantifier": "all regular layouts, all in-range argument lists", "why_tests_cant": "Depends on the interplay of steps, extents and order for every rank.", "anchors": ["c++/nda/layout/slice_static.hpp: sliced_mem_stride_order", "c++/nda/layout/idx_map.hpp: is_stride_order_valid"]}
{"id": "C09", "title": "Index permutation of a view is pure relabelling and composes", "statement": "Permuting the indices of an array gives a view whose element at the permuted tuple is the original element at the original tuple, whose shape is the permuted shape, and permuting by P then Q equals permuting once by the product; the matrix transpose applied twice is the identity.", "quantifier": "all layouts, ranks and permutations", "why_tests_cant": "R! permutations for each rank and every stride pattern.", "anchors": ["c++/nda/layout/idx_map.hpp: transpose", "c++/nda/layout_transforms.hpp: permuted_indices_view, transpose, transposed_view"]}
{"id": "C10", "title": "Reshaping keeps the sequence of elements in memory order", "statement": "Reshaping or flattening contiguous data to any shape with the same number of elements gives a view whose k-th element in memory order is the k-th element of the original in memory order, and reshaping back returns the original indexing.", "quantifier": "all contiguous layouts, all compatible target shapes of any rank", "why_tests_cant": "Unbounded shapes; depends on the memory order of source and target.", "anchors": ["c++/nda/layout_transforms.hpp: reshape, flatten, map_layout_transform"]}
{"id": "C11", "title": "The contiguity test answers correctly", "statement": "The run-time query whether an array's elements fill one gap-free block starting at its first element returns true exactly when they do, so operations guarded by it (reshape, file output, message passing, outer product) see exactly the array's elements.", "quantifier": "all layouts reachable through the public API", "why_tests_cant": "The test compares only one product with the size; whether that suffices depends on the sign and order of all strides.", "anchors": ["c++/nda/layout/idx_map.hpp: is_contiguous, is_strided_1d"]}
{"id": "C12", "title": "Adding unit fast dimensions does not change the data seen", "statement": "Viewing an array with N extra trailing dimensions of extent one shows the same elements: element (i..., 0,...,0) is element (i...), and iterating over or assigning to the new view visits the same memory as the original.", "quantifier": "all layouts, all N", "why_tests_cant": "The defect depends on the combination of the layout class and its stride.", "anchors": ["c++/nda/layout_transforms.hpp: reinterpret_add_fast_dims_of_size_one"]}
{"id": "C13", "title": "Grouping indices merges dimensions without moving data", "statement": "Grouping dimensions that are adjacent in memory gives a view with one dimension per group whose extent is the product of the group's extents, and whose element at the merged tuple is the original element; the number of elements is unchanged.", "quantifier": "all contiguous layouts, all partitions of the dimensions into memory-adjacent groups", "why_tests_cant": "Exponentially many partitions for each rank and memory order.", "anchors": ["c++/nda/group_indices.hpp: group_indices_layout, stride_order_of_grouped_idx_map, is_partition_of_indices", "c++/nda/layout_transforms.hpp: group_indices_view"]}
{"id": "C14", "title": "Bounds checking is exact", "statement": "With bounds checking on, a call is rejected exactly when some integer argument is outside its dimension or some non-empty range argument reaches outside its dimension, wherever an ellipsis stands; an accepted call never yields a view that reaches outside the array.", "quantifier": "all shapes, all argument lists", "why_tests_cant": "All integers and ranges (including negative bounds, steps and the to-the-end convention).", "anchors": ["c++/nda/layout/bound_check_worker.hpp: bound_check_worker", "c++/nda/layout/slice_static.hpp: get_l"]}
{"id": "C15", "title": "Looping over a shape visits every index exactly once, in order", "statement": "Calling a function for each index of a shape calls it on every in-range tuple exactly once, in lexicographic order, and never when some extent is zero.", "quantifier": "all ranks and shapes", "why_tests_cant": "Unbounded ranks and extents.", "anchors": ["c++/nda/layout/for_each.hpp: for_each, for_each_static, for_each_static_impl"]}
{"id": "C16", "title": "Iterating over an array visits every element exactly once, in memory order", "statement": "A range-for over any array or view dereferences each of its elements exactly once, in memory order, and terminates; an empty array yields no element.", "quantifier": "all layouts of any rank, including those with zero extents", "why_tests_cant": "The traversal is a carry chain through nested counters whose behaviour depends on which extents are zero or one.", "anchors": ["c++/nda/iterators.hpp: grid_iterator, array_iterator", "c++/nda/_impl_basic_array_view_common.hpp: make_iterator"]}
{"id": "C17", "title": "Assigning an array copies every element and nothing else", "statement": "After assigning b to an array or view a of the same shape that shares no memory with b, each element of a equals the corresponding element of b, b is unchanged and all memory outside a is unchanged, whichever internal copy path is taken.", "quantifier": "all shapes, all pairs of layouts, all contents of memory", "why_tests_cant": "Several copy paths are selected by layout class; the product of layout pairs and shapes is unbounded.", "anchors": ["c++/nda/_impl_basic_array_view_common.hpp: assign_from_ndarray", "c++/nda/basic_array_view.hpp: operator=", "c++/nda/basic_array.hpp: operator="]}
{"id": "C18", "title": "Assigning a scalar sets every element and nothing else", "statement": "After assigning a scalar to an array or view, every element equals the scalar and all memory outside the view is unchanged; for a matrix the diagonal equals the scalar and the rest is zero.", "quantifier": "all layouts reachable through the public API, all scalars, all contents of memory", "why_tests_cant": "Depends on sign of strides and zero extents which tests do not combine.", "anchors": ["c++/nda/_impl_basic_array_view_common.hpp: fill_with_scalar, assign_from_scalar"]}
{"id": "C19", "title": "Overlapping assignment behaves as if the right side were read first", "statement": "Assigning to an array an expression that reads the same array gives the result computed from the values before the assignment when each element only depends on the same-position element of the target; the cases where this fails (shifted views, transposed self-assignment, resizing) are exactly those with an earlier-written location read later.", "quantifier": "all shapes, all overlap patterns", "why_tests_cant": "The outcome depends on the traversal order and on the overlap pattern.", "anchors": ["c++/nda/basic_array.hpp: operator=", "c++/nda/_impl_basic_array_view_common.hpp: assign_from_ndarray, operator+=, operator-=, operator*=, operator/="]}
{"id": "C20", "title": "Block decomposition of a view covers exactly its elements", "statement": "When the library reports that a view is n blocks of b elements spaced s apart, walking those blocks visits the elements of the view in memory order, each once; copying blockwise equals copying element by element.", "quantifier": "all regular layouts", "why_tests_cant": "The detection is a scan over the strides; a wrong answer needs a specific stride pattern.", "anchors": ["c++/nda/basic_functions.hpp: get_block_layout", "c++/nda/_impl_basic_array_view_common.hpp: assign_from_ndarray", "c++/nda/mem/memcpy.hpp: memcpy2D"]}
{"id": "C21", "title": "Array equality is element equality", "statement": "Two arrays compare equal exactly when they have the same shape and equal elements at every index, independently of their memory layouts; on element types with a proper equality this is reflexive, symmetric and transitive.", "quantifier": "all pairs of arrays or views of any layout", "why_tests_cant": "Quantifies over all contents and layout pairs.", "anchors": ["c++/nda/basic_functions.hpp: operator=="]}
{"id": "C22", "title": "An array's storage always matches its shape", "statement": "After any sequence of construction, resizing, assignment, copy and move, an array's storage holds exactly as many elements as its shape says, and resizing to a shape with the same number of elements does not reallocate.", "quantifier": "all finite histories of array operations", "why_tests_cant": "Histories are unbounded.", "anchors": ["c++/nda/basic_array.hpp: basic_array, resize, operator=", "c++/nda/basic_functions.hpp: resize_or_check_if_view"]}
{"id": "C23", "title": "Nested brace initialisation produces the written matrix", "statement": "Constructing an array from nested brace lists gives an array whose shape is the nesting lengths and whose elements are the written values in order; ragged lists are rejected when checks are enabled.", "quantifier": "all nested lists of any lengths", "why_tests_cant": "All list lengths; raggedness patterns are unbounded.", "anchors": ["c++/nda/basic_array.hpp: shape_from_init_list, basic_array"]}
{"id": "C24", "title": "Swapping and rebinding views does what the name says", "statement": "Swapping two views exchanges what they refer to and touches no element; deep-swapping two same-shape, non-overlapping views exchanges their elements and changes nothing else; rebinding a view changes only what it refers to.", "quantifier": "all pairs of views, all contents of memory", "why_tests_cant": "All layouts and memory contents.", "anchors": ["c++/nda/basic_array_view.hpp: swap, deep_swap, rebind"]}
{"id": "C25", "title": "Reductions compute the mathematical reduction", "statement": "sum, product, any, all, min and max over an array equal the corresponding fold over its elements in lexicographic order; min and max are attained and bound every element; any/all agree with existence/universality.", "quantifier": "all shapes (non-empty for min/max), all contents", "why_tests_cant": "All sizes and contents.", "anchors": ["c++/nda/algorithms.hpp: fold, any, all, max_element, min_element, sum, product"]}
{"id": "C26", "title": "Lazy arithmetic equals element-by-element arithmetic", "statement": "Evaluating any arithmetic expression of arrays and scalars at an index gives the same arithmetic expression of the elements at that index; in a matrix expression a scalar added or subtracted acts as that multiple of the identity; assigning the expression to an array stores those values.", "quantifier": "all expression trees, all shapes, all indices, all contents", "why_tests_cant": "Expression trees nest without bound.", "anchors": ["c++/nda/arithmetic.hpp: expr, expr_unary", "c++/nda/map.hpp: expr_call, mapped"]}
{"id": "C27", "title": "Matrix helper functions have their textbook meaning", "statement": "The identity matrix, trace, conjugate transpose, diagonal view, diagonal matrix and vertical stacking have the entries of their mathematical definitions, and the diagonal is a view: writing through it changes exactly the diagonal of the original.", "quantifier": "all sizes, all contents, all strides", "why_tests_cant": "All sizes and layouts.", "anchors": ["c++/nda/matrix_functions.hpp: eye, trace, dagger, diagonal, diag, vstack"]}
{"id": "C28", "title": "Heap storage is released exactly once and never used after release", "statement": "For any interleaving of creating, copying, moving, sharing and destroying owning arrays and shared views, every element is destroyed exactly once and every block is released exactly once, only after its last owner is gone, and no operation touches a released block.", "quantifier": "all finite histories of handle operations", "why_tests_cant": "Lifetimes depend on the whole history of copies, moves and shares.", "anchors": ["c++/nda/mem/handle.hpp: handle_heap, handle_shared, handle_borrowed"]}
{"id": "C29", "title": "Small-buffer storage behaves like heap storage", "statement": "An array with small-buffer storage keeps its contents through copy, move and assignment, and constructs and destroys each element exactly once, whether the data sits inline or on the heap.", "quantifier": "all sizes on both sides of the inline limit, all finite histories", "why_tests_cant": "Histories mixing inline and heap sizes are unbounded.", "anchors": ["c++/nda/mem/handle.hpp: handle_sso, handle_stack"]}
{"id": "C30", "title": "The bucket allocator never hands out overlapping memory", "statement": "For every history of allocations and releases, chunks that are live at the same time are distinct and lie inside the bucket; releasing a chunk makes exactly that chunk available again; the allocator reports full and empty correctly.", "quantifier": "all finite histories of allocate and deallocate", "why_tests_cant": "Histories are unbounded; the free set is a bit mask.", "anchors": ["c++/nda/mem/allocators.hpp: bucket"]}
{"id": "C31", "title": "The multi-bucket allocator routes every release to the right bucket", "statement": "For every history of allocations and releases, live chunks never overlap, every release goes to the bucket that owns the chunk, and the set of buckets stays sorted and non-empty.", "quantifier": "all finite histories and all addresses the system may return for new buckets", "why_tests_cant": "Depends on the whole history and on system-chosen addresses.", "anchors": ["c++/nda/mem/allocators.hpp: multi_bucket"]}
{"id": "C32", "title": "Composed allocators route and account correctly", "statement": "A size-segregating allocator releases each block to the sub-allocator it came from; the leak checker's counter equals the total size of live blocks after every history, so it reports a leak exactly when a block is still live; zero-initialised allocation returns zeroed memory through every wrapper.", "quantifier": "all finite histories", "why_tests_cant": "Histories are unbounded.", "anchors": ["c++/nda/mem/allocators.hpp: segregator, leak_check, stats, mallocator"]}
{"id": "C33", "title": "Symmetry classes partition the index set", "statement": "For any list of symmetry maps on the indices of an array, construction of the classes terminates, every index of the array is in exactly one class, and the data it stores never outgrows the space reserved for it.", "quantifier": "all shapes, all finite lists of arbitrary symmetry functions (including ones that leave the array), all depth limits", "why_tests_cant": "Symmetries are arbitrary functions and the search is recursive.", "anchors": ["c++/nda/sym_grp.hpp: sym_grp, iterate"]}
{"id": "C34", "title": "Symmetry class members carry the operation relating them to the representative", "statement": "Each index of a class is reached from the class representative by a chain of the given symmetries and is stored with the product of the operations along that chain; filling an array from the representatives and then reading any member gives that operation applied to the representative's value.", "quantifier": "all shapes, all symmetry lists, all initial value functions", "why_tests_cant": "Arbitrary symmetries and recursion.", "anchors": ["c++/nda/sym_grp.hpp: operation, iterate, init, symmetrize"]}
{"id": "C35", "title": "Parallel symmetric initialisation equals the serial one", "statement": "Initialising an array from a function over symmetry classes in parallel, with any number of workers and any distribution of the classes in contiguous chunks, gives the same array as the serial initialisation.", "quantifier": "all worker counts, all schedules, all class lists", "why_tests_cant": "Schedules and worker counts are unbounded.", "anchors": ["c++/nda/sym_grp.hpp: init"]}
{"id": "C36", "title": "Strings survive the trip through fixed-width character buffers", "statement": "Converting an array of strings to the padded character buffer stored on disk and back returns the same strings (for strings without embedded NUL).", "quantifier": "all arrays of strings of any length", "why_tests_cant": "All strings and array sizes.", "anchors": ["c++/nda/h5.hpp: to_char_buf, from_char_buf"]}
{"id": "C37", "title": "Reading a slice from file equals slicing after reading", "statement": "The selection sent to the file library for a slice names exactly the elements that slicing the full in-memory array with the same arguments names, with the same shape, including with an ellipsis.", "quantifier": "all dataset shapes, all slice argument lists", "why_tests_cant": "Argument patterns are exponential in the rank.", "anchors": ["c++/nda/h5.hpp: hyperslab_and_shape_from_slice, h5_read, h5_write"]}
{"id": "C38", "title": "Elements of nested arrays are stored under distinct names", "statement": "When an array of non-basic elements is written element by element, distinct indices get distinct names, and reading with the same shape recovers every element.", "quantifier": "all ranks and index tuples", "why_tests_cant": "All index tuples.", "anchors": ["c++/nda/h5.hpp: h5_write, h5_read, make_name"]}
{"id": "C39", "title": "Scattering then gathering an array returns it", "statement": "Scattering an array over any number of processes gives each process a contiguous slab of the first dimension, the slabs are disjoint and cover the array in order, and gathering them back returns the original array.", "quantifier": "all process counts, all shapes, all roots", "why_tests_cant": "Process counts and shapes are unbounded.", "anchors": ["c++/nda/mpi/scatter.hpp", "c++/nda/mpi/gather.hpp"]}
{"id": "C40", "title": "Distributed reduction and broadcast give the same array everywhere they should", "statement": "After a broadcast every process holds the root's shape and elements; a reduction gives the element-wise combination over the processes, in place or not, and overlapping source and target buffers are rejected when checks are on.", "quantifier": "all process counts, shapes and buffer positions", "why_tests_cant": "Process counts and buffer overlaps are unbounded.", "anchors": ["c++/nda/mpi.hpp", "c++/nda/mpi/reduce.hpp"]}
{"id": "C41", "title": "Matrix product is correct for every layout and conjugation", "statement": "The product of two matrices, each stored in C or Fortran order, possibly a strided view and possibly a lazy conjugate, with the result in either order, has entries sum_k op(A)(i,k)*op(B)(k,j).", "quantifier": "all sizes, leading dimensions, layout combinations, conjugations and contents over any commutative ring with conjugation", "why_tests_cant": "Sizes and contents are unbounded; the flag selection is a case analysis.", "anchors": ["c++/nda/blas/gemm.hpp: gemm, gemm_generic", "c++/nda/blas/tools.hpp: get_op, get_ld", "c++/nda/linalg/matmul.hpp: matmul, is_valid_gemm_triple"]}
{"id": "C42", "title": "Matrix-vector product is correct for every layout and conjugation", "statement": "The product of a matrix (C or Fortran order, strided, possibly a lazy conjugate) with a vector has entries sum_k op(A)(i,k)*x(k), and the scaled-accumulate form computes alpha*A*x + beta*y.", "quantifier": "all sizes, layouts and contents", "why_tests_cant": "Sizes and contents are unbounded.", "anchors": ["c++/nda/blas/gemv.hpp: gemv, gemv_generic", "c++/nda/linalg/matmul.hpp: matvecmul"]}
{"id": "C43", "title": "Rank-one update and outer product are correct for every layout", "statement": "The rank-one update adds alpha*x(i)*y(j) to entry (i,j) for matrices of either order; the outer product of two arrays has element a(i...)*b(j...) at (i...,j...).", "quantifier": "all shapes, layouts and contents", "why_tests_cant": "Shapes and layouts are unbounded.", "anchors": ["c++/nda/blas/ger.hpp: ger, outer_product"]}
{"id": "C44", "title": "Dot products and scaling are correct for every stride", "statement": "The dot product of two vectors equals the sum of products of corresponding elements (conjugating the first for the conjugated form), and scaling multiplies each element once, for vectors with any stride including reversed views.", "quantifier": "all lengths, strides and contents", "why_tests_cant": "Lengths and strides are unbounded, including negative strides.", "anchors": ["c++/nda/blas/dot.hpp: dot, dotc, _dot_impl", "c++/nda/blas/scal.hpp: scal", "c++/nda/blas/interface/cxx_interface.cpp"]}
{"id": "C45", "title": "Small-matrix inversion returns the inverse or an error", "statement": "For 1x1, 2x2 and 3x3 matrices, inversion either reports that the matrix is singular, exactly when the determinant is zero, or replaces it by its two-sided inverse.", "quantifier": "all matrices of size 1 to 3 over any field", "why_tests_cant": "All matrix contents.", "anchors": ["c++/nda/linalg/det_and_inverse.hpp: inverse1_in_place, inverse2_in_place, inverse3_in_place, inverse_in_place"]}
{"id": "C46", "title": "Determinant from the factorisation is the determinant", "statement": "Given a pivoted triangular factorisation of the stored matrix or of its transpose, the reported determinant equals the mathematical determinant, for matrices of any size.", "quantifier": "all square matrices of all sizes, all pivot sequences", "why_tests_cant": "Sizes and pivot sequences are unbounded.", "anchors": ["c++/nda/linalg/det_and_inverse.hpp: determinant_in_place, determinant"]}
{"id": "C47", "title": "Lazy expressions evaluate to their meaning", "statement": "Evaluating a lazy expression with a value for each placeholder gives the value of the corresponding ordinary expression.", "quantifier": "all expression trees, all assignments of placeholders", "why_tests_cant": "Trees nest without bound.", "anchors": ["c++/nda/clef/clef.hpp: eval, evaluator, operation, op_dispatch"]}
{"id": "C48", "title": "Partial evaluation of lazy expressions composes", "statement": "Evaluating a lazy expression with some placeholders and then the rest gives the same value as evaluating with all at once, in any order; making a function of an expression and calling it equals evaluating it.", "quantifier": "all expression trees, all splits of the placeholder assignment", "why_tests_cant": "Trees and splits are unbounded.", "anchors": ["c++/nda/clef/clef.hpp: evaluator, make_function, make_fun_impl, ph_set"]}
{"id": "C49", "title": "Lazy assignment and lazy sums range over the whole domain once", "statement": "Assigning a lazy expression of the indices to an array sets every element to the expression at its indices; summing a lazy expression over a domain gives the sum over all points of the domain, and an empty domain is an error.", "quantifier": "all shapes, all expressions, all finite domains", "why_tests_cant": "Shapes and domains are unbounded.", "anchors": ["c++/nda/basic_functions.hpp: clef_auto_assign", "c++/nda/clef/clef.hpp: operator<<", "c++/nda/clef/sum.hpp: sum"]}
{"id": "C50", "title": "String indices name the same elements after slicing and permutation", "statement": "In an array indexed by strings, looking an element up by strings gives the element at the positions of those strings; after slicing or permuting the array, the string labels still name the same elements; an unknown string is an error.", "quantifier": "all shapes, label sets and argument lists", "why_tests_cant": "Labels and argument patterns are unbounded.", "anchors": ["c++/nda/layout/rect_str.hpp: peel_string, slice_impl, transpose, get_string_indices"]}
{"id": "C51", "title": "Arrays exchanged with Python show the same elements and stay alive", "statement": "The array description handed to or taken from Python (data pointer, extents, byte strides) designates the same elements at the same indices; the memory stays alive as long as the Python object does; a Python array is accepted for conversion only if all its elements convert.", "quantifier": "all layouts (any sign of strides), all element sizes, all histories of Python and C++ owners", "why_tests_cant": "All stride values and lifetimes.", "anchors": ["python/nda_py/nda_py.hpp", "python/nda_py/make_py_capsule.hpp", "python/nda_py/cpp2py_converters.hpp"]}
{"id": "C52", "title": "Constructing, converting and comparing layouts", "statement": "A layout built from its dynamic extents or by default has the static extents of its type and dense strides (or is empty); a compile-time size equals the run-time size; two layouts compare equal exactly if they address the same offsets; converting a layout to other flags keeps lengths and strides and, when accepted, the new flags are true of the strides.", "quantifier": "all ranks, memory orders, static extent patterns, flag combinations and strides", "why_tests_cant": "The flags and extents are template parameters; tests instantiate a few of the combinations and never a layout that violates its new flag.", "anchors": ["c++/nda/layout/idx_map.hpp: idx_map constructors, merge_static_and_dynamic_extents, ce_size, operator==", "c++/nda/traits.hpp: layout_property_compatible"]}
{"id": "C53", "title": "Factorise and solve", "statement": "For a square matrix A and a matrix B of right-hand sides, lapack::getrf followed by lapack::getrs reports success exactly if A is invertible, and then leaves X with op(A) X = B in place of B; nothing outside A and B changes.", "quantifier": "all sizes, both memory orders of A and B, all leading dimensions, all values in a field, every LAPACK meeting its documented contract", "why_tests_cant": "The tests use one 3x3 matrix and Fortran-order right-hand sides; C-order right-hand sides take other dimensions and a transposed system.", "anchors": ["c++/nda/lapack/getrs.hpp:47-70", "c++/nda/lapack/getrf.hpp:54-81", "c++/nda/blas/tools.hpp:79-82"]}
{"id": "C54", "title": "Matrix predicates and vector product", "statement": "is_matrix_square holds exactly if both extents agree; is_matrix_diagonal holds exactly if the matrix is square and all elements off the diagonal are zero; cross_product is a new array with the components of the vector product and changes nothing else.", "quantifier": "all matrices and layouts, all vectors, views and expressions of 3 elements", "why_tests_cant": "No test calls is_matrix_diagonal or cross_product; equality with a freshly built diagonal matrix has to hold for all layouts and contents.", "anchors": ["c++/nda/linalg/det_and_inverse.hpp:26-41", "c++/nda/linalg/cross_product.hpp:23-33"]}
{"id": "C55", "title": "Batched matrix products", "statement": "gemm_vbatch, gemm_batch and gemm_batch_strided replace each C_k by alpha A_k B_k + beta C_k, change nothing else, and agree with calling gemm on each triple.", "quantifier": "all batch lengths, all sizes, both memory orders, all scalars, every placement of the outputs apart from each other and from the inputs", "why_tests_cant": "Tests use batches of ten equal small matrices built the same way; batches whose matrices differ in their leading dimension, or rank-3 arrays in Fortran order, are never tried and give wrong results without an error.", "anchors": ["c++/nda/blas/gemm_batch.hpp:39-233", "c++/nda/blas/interface/cxx_interface.cpp:92-152"]}
{"id": "C56", "title": "Vector norms", "statement": "norm(a, p) is the p-norm of the vector for p > 0, the number of non-zero elements for p = 0, the largest and smallest modulus for p = inf and -inf, and the generalised power mean sum for negative p.", "quantifier": "all vectors and views with any stride, real and complex elements, all orders p", "why_tests_cant": "Tests evaluate one vector for a few p; that the special branches p = 1, 2, 0 agree with the general formula, for complex elements and strided views, is a statement about all vectors.", "anchors": ["c++/nda/linalg/norm.hpp:39-65"]}
{"id": "C57", "title": "Eigenvalues and eigenvectors", "statement": "eigenelements returns the eigenvalues of a symmetric or Hermitian matrix in ascending order and an orthonormal basis of eigenvectors as columns; eigenvalues returns the same eigenvalues; the argument is left unchanged; a failure reported by LAPACK becomes an exception.", "quantifier": "all sizes, all Hermitian matrices, both memory orders, arrays, views and expressions", "why_tests_cant": "Tests diagonalise two or three small matrices. That the copy is made in the order LAPACK expects and the vectors come back as columns in both memory orders, also for complex matrices where a transposition changes the vectors, has to hold for all matrices.", "anchors": ["c++/nda/linalg/eigenelements.hpp:24-83"]}
{"id": "C58", "title": "Singular value decomposition", "statement": "gesvd on matrices in Fortran order stores the singular values in descending order, and unitary factors U and V^H with A = U S V^H, in the arrays given, writes nothing else than these and A, and throws if and only if LAPACK reports a failure; matrices in C order do not compile.", "quantifier": "all sizes, all real and complex matrices, all leading dimensions, all memories", "why_tests_cant": "Tests decompose one small contiguous matrix. That sizes, leading dimensions and base addresses passed to LAPACK are the right ones for all rectangular views needs a proof; the singular values are also shown to be determined by the matrix.", "anchors": ["c++/nda/lapack/gesvd.hpp:60-100"]}
{"id": "C59", "title": "Least squares", "statement": "gelss_worker built from an m by n matrix A with m >= n and linearly independent columns returns, for any right-hand side B with at least one column, any number of times, the only minimiser of |A x - b| for each column b, together with the largest |A x - b| / sqrt(m); it throws if m < n.", "quantifier": "all sizes, all real and complex matrices, all layouts of A, all memory orders of B, all later states of memory", "why_tests_cant": "Tests compare against one fitted example. Minimality among all vectors, uniqueness, and the formula for the error from the left null space are statements about all vectors and all matrices.", "anchors": ["c++/nda/lapack/gelss_worker.hpp:25-90"]}
{"id": "C60", "title": "Hermitian least squares", "statement": "gelss_worker_hermitian built from an m by n matrix A with m >= n such that A stacked on its conjugate has linearly independent columns returns, for every right-hand side B with m rows and N*d*d columns, the only minimiser X of the total squared misfit |A X - B|^2 among all X whose d by d blocks are Hermitian, and this X has Hermitian blocks; it throws without a block dimension or if d*d does not divide the number of columns.", "quantifier": "all m >= n > 0, all N, d > 0, all real and complex matrices, all layouts of A, contiguous B, all later states of memory", "why_tests_cant": "Tests fit one set of moments. That solving the stacked complex system and symmetrising gives the constrained optimum, among all block-Hermitian matrices, is a statement about all matrices.", "anchors": ["c++/nda/lapack/gelss_worker.hpp:92-155"]}
{"id": "C61", "title": "Tridiagonal systems", "statement": "gtsv returns 0 if and only if the tridiagonal matrix given by the three diagonals is invertible, then the right-hand side (vector or matrix) is replaced by the solution of T X = B, and nothing outside the four arguments is written; right-hand sides of other ranks do not compile.", "quantifier": "all sizes, all fields, all memories, all layouts of the arguments", "why_tests_cant": "Tests solve one system with contiguous vectors. The wrapper reads neither strides nor the memory order of its arguments, which only a statement over all layouts brings out.", "anchors": ["c++/nda/lapack/gtsv.hpp:62-77"]}
{"id": "C62", "title": "Least squares with dependent columns", "statement": "gelss on matrices in Fortran order stores the singular values of A, returns the number of singular values greater than rcond times the largest, and overwrites the right-hand sides by the shortest minimiser of |A x - b| (with the small singular values set to zero); it writes nothing outside its arguments and throws if and only if LAPACK reports a failure; matrices in C order do not compile.", "quantifier": "all sizes, all real and complex matrices, all leading dimensions, all rcond >= 0, all memories", "why_tests_cant": "Tests solve one overdetermined system. Minimality and minimal length among all vectors, and the room needed by the solution when there are fewer rows than columns, are statements about all shapes and vectors.", "anchors": ["c++/nda/lapack/gelss.hpp:71-102"]}
{"id": "C63", "title": "Address spaces of expressions", "statement": "The address space of an expression is that of its operands (Unified if one is in unified memory, else Device, Host or None); it is formed exactly if no operand mixes host and device memory before the first one in unified memory, and then one processor reaches all operands; acceptance does not depend on the order of the operands.", "quantifier": "all expressions, of any depth and any number of arguments; all lists of address spaces", "why_tests_cant": "Tests combine two or three operands on builds without a GPU, where all memory is host memory. Acceptance and order-dependence concern all nestings and argument lists.", "anchors": ["c++/nda/mem/address_space.hpp:43-143"]}
{"id": "C64", "title": "Comparison of arrays in tests", "statement": "The comparison helpers of the test tools succeed exactly if the shapes agree and corresponding elements differ by less than the precision (or are equal, or almost zero).", "quantifier": "all ranks, shapes (also without elements), element types and precisions", "why_tests_cant": "The helpers are what the tests use to decide: an error in them hides errors elsewhere, and NaN or narrowing conversions never occur in the reference values.", "anchors": ["c++/nda/gtest_tools.hpp:36-105"]}
{"id": "C65", "title": "Printed arrays", "statement": "The text printed for an array determines its shape and its elements, and equal arrays are printed equally; likewise for shapes and index tuples.", "quantifier": "all ranks, shapes and layouts, all element types whose own text can be read back between separators", "why_tests_cant": "Tests compare the text of a few arrays. That no two different arrays share a text is a statement about all pairs.", "anchors": ["c++/nda/print.hpp:47-81", "c++/nda/stdutil/array.hpp:35-42"]}
{"id": "C66", "title": "Slices of lazy expressions", "statement": "Slicing a lazy expression, to any depth, commutes with evaluating it: the slice has the shape of the slice of the value and its elements are the elements of the expression at the coordinates named by the arguments. The only expressions without slices are those that add a scalar to a matrix (or contain an array given by a function).", "quantifier": "all expressions of any depth and mix of algebras, all shapes, layouts and slice arguments, chains of slices of any length", "why_tests_cant": "Tests slice one or two sums. The claim ranges over all nestings, where the algebra of a slice (rows of matrices are vectors) changes what operators and scalars mean.", "anchors": ["c++/nda/arithmetic.hpp:36-153", "c++/nda/map.hpp:54-62", "c++/nda/_impl_basic_array_view_common.hpp:127-170"]}
{"id": "C67", "title": "Programs on arrays", "statement": "A program made of assignments of lazy expressions, compound assignments, assignments of scalars, deep swaps and products of matrices and vectors, on variables and on views of them (slices, permutations, added dimensions, chained), does to memory exactly what the same program does to arrays seen as functions of the index. The result does not depend on the layouts of the variables.", "quantifier": "all programs of any length, all expressions of any depth, all numbers of variables, shapes, stride orders, chains of view operations and contents", "why_tests_cant": "Tests run one statement on one or two layouts. The claim is a refinement between memory and mathematical arrays, preserved by every statement, for all programs and layouts.", "anchors": ["c++/nda/basic_array_view.hpp:180-269", "c++/nda/_impl_basic_array_view_common.hpp:127-430", "c++/nda/arithmetic.hpp:31-308"]}
{"id": "C68", "title": "Lifetimes of views and expressions", "statement": "Storage has exactly one owner at any time, is never given back twice and never lost. A program that obeys simple rules on names (a view or lazy expression depends on the variables it was made from; moving, resizing, copy-assigning or destroying one of them ends the use of what depends on it; no slice of a temporary that owns storage is kept) never touches storage that is gone. Breaking the rules on temporaries, destroyed, resized, copied-to or moved-from arrays is undefined behaviour.", "quantifier": "all programs of any length over declarations, references, moves, slices, operators, mapped functions, make_regular, assignments, resizes and ends of lifetimes; all nestings of expressions", "why_tests_cant": "Use after free usually goes unnoticed in a test. The claim is an invariant over all states reachable by all programs.", "anchors": ["c++/nda/arithmetic.hpp:31-61", "c++/nda/map.hpp:48-114", "c++/nda/mem/handle.hpp:108-137", "c++/nda/basic_functions.hpp:142-155", "c++/nda/basic_array.hpp:330-362"]}
{"id": "C69", "title": "Elements that throw", "statement": "Whatever constructor of an element throws and whatever allocation fails, a program on arrays ends as its counterpart on lists does. Constructors and assignments of expressions never let an exception out (they terminate); only resize does. A resize that throws leaves an array that announces the new size, keeps the old storage and loses one block for ever: elements beyond the old size are undefined behaviour, resizing back is safe. A copy assignment during which an element throws is undefined behaviour. When nothing fails, nothing is lost and every program without moves ends normally.", "quantifier": "all programs of any length over constructions, copies, moves, assignments, resizes, reads and ends of lifetimes; all sizes; every choice of the constructor calls that throw and of the allocations that fail", "why_tests_cant": "Tests use element types that never throw and allocations that never fail; the number of failure points is unbounded.", "anchors": ["c++/nda/mem/handle.hpp:81-137", "c++/nda/mem/handle.hpp:146-203", "c++/nda/basic_array.hpp:98-175", "c++/nda/basic_array.hpp:339-416", "c++/nda/macros.hpp:36-78"]}
{"id": "C70", "title": "Text of lazy expressions", "statement": "The text of a lazy expression determines the expression up to the functions called in it: same operators, same placeholders, same values of the leaves, same numbers of arguments. Every expression whose leaves are alive and can be written has a text. Two expressions without calls and with the same text have the same free placeholders, the same meaning for all values of these, and are evaluated by the library to the same values. Which function is called is not printed.", "quantifier": "all expression trees of any size and depth, with sums and functions made of expressions; all values of the leaves whose texts are words", "why_tests_cant": "Tests print a few expressions; that no two different expressions share a text is a statement about all pairs of trees.", "anchors": ["c++/nda/clef/io.hpp:27-113", "c++/nda/clef/clef.hpp:241-293"]}
{"id": "C71", "title": "Layout arithmetic in 64-bit integers", "statement": "Construction of a layout from a shape, size, element access, slices, chains of views, contiguity queries, linear access, conversion of positions to indices, bounds checks and iteration compute in 64-bit integers exactly what they compute in unbounded integers (nothing overflows), as long as the product of the extents, with empty dimensions counted as one, is small enough and ranges start and step within their dimension. Construction of a non-empty shape is defined exactly if the number of elements is a long. The number of bytes requested for an array is the size times the element size.", "quantifier": "all shapes, memory orders, chains of views of any length, index tuples, numbers of elements up to 2^59 - 1, all loop bodies", "why_tests_cant": "Arrays near the limits of 64 bits cannot be allocated in a test, and the intermediate products and sums of all views cannot be enumerated.", "anchors": ["c++/nda/layout/idx_map.hpp:118,141-181,293-297,332-409", "c++/nda/layout/slice_static.hpp:201-299", "c++/nda/layout/bound_check_worker.hpp:33-67", "c++/nda/iterators.hpp:30-126", "c++/nda/mem/handle.hpp:145-175"]}
{"id": "C72", "title": "Triangular factorisation of rectangular matrices", "statement": "lapack::getrf on an m by n matrix view leaves in the view the lower and upper trapezoidal factors of the matrix with its rows interchanged as recorded in the pivots, changes nothing else, and returns 0 exactly if the upper factor has no zero on its diagonal. The block of memory it names to LAPACK is the block of the view.", "quantifier": "all shapes m by n, all leading dimensions, both memory orders, all fields of scalars, every LAPACK meeting the contract", "why_tests_cant": "The tests factorise one matrix of one shape; a wrong leading dimension or exchanged extents only shows for shapes that are not square.", "anchors": ["c++/nda/lapack/getrf.hpp:54-81", "c++/nda/blas/tools.hpp:60-82"]}
{"id": "C73", "title": "Arithmetic and shape changes of std::array", "statement": "The arithmetic operators of std::array in stdutil/array.hpp act element by element; make_std_array and to_vector keep the elements; append, front_append and join add elements at the ends, pop, mpop, front_pop and front_mpop remove them and undo the former; sum, product and dot_product are the sum and product of all elements, and the sum of all products. No element outside an array is read or written.", "quantifier": "all sizes, all element types with the operations used, all values", "why_tests_cant": "The functions are templates over the size; tests instantiate a few sizes only.", "anchors": ["c++/nda/stdutil/array.hpp:46-281"]}
{"id": "C74", "title": "Texts of exceptions", "statement": "what() of an exception is everything written to it, and to the exceptions it is a copy of before they were copied, followed by one fixed line. Every exception thrown by NDA_RUNTIME_ERROR, NDA_ASSERT and NDA_ASSERT2 has the text of the place, the condition and all parts, however often it is copied on its way, and is thrown exactly if the condition is false.", "quantifier": "all programs creating, writing to and copying exceptions, all texts, any number of copies", "why_tests_cant": "Tests check that an exception is thrown, hardly its text, and never the text of copies.", "anchors": ["c++/nda/exceptions.hpp:25-66"]}
{"id": "C75", "title": "Division by a matrix", "statement": "Division by a matrix is multiplication by its inverse: m1 / m2 times m2 is m1, m1 times m2 divided by m2 is m1, x / m is x times the inverse. A singular divisor is reported by an exception, and nothing else is; the operands keep their values.", "quantifier": "all square divisors of positive size, all memory orders and strides, all fields", "why_tests_cant": "Tests divide by a few well conditioned matrices; the closed formulas for sizes 1 to 3 and the calls of LAPACK for larger sizes must agree with one specification.", "anchors": ["c++/nda/arithmetic.hpp:273-307", "c++/nda/linalg/det_and_inverse.hpp:96-192"]}
{"id": "C76", "title": "Factories of arrays", "statement": "zeros, ones, arange and rand make new arrays of the shape asked for, apart from all others: zeros holds zeros, ones ones, arange(first, last, step) exactly the numbers first + i * step before last, rand samples in [0, 1), each of them used once over any number of calls.", "quantifier": "all shapes and ranks (also without elements), all memory orders, all first, last and non-zero steps, all sequences of calls", "why_tests_cant": "Random values cannot be compared with a reference, and tests try a few shapes in C order.", "anchors": ["c++/nda/basic_functions.hpp:25-112", "c++/nda/basic_array.hpp:274-334"]}
{"id": "C77", "title": "Views of other containers", "statement": "The view of a pointer and a shape, of a std::array or of a contiguous range has exactly the elements behind the pointer, in the memory order of its layout; an array is equal to a range iff both have the same elements in the same order; assigning a range to a view gives the view its elements and changes nothing else. The size of an expression is the number of its elements; memset and memset2D set exactly the bytes they are asked to.", "quantifier": "all shapes, memory orders, containers and memories; all expression trees; all pitches, widths and heights", "why_tests_cant": "Tests use a few std::vector and std::array objects of equal type; an error for other sizes, orders or overlapping rows stays unseen.", "anchors": ["c++/nda/basic_array_view.hpp:120-175", "c++/nda/basic_functions.hpp:302-311", "c++/nda/_impl_basic_array_view_common.hpp:320-327", "c++/nda/mem/memset.hpp:28-51"]}
{"id": "C78", "title": "Failures in the device libraries are reported", "statement": "Of a sequence of calls to the device libraries, the first that fails throws, whether the library rejects the call or it fails on the device, and the calls before it return; without synchronisation the rejected calls still throw. A sequence that returns had no failure in a checked call nor, before the last checked call, on the device.", "quantifier": "all sequences of calls with all fates", "why_tests_cant": "Failures of the device libraries are not produced by tests; a status nobody looks at shows only when a call fails.", "anchors": ["c++/nda/blas/interface/cublas_interface.cpp:74-188", "c++/nda/lapack/interface/cusolver_interface.cpp:50-106"]}
{"id": "C79", "title": "Functions of elements", "statement": "pow with an integral exponent is the power, as far as the type of the base represents it, and modulo the range of unsigned types; abs2, conj, real and imag satisfy the identities of complex numbers; mixed arithmetic of complex numbers and other number types is the arithmetic of complex numbers after conversion.", "quantifier": "all integral types, bases and exponents; all rings of components", "why_tests_cant": "Tests use a few small numbers of one type.", "anchors": ["c++/nda/mapped_functions.hpp:25-64", "c++/nda/stdutil/complex.hpp:30-56"]}
{"id": "C80", "title": "Printed expressions and layouts", "statement": "The text printed for an unevaluated array expression determines the operators and their nesting, the scalars, and the shapes and elements of the arrays in it; the text printed for a layout determines its lengths, strides, static extents, memory order and flags.", "quantifier": "all expression trees of any depth over vectors and matrices, all scalars whose text begins like a number or like a pair of numbers; all layouts of any rank", "why_tests_cant": "Tests compare the text of a few expressions. Unique readability (no two different trees share a text, e.g. a negative scalar and a negated array) is a statement about all pairs of trees.", "anchors": ["c++/nda/print.hpp:29-42", "c++/nda/print.hpp:84-111"]}
{"id": "C81", "title": "Const arrays and views of const elements", "statement": "No element of an array can be changed through a const array, or through a view of const elements, or through anything that is derived from them (views, slices, transposed or reshaped views, iterators, references to elements, rebinding, copies of views).", "quantifier": "all programs of any length that derive, copy, rebind, swap and assign objects", "why_tests_cant": "That a program does not compile is not something a test of the library checks, and no finite set of programs shows that no chain of derivations loses the qualifier.", "anchors": ["c++/nda/_impl_basic_array_view_common.hpp:128-172", "c++/nda/basic_array_view.hpp:108-119", "c++/nda/layout_transforms.hpp:25-40", "c++/nda/basic_functions.hpp:228-274"]}
{"id": "C82", "title": "Empty arrays", "statement": "The test empty() of an array or a view is answered as documented: yes if and only if size() == 0.", "quantifier": "all histories of constructions, moves, assignments and resizes of arrays, all chains of view operations", "why_tests_cant": "The test looks at the storage pointer, not at the size; that the two agree is an invariant of all histories, and tests look at default-constructed arrays only.", "anchors": ["c++/nda/_impl_basic_array_view_common.hpp:54-58", "c++/nda/mem/handle.hpp:208-214", "c++/nda/mem/handle.hpp:549"]}
{"id": "C83", "title": "Programs with scalars, branches, loops and local arrays", "statement": "A program built from assignments, compound assignments, products, element writes, reads of elements and reductions, branches and while-loops on what was read, and blocks with local arrays (whose shapes may depend on what was read), has no undefined behaviour and throws nothing however long it runs if every executed statement is allowed, does to memory what it does to mathematical arrays, ends on memory if and only if it ends on mathematical arrays, and takes the same decisions whatever the memory orders of the variables are.", "quantifier": "all programs (any nesting and number of iterations), shapes, memory orders, contents", "why_tests_cant": "Tests run fixed sequences of statements on fixed shapes; data-dependent control flow and unbounded loops need an induction over programs and iterations.", "anchors": ["c++/nda/basic_array_view.hpp:180-224", "c++/nda/_impl_basic_array_view_common.hpp:128-172", "c++/nda/_impl_basic_array_view_common.hpp:285-316", "c++/nda/algorithms.hpp:33-150", "c++/nda/arithmetic.hpp:230-257", "c++/nda/basic_array.hpp:161-176", "c++/nda/basic_array.hpp:270-284"]}
{"id": "C84", "title": "Alignment of elements", "statement": "Every element of an array, and of every view of it, lies at an address that is a multiple of the alignment of its type; elements kept inside the array object lie inside it and do not overlap its other members.", "quantifier": "all element types, ranks, sizes, storage policies, addresses of arrays and blocks, views", "why_tests_cant": "Compilers usually place local arrays at well aligned addresses, and misaligned access is silent on common processors.", "anchors": ["c++/nda/mem/handle.hpp:223-239", "c++/nda/mem/handle.hpp:290-318", "c++/nda/mem/allocators.hpp:85-120", "c++/nda/basic_array.hpp:69-70", "c++/nda/layout/idx_map.hpp:83"]}
{"id": "C85", "title": "Elements of small arrays that throw", "statement": "When the constructor or assignment of an element throws, the program with handle_sso and handle_stack storage goes on with the exception caught and all variables as they were, or is terminated; no element is destroyed that was not made, and no memory is lost.", "quantifier": "all programs of constructions, copies, moves, assignments and destructions, all sizes and inline capacities, every set of calls that fail", "why_tests_cant": "Tests use numbers, whose constructors do not throw; the failing call may be any of the calls of a program.", "anchors": ["c++/nda/mem/handle.hpp:223-286", "c++/nda/mem/handle.hpp:290-463"]}
{"id": "C86", "title": "Threads on disjoint parts of arrays", "statement": "When several threads run assignments, compound assignments and fills on views of the same arrays, and no element that one thread writes is read or written by another, then no interleaving of their loads and stores has a data race or gets stuck, every execution ends, and the result is that of the threads one after another in any order; with several parallel regions and joins between them the same holds for the whole program.", "quantifier": "all arrays, shapes, layouts and views, any number of threads, statements and parallel regions, every interleaving of single loads and stores", "why_tests_cant": "The number of interleavings grows exponentially; a race shows up rarely and depends on the machine.", "anchors": ["c++/nda/_impl_basic_array_view_common.hpp:331-429", "c++/nda/_impl_basic_array_view_common.hpp:222-262", "c++/nda/basic_array.hpp:311-326"]}
{"id": "C87", "title": "Python objects to arrays by value", "statement": "A Python object that is accepted for an array parameter (by value) is converted to the array that it stands for, with the same extents and elements, whether it is a list, a numpy array of another type, order or strides, or can be used directly; objects that numpy cannot convert are refused.", "quantifier": "all Python objects, ranks, element sizes, extents and strides; numpy's own conversion is a contract", "why_tests_cant": "Tests use a few arrays made in Python; strides come from slices, transpositions, broadcasts and fields of records.", "anchors": ["python/nda_py/cpp2py_converters.hpp:94-190"]}
{"id": "C88", "title": "Arrays and views of any layout in files", "statement": "An array or view of any memory order, with or without gaps, written to a file and read back, as a whole or in part, into an array or view of any other layout has the same shape and elements; reading changes nothing but the target, writing to a slice nothing but that slice.", "quantifier": "all ranks, shapes, memory orders, strides, slices, real and complex elements, targets (arrays and views) and memories; HDF5 itself is a contract", "why_tests_cant": "Tests write and read a few small arrays, mostly with the same layout on both sides; the copies through a temporary array and the contiguity test have many combinations.", "anchors": ["c++/nda/h5.hpp:161-212", "c++/nda/h5.hpp:227-301", "c++/nda/layout/idx_map.hpp:141-146"]}
{"id": "C89", "title": "Arrays converted between kinds of storage", "statement": "An array made from an array with other storage (heap, shared, small-buffer of any capacity, stack) or another algebra has the same layout and elements in a memory of its own; the source and all other variables are unchanged; in any history that mixes all kinds of handles and conversions, elements are made and destroyed once, and blocks are released exactly when their last owner goes away.", "quantifier": "all histories of operations on variables of all handle types at once, all capacities and sizes, trivial and non-trivial value types", "why_tests_cant": "Tests convert one or two small arrays; histories that mix the storage kinds and both sides of the capacity are not enumerable.", "anchors": ["c++/nda/mem/handle.hpp:192-203", "c++/nda/mem/handle.hpp:382-407", "c++/nda/basic_array.hpp:103-106"]}
{"id": "C90", "title": "Storage shared by several threads", "statement": "Threads that make, copy, drop and read shared handles of const arrays, read the arrays and destroy arrays of their own: in every interleaving no block is read or released after its release, no block is released twice, there is no data race, the counters are the numbers of owners, and at the end exactly the blocks that are still owned are live.", "quantifier": "all numbers of threads, arrays and handles, all programs of the threads, all interleavings of their accesses", "why_tests_cant": "The number of interleavings is exponential and a test run sees one of them; the failing ones need both threads between two adjacent accesses.", "anchors": ["c++/nda/mem/handle.hpp:66-112", "c++/nda/mem/handle.hpp:472-494"]}
{"id": "C91", "title": "One allocator for several threads", "statement": "Arrays in different threads use the same static allocator: in every interleaving of the accesses of their requests, releases and writes, the blocks of all threads are apart and inside memory of the system, no operation aborts, and the contents of a block change only by the thread that holds it.", "quantifier": "all numbers of threads, all programs of the threads, all interleavings of their accesses, all strategies of the heap", "why_tests_cant": "The number of interleavings is exponential; the failing ones need two threads between the load and the store of the same word, which happens once in a very long time.", "anchors": ["c++/nda/mem/handle.hpp:69-73", "c++/nda/mem/allocators.hpp:57-83", "c++/nda/mem/allocators.hpp:88-143", "c++/nda/mem/allocators.hpp:148-208", "c++/nda/mem/allocators.hpp:238-293", "c++/nda/mem/allocators.hpp:296-336"]}
{"id": "C92", "title": "Arrays in several memories", "statement": "Programs on arrays in host, device and unified memory (assignments, arithmetic, scalars, zeros, transfers with to_host, to_device, to_unified and make_regular of views to any depth) do what they mean without regard to memories, or end with an error because of an array on the device; the processor never touches device memory; a view with at most one gap survives any transfer and the way back.", "quantifier": "all numbers of variables, shapes, layouts, distributions over the memories, programs and contents", "why_tests_cant": "The combinations of layouts, memories and statements are unbounded, and without a GPU the tests cover none of the device paths.", "anchors": ["c++/nda/_impl_basic_array_view_common.hpp:331-429", "c++/nda/basic_functions.hpp:30-46", "c++/nda/basic_functions.hpp:157-206", "c++/nda/basic_array.hpp:100-108", "c++/nda/basic_array.hpp:153-171", "c++/nda/mem/handle.hpp:191-203", "c++/nda/mem/memcpy.hpp:27-54", "c++/nda/mem/memset.hpp:28-39", "c++/nda/mem/allocators.hpp:71-79"]}
{"id": "C93", "title": "Programs run by several processes", "statement": "If all processes run the same program of gathers, scatters, reductions and broadcasts (assigned to arrays or views, or used to construct arrays) with local computations, branches and loops taken alike, every collective call is matched, no process waits for ever, all processes end normally, and the variables of all processes are those the operations mean; without MPI the program does the same on one process; an error on one process leaves the other processes waiting.", "quantifier": "all numbers of processes, roots, programs, shapes, contents and reduction operations", "why_tests_cant": "Tests run a few programs on at most four processes; deadlocks and mismatched calls depend on the number of processes, the branches taken and shapes on each process.", "anchors": ["c++/nda/mpi.hpp:35-45", "c++/nda/mpi/gather.hpp:25-109", "c++/nda/mpi/scatter.hpp:25-97", "c++/nda/mpi/reduce.hpp:25-110", "c++/nda/basic_array.hpp:183-186", "c++/nda/basic_array.hpp:384-389", "c++/nda/basic_array_view.hpp:219-224", "c++/nda/basic_functions.hpp:215-225"]}
{"id": "C94", "title": "Which expressions compile and what they are", "statement": "For all programs made of arrays, views, adapters, operators, functions mapped onto elements, slices, layout transformations, inverses and make_regular: an expression that compiles and is accepted by operators has elements that can be read; expressions of matrix type have two indices, of vector type one; sums and differences of objects of the same kind and products and quotients of linear algebra compile and have the right kind, all others are rejected; numbers, signs and mapped functions keep the kind; parts can be taken if and only if the arguments leave an index (and the expression has no adapter and no matrix plus a number), a row of a matrix is a vector; the types agree with what the running program computes.", "quantifier": "all expressions of all depths and numbers of operands, all ranks, all lists of arguments", "why_tests_cant": "Whether an expression compiles cannot be tested for all types; a test program contains a few expressions, and those that should be rejected cannot be in it at all.", "anchors": ["c++/nda/arithmetic.hpp:31-310", "c++/nda/map.hpp:28-99", "c++/nda/concepts.hpp:120-180", "c++/nda/traits.hpp:60-110", "c++/nda/_impl_basic_array_view_common.hpp:128-235", "c++/nda/layout_transforms.hpp:25-101", "c++/nda/basic_functions.hpp:135-147", "c++/nda/matrix_functions.hpp:56-63", "c++/nda/linalg/matmul.hpp:52-114", "c++/nda/linalg/det_and_inverse.hpp:184-192", "c++/nda/linalg/norm.hpp:39-66"]}
{"id": "C95", "title": "Owning arrays are values", "statement": "For all programs of constructions, copies, moves, assignments of scalars, arrays and lazy expressions (to whole arrays with resizing, and to views made by any chain of slices, permutations and added dimensions), resizes and destructions on any number of owning arrays, where the right-hand side of an assignment reads no element that the same statement assigns at another index: the program runs without a memory error and every array has the shape and the elements that the program computes on mathematical arrays (functions from index tuples to elements) which no two variables share. Hence statements that do not name an array leave it as it is, a copy keeps the elements of the time of the copy whatever happens to the original, std::swap exchanges shapes and elements, and lazy evaluation gives the same elements as evaluation into a temporary.", "quantifier": "all programs of any length, all numbers of arrays, ranks, shapes, stride orders and value types, all right-hand sides that read any elements of any arrays", "why_tests_cant": "Whether two arrays ever share storage, and whether an assignment sees elements it has already overwritten, depends on the whole history of the program; tests run a few histories.", "anchors": ["c++/nda/basic_array.hpp:71-176", "c++/nda/basic_array.hpp:264-379", "c++/nda/_impl_basic_array_view_common.hpp:285-316", "c++/nda/_impl_basic_array_view_common.hpp:331-388", "c++/nda/mem/handle.hpp:100-330", "c++/nda/layout_transforms.hpp:72-151"]}
{"id": "C96", "title": "Views are references, valid as long as an array has their storage", "statement": "For all programs of constructions, copies, moves, assignments, resizes and destructions of owning arrays, in which views are made from arrays and from other views by any chain of view operations, copied, rebound, swapped, read in right-hand sides and assigned to at any later time: the program runs without a memory error as long as it uses views only while some array has the storage they point into (with the shape it had), and each element of such a view is exactly the element of that array it was made from. Moves take views along; assignment of an expression of equal shape keeps them; copy assignment, even of an array to itself or of equal shape, resizing to another number of elements and destruction invalidate them, and every later use of an element of an invalid view is a use of released memory.", "quantifier": "for all programs, all numbers of arrays and views, all ranks, shapes and stride orders, all chains of view operations, all element types and all right-hand sides", "why_tests_cant": "Tests use a few views for a few statements; whether a view is still valid depends on the whole history of moves, assignments and resizes, and uses of released memory often appear to work.", "anchors": ["c++/nda/basic_array_view.hpp:75-76", "c++/nda/basic_array_view.hpp:103-119", "c++/nda/basic_array_view.hpp:180-203", "c++/nda/basic_array_view.hpp:229-258", "c++/nda/mem/handle.hpp:517-553", "c++/nda/basic_array.hpp:339-390"]}
{"id": "C97", "title": "Shared storage lives, with its elements, as long as something refers to it", "statement": "For all programs on heap and shared handles, memory management cannot be observed: the variables and the elements they refer to are those of the program in which no storage is ever released and in which copies make new storage, moves and shares pass on references. In particular a shared handle sees the same elements, unless somebody writes them, whatever happens to the array it was made from: destruction, moves, assignments, further shares.", "quantifier": "all finite histories of handle operations that do not use elements through moved-from shared handles, trivial and non-trivial element types", "why_tests_cant": "Whether storage survives with its contents depends on the whole history of shares, copies and moves; reading released memory often gives the old values.", "anchors": ["c++/nda/mem/handle.hpp:97-206", "c++/nda/mem/handle.hpp:468-501"]}
{"id": "C98", "title": "Arrays with small-buffer storage are the same values as arrays on the heap", "statement": "For all programs on arrays with inline storage for K elements (mem::sso), with constructions, copies, moves, assignments with resizing, assignments to views made by any chain of view operations, resizes and destructions, the program runs without a memory error and its memory represents what the program does to values; so no program can tell the container policies (heap, or inline with any K) apart. The elements are in the array itself when there are at most K, in a block of its own otherwise, and every block that is not released belongs to one array with more than K elements.", "quantifier": "all capacities K, all finite programs, all ranks and stride orders per variable, all shapes, all right-hand sides reading any elements of any arrays", "why_tests_cant": "Whether an array switches between its buffer and the heap depends on the sizes at every step of a history; the ways of switching (assign small to big, big to small, move, resize) compose without bound, and the tests of the library use sso in a few places only.", "anchors": ["c++/nda/mem/handle.hpp:290-463", "c++/nda/mem/policies.hpp:44-48", "c++/nda/basic_array.hpp:92-416"]}
{"id": "C99", "title": "Programs with arithmetic statements compute the same expressions of values", "statement": "For all programs whose statements construct arrays from, and assign to arrays or views (d = e, d(...) = e, d op= e, d(...) op= e), nested arithmetic expressions of arrays and of views made by any chain of view operations, of functions applied elementwise and of scalars, or assign a scalar to an array or to a view (not to evenly spaced views in reversed order, see C18), the program runs without a memory error and its memory represents what the program does to values, where an expression is the arithmetic expression of the elements at each index and a scalar added or assigned to a matrix is a multiple of the identity. Evaluating operands into temporary arrays first gives the same elements.", "quantifier": "all finite programs, all expression trees, all ranks, shapes, stride orders and view chains; element types with arbitrary + - * / (for matrices plus or minus a scalar: laws of zero)", "why_tests_cant": "Expression templates hold references to operands whose storage the same program resizes, moves and reassigns; the combinations of expression trees, views, layouts and histories are unbounded, and errors by aliasing show up only for particular overlaps.", "anchors": ["c++/nda/arithmetic.hpp:31-162", "c++/nda/map.hpp:48-86", "c++/nda/basic_array.hpp:159-176,357-363,371-379", "c++/nda/basic_array_view.hpp:198-214", "c++/nda/_impl_basic_array_view_common.hpp:285-316,392-431"]}
{"id": "C100", "title": "Arrays on the stack are values, and moving them copies", "statement": "For all programs that construct, copy, move, assign, fill, resize to the same shape and destroy stack arrays (static extents, elements inside the array) of any mix of shapes and stride orders, with right-hand sides that read any elements of any arrays and assignments to views made by any chain of view operations, the program runs without a memory error and its memory represents what the program does to values, where a move leaves the source as it was. The same program with moves replaced by copies computes the same elements on the heap.", "quantifier": "all finite programs, all numbers of variables, all static extents, ranks, stride orders and view chains, trivial and non-trivial element types (the latter without default construction and whole-array assignment)", "why_tests_cant": "Moves, copies and assignments of handles that hold their elements construct objects in place; whether some history constructs over or destroys a missing object, or leaves a source changed, depends on the whole history and on the element type.", "anchors": ["c++/nda/mem/handle.hpp:226-286", "c++/nda/declarations.hpp:80-101", "c++/nda/basic_array.hpp:92-176,339-416", "c++/nda/layout/idx_map.hpp:187-195,293-297"]}
{"id": "C101", "title": "Small-buffer arrays whose elements throw", "statement": "For all programs on arrays with small-buffer storage that construct, copy, move, assign, fill, resize, read and destroy, and whichever constructions and assignments of elements throw, a program that catches every exception ends normally, is terminated or is undefined exactly as a program on lists of values says, throws exactly where it says, and leaves arrays with exactly the sizes and elements it says; the unreleased blocks are those of the arrays and the ones lost by resize. Only resize lets exceptions out; the constructor from integers goes through a temporary, so that any exception terminates, and loses the elements of a temporary that fits into the buffer. When nothing throws, sizes and elements are those of the same program with arrays on the heap.", "quantifier": "all finite programs, all numbers of variables and elements, all inline capacities, all sets of failing calls (no moves out of buffers, no self-assignment)", "why_tests_cant": "Which elements exist after an exception depends on the position of the failing call in the whole history, on whether each array fits into its buffer, and on the noexcept functions in between.", "anchors": ["c++/nda/basic_array.hpp:98-175,339-416", "c++/nda/mem/handle.hpp:290-463", "c++/nda/_impl_basic_array_view_common.hpp:331-408"]}
{"id": "C102", "title": "Stack arrays whose elements throw", "statement": "For all programs on arrays with stack storage that construct, copy, move, assign, fill, resize, read and destroy, and whichever constructions and assignments of elements throw, a program that catches every exception ends normally, is terminated or is undefined exactly as a program on lists of values says, throws exactly where it says, and every array alive has exactly the elements it says, all of them made. Only the copy assignment of whole arrays lets exceptions out, that of its first element, and leaves all arrays as they were. Assignment of whole arrays is undefined otherwise, and so are the elements and the end of default-constructed arrays.", "quantifier": "all finite programs, all numbers and sizes of variables, all sets of failing calls (shapes are the static ones)", "why_tests_cant": "Whether the buffer of an array holds objects depends on the constructor, on the position of the failing call in the whole history, and on the noexcept and delegating functions in between.", "anchors": ["c++/nda/basic_array.hpp:92-175,339-416", "c++/nda/mem/handle.hpp:224-286", "c++/nda/_impl_basic_array_view_common.hpp:331-408"]}
{"id": "C103", "title": "Conversions between kinds of storage when copies of elements throw", "statement": "A handle or array made from one with other storage, with elements whose copy constructor may throw: if no copy throws, the new handle has the elements of the source in a memory of its own and all other variables are unchanged; if a copy throws, the elements made before are destroyed, the new memory is released, all variables are as before, and the exception reaches the caller.", "quantifier": "all histories of operations on variables of all handle types, all sources and targets, all sizes and capacities, all sets of failing copies", "why_tests_cant": "The outcome depends on which copy fails, and undefined behaviour in a destructor during stack unwinding need not be visible.", "anchors": ["c++/nda/mem/handle.hpp:109-112,146-152,192-203,340,382-407", "c++/nda/basic_array.hpp:103-106"]}
