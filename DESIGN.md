# Formal model of TRIQS/nda in Lean 4

The model is read off the C++ headers in `/repo` (nothing is compiled or run).
Every Lean definition that models code carries a comment with the file and the
lines it models and says where it simplifies.

* `lean/Verif/Model/*`   definitions modelling the code (and only those)
* `lean/Verif/Spec/*`    small independent specifications used in the statements
* `lean/Verif/Lemmas/*`  helper lemmas
* `lean/Verif/Props/*`   the property theorems, one file per group of properties,
                         each theorem followed by an `example` that meets its hypotheses, there or in `Props/Cases*`

## Conventions

* `long`/`int` are modelled by `Int`/`Nat`. The layout arithmetic is modelled a
  second time with checked 64-bit operations (`Model/Machine`, C71). Elsewhere
  machine overflow is out of scope except where a property is about a machine
  word (integer encodings of permutations, bit masks of the bucket allocator,
  byte strides from Python): there `BitVec`/explicit word arithmetic is used.
* `std::array<T,N>` is a `List` of length `N`; the length is part of the
  well-formedness predicate. Template parameters (rank, stride order, static
  extents, layout property) are run-time fields of the model, so one theorem
  covers every instantiation.
* Undefined behaviour (out-of-range index, read of a released block, shift past
  the word size, division by zero, reading the first element of an empty array)
  is a distinct outcome (`none` / `Outcome.ub`). Preconditions checked by the
  code only in debug builds (`EXPECTS`, `ASSERT`) are explicit hypotheses.
* Floating point is idealised: algebraic properties are stated over an
  arbitrary (semi)ring/field; rounding is out of scope.
* External libraries (malloc, libstdc++ algorithms, BLAS, LAPACK, HDF5, MPI,
  CPython, itertools::range) are parameters or small reference models whose
  assumed behaviour is listed in "Trusted base".

## Plan per property

| id | modelled | proof idea |
|----|----------|------------|
| C01 | permutation.hpp, loops as folds over lists, out-of-range = UB | characterise every loop pointwise, then list-permutation algebra |
| C02 | encode/decode on 64-bit words with the C++ shift rules | nibble arithmetic by induction on the rank; negation witness past the shift limit |
| C03 | idx_map ctor, strides loop, call | mixed-radix induction + sum over a permuted list |
| C04 | to_idx | mixed-radix digits, both round trips |
| C05 | slice, transpose, add-fast-dims as an inductive set of view operations | invariant "injective and inside storage" by induction over the op list |
| C06 | slice_static.hpp (position maps, ellipsis, get_l/get_s/offset) | refinement to a recursive per-dimension spec |
| C07 | slice_layout_prop, layout_prop lattice | invariant "flag implies stride equation", by induction over view ops; negation for unit fast dims on strided views |
| C08 | sliced_mem_stride_order, is_stride_order_valid | order-embedding of kept dimensions |
| C09 | transpose | pointwise algebra of C01 |
| C10 | reshape/flatten | bijection with memory position |
| C11 | is_contiguous, is_strided_1d | mixed-radix characterisation for positive ordered strides; negation witness for reversed views |
| C12 | reinterpret_add_fast_dims_of_size_one | direct; negation for strided_1d |
| C13 | group_indices.hpp | mixed-radix with consecutive blocks |
| C14 | bound_check_worker | fold over arguments vs per-dimension spec; negation witness range(-1,-1) |
| C15 | for_each | induction on the rank, lexicographic enumeration |
| C16 | iterators.hpp | carry-chain induction; negation witness for empty inner extent |
| C17 | assign_from_ndarray on a memory function | frame + pointwise theorems per path, paths equal |
| C18 | fill_with_scalar, assign_from_scalar | same; negation witnesses (negative stride, empty inner extent) |
| C19 | assignment loop with overlapping memory | simulation "same-position reads"; negation witnesses |
| C20 | get_block_layout, memcpy2D | invariant of the scan over dimensions |
| C21 | operator== | for_each + fold |
| C22 | basic_array storage/layout state machine | invariant over histories |
| C23 | init-list constructors, libstdc++ minmax_element | concatenation lemma; negation witness for the ragged test |
| C24 | swap/deep_swap/rebind | memory-function equations |
| C25 | algorithms.hpp | fold characterisations |
| C26 | expr/expr_unary/expr_call trees | structural induction against a denotational spec |
| C27 | matrix_functions.hpp | direct |
| C28 | handle_heap/shared/borrowed with a ghost heap | invariant over histories |
| C29 | handle_sso/handle_stack | same; negation witnesses (leak, self-assignment) |
| C30 | bucket with 64-bit mask | invariant over histories |
| C31 | multi_bucket | invariant over histories, parameter = system addresses |
| C32 | segregator/leak_check/stats | invariant; negation witness for stats::allocate_zero |
| C33 | sym_grp ctor/iterate | well-founded recursion, invariant on checked set |
| C34 | operation, iterate, init, symmetrize | chain invariant |
| C35 | parallel init | chunk partition + reduction |
| C36 | to/from_char_buf | list induction |
| C37 | hyperslab_and_shape_from_slice | refinement to the slice spec; negation witnesses |
| C38 | make_name | injectivity of decimal printing with separators |
| C39 | scatter/gather | prefix sums of chunk lengths; negation for Fortran order |
| C40 | broadcast/reduce | pointwise; overlap test exactness |
| C41 | gemm dispatch over a reference BLAS gemm | case analysis + sums |
| C42 | gemv | same; negation for gemv_generic with beta |
| C43 | ger/outer_product | same; negation for Fortran order |
| C44 | dot/scal with reference BLAS stride rules | sums; negation for negative strides |
| C45 | inverse1/2/3 | field_simp/ring |
| C46 | determinant from LU | Mathlib `Matrix.det` |
| C47 | clef evaluator | structural induction |
| C48 | clef partial evaluation, make_function | substitution lemma; negation for capture |
| C49 | clef_auto_assign, sum | for_each + fold |
| C50 | rect_str | refinement; negation with ellipsis |
| C51 | numpy proxies, capsules | word arithmetic; negation witnesses |
| C52 | idx_map constructors, conversions, equality | direct |
| C53 | getrf/getrs over a LAPACK contract | matrix algebra of Mathlib |
| C54 | matrix predicates, cross_product | direct |
| C55 | gemm_batch family over the same BLAS | fold over the batch; negation witnesses |
| C56 | norm | Mathlib `PiLp` norm; negation witnesses |
| C57 | eigenelements, eigenvalues over LAPACK `syev`/`heev` | spectral theorem, characteristic polynomial; contract shown satisfiable |
| C58 | gesvd over LAPACK | existence and uniqueness of singular values from the spectral theorem; contract shown satisfiable |
| C59 | gelss_worker | normal equations, residual in the left null space |
| C60 | gelss_worker_hermitian | the stacked problem splits into pairs of columns; swap of a block is an isometry |
| C61 | gtsv over LAPACK | direct; negation witnesses for C order and strides; contract shown satisfiable |
| C62 | gelss over LAPACK | pseudo-inverse gives the shortest minimiser; negation witness for short right-hand sides; contract shown satisfiable |
| C63 | address spaces of expressions | induction over argument lists and expression trees; negation witnesses with unified memory |
| C64 | comparison helpers for tests | reduction to equality, maximum and loops (C21, C25); negation witnesses for NaN and conversions |
| C65 | printed arrays | injectivity of separated texts, memory-order traversal (C16); negation witnesses for lost shapes |
| C66 | slices of lazy expressions | induction over expressions, with the algebra of the slice as invariant; reduction to C06 and C26 |
| C67 | programs on arrays | refinement: memory holds the mathematical arrays; one step per statement, induction over programs |
| C68 | lifetimes | ownership invariant by counting blocks; a checker on names proved sound by simulation, induction over expressions and programs |
| C69 | elements that throw | simulation with a machine on lists for every oracle of failures; blocks counted |
| C70 | text of lazy expressions | unique readability by mutual induction over trees |
| C71 | layout arithmetic in 64 bits | refinement of the unbounded model by checked operations; bounds kept by every view operation |
| C72 | triangular factorisation of rectangular matrices | refinement to the contract of LAPACK; existence by Gaussian elimination |
| C73 | algebra of std::array | refinement of checked loops to list functions |
| C74 | texts of exceptions | simulation over programs with copies |
| C75 | division by a matrix | refinement to the inverse over a field, relative to the LAPACK contracts |
| C76 | factories of arrays | range-for as a fold over the memory order; induction over calls |
| C77 | views of other containers | refinement to lists; induction over rows |
| C78 | failures in device libraries | induction over sequences of calls |
| C79 | functions of elements | induction over the exponent; ring identities |
| C80 | printed expressions and layouts | unique readability by induction over pairs of trees |
| C81 | const arrays and views of const elements | invariant over programs of derivations, exact list of leaks |
| C82 | emptiness tests | invariant over histories: a heap handle that is not null has elements |
| C83 | programs with scalars, branches, loops and local arrays | big-step semantics on mathematical arrays, simulation by induction over programs and iterations |
| C84 | alignment of elements | ABI rules for members; divisibility |
| C85 | small arrays with elements that throw | simulation by a program without lost blocks; every set of failing calls |
| C86 | threads on disjoint parts of arrays | small-step semantics, footprints, invariant over all interleavings, commutation of independent accesses |
| C87 | Python objects to arrays by value | case analysis over the converter, contract for numpy, C22 for the constructed array |
| C88 | Arrays and views of any layout in files | refinement of memory to datasets; C17 for the temporary copies, C37 for slices, C11 for the contiguity test |
| C89 | Arrays converted between kinds of storage | invariant of worlds with all handle types, built from those of C28 and C29; refinement to lists of elements |
| C90 | Storage shared by several threads | small-step interleavings; invariant over all executions; measure for their end |
| C91 | One allocator for several threads | interleavings of single accesses; linearisation to the histories of one client (C30-C32); races for all states |
| C92 | Arrays in several memories | refinement of programs with address spaces to programs on mathematical arrays (C67); the processor sees only its part of memory |
| C93 | Programs run by several processes | refinement of systems of communicating processes to programs on the variables of all processes; termination and absence of deadlock by induction over programs |
| C94 | Which expressions compile and what they are | the checks of the compiler as functions on types; invariant over everything that can be written, by induction over expressions; agreement with the expressions of C26, C66 |
| C95 | Owning arrays are values | simulation: invariant that relates blocks, handles and layouts to functions from index tuples to elements, by induction over programs; loop invariants for the assignments |
| C96 | Views are references, valid as long as an array has their storage | simulation on top of C95: identities of storage, which array has which storage after each statement, pointers of views and handles; by induction over programs |
| C97 | Shared storage lives, with its elements, as long as something refers to it | simulation of handle programs by a machine that never releases storage; by induction over histories, with the ownership invariant of C28 |
| C98 | Arrays with small-buffer storage are the same values as arrays on the heap | invariant over programs, from the representation of C29 and the value semantics of C95: cells of every variable as a function of its value |
| C99 | Programs with arithmetic statements compute the same expressions of values | statements translated to the programs of C95 whose right-hand sides read all operands, then refinement of the evaluation in memory to the expression of values |
| C100 | Arrays on the stack are values, and moving them copies | invariant over programs: the cells of every variable are those of its value at the positions of its static layout; then comparison with the programs of C95 |
| C101 | Small-buffer arrays whose elements throw | refinement: array operations as sequences of handle operations (C85) with one more variable for the temporary of `resize`; a move out of the buffer of that temporary is a copy followed by the end of its life |
| C102 | Stack arrays whose elements throw | refinement: array operations as sequences of handle operations (C85) with one more variable for the temporary of the constructor from integers; all buffers of reachable arrays are full |
| C103 | Conversions of storage when copies throw | all histories (invariant of C89), then a case distinction on the first copy that throws, with the lemmas of C69 and C85 for loops and destructors |

All of these can be expressed; none is planned as "not applicable". What a
model cannot show: actual compiled behaviour, floating-point rounding, real
thread interleavings inside MPI/OpenMP, GPU kernels.

## Trusted base

1. The kernel of Lean 4.33.0, and the axioms `propext`, `Classical.choice`,
   `Quot.sound`. No other axiom, no `sorry`, no `native_decide`/`bv_decide`,
   no `implemented_by`, no `unsafe`. The axioms of every theorem are listed at
   the end of this file. The witnesses on literals are evaluated by the kernel
   (`decide`, `decide +kernel`, `rfl`).
2. Mathlib (definitions used in statements: `List.Perm`, `List.Nodup`,
   `Matrix`, `Matrix.det`, algebraic classes, `Finset.sum`).
3. That the definitions in `Verif/Model` say what the C++ text says. Every one
   cites file and lines. This was done by reading; nothing was compiled.
4. The statements in `Verif/Props` and the definitions in `Verif/Spec` they use.
5. The behaviour assumed of code that is not in the repository:
   * `itertools::range`: number of elements `max(0, ceil((last-first)/step))`;
     `itertools::chunk_range`: the first `n % size` chunks have one element more;
     `omp_chunk`, `mpi::chunk`: contiguous chunks of this kind.
   * libstdc++: `minmax_element` is modelled line by line; `std::max`, `min`,
     `swap`, `find`, `lower_bound`, `upper_bound`, `shared_ptr`, `to_string` by
     their contracts.
   * `malloc`/`free`: a request gives a region disjoint from all live regions
     (any strategy that does so); `calloc` zeroes.
   * C++ objects: construction, destruction and assignment of elements as in the
     ghost heap of `Model/Handles.lean` and `Model/Sso.lean`.
   * MPI collectives act on buffers as the standard says; counts are `int`.
   * BLAS: the functions `f77*` in `Model/Blas.lean`, including argument checks,
     early returns and negative increments; overlap of output and input is
     undefined behaviour. LAPACK: the documented contracts (`GetrfOK`, `GetriOK`,
     `GetrsOK`), satisfiable over every field (`C46_lapack_exists`), for matrices of size 0
     `GetrfEmptyOK` and `GetriEmptyOK` (`C46_lapack_empty_exists`), and for the
     drivers `GtsvOK` (`C61_gtsv_exists`), `HeevOK` (`C57_heev_exists`) `GesvdOK` (`C58_gesvd_exists`)
     and `GelssOK` (`C62_gelss_exists`) over the real and complex numbers.
   * HDF5: groups map names to values, hyperslab selections as documented.
   * OpenMP: single stores are atomic and sequentially consistent.
   * numpy: element address = data + sum of byte stride times index. CPython:
     the destructor of a capsule runs once, when the last reference is gone.
   * `long`, `size_t` have 64 bits, `int` 32.
6. Functions given by the user (callbacks of for_each, symmetries, initial-value
   functions, operators of lazy expressions) are pure functions of what they
   are given, unless the model says otherwise.

## What is modelled

| code | model |
|------|-------|
| layout/permutation.hpp, stdutil/array.hpp (as used by it) | Model/Perm |
| layout/idx_map.hpp, layout/policies.hpp | Model/IdxMap |
| layout/slice_static.hpp, layout/range.hpp | Model/Slice |
| layout_transforms.hpp | Model/LayoutTransforms |
| layout/bound_check_worker.hpp | Model/BoundCheck |
| layout/for_each.hpp | Model/Loops |
| layout/rect_str.hpp | Model/RectStr |
| group_indices.hpp | Model/GroupIndices |
| iterators.hpp | Model/Iterators |
| _impl_basic_array_view_common.hpp, basic_array_view.hpp (assignment, access, comparison), mem/memcpy.hpp (2D), get_block_layout | Model/Assign, Model/Swap |
| mem/allocators.hpp | Model/Allocators |
| mem/handle.hpp | Model/Handles (heap, shared), Model/Sso (sso, stack), Model/Python (borrowed) |
| basic_array.hpp, resize_or_check_if_view | Model/Arrays, Model/InitList |
| algorithms.hpp | Model/Algorithms |
| arithmetic.hpp, map.hpp, array_adapter.hpp | Model/Arithmetic |
| matrix_functions.hpp | Model/Matrix |
| sym_grp.hpp | Model/SymGrp, Model/SymPar |
| mpi.hpp, mpi/*.hpp | Model/Mpi |
| h5.hpp | Model/H5 |
| blas/{gemm,gemv,ger,dot,scal,tools}.hpp, linalg/{matmul,dot}.hpp | Model/Blas |
| lapack/{getrf,getri,getrs}.hpp, linalg/{det_and_inverse,cross_product}.hpp | Model/Linalg |
| blas/gemm_batch.hpp, fallback loops of blas/interface/cxx_interface.cpp | Model/Batch |
| linalg/norm.hpp | Model/Norm |
| linalg/eigenelements.hpp, lapack/{gtsv,gesvd,gelss,gelss_worker}.hpp | Model/Drivers |
| lapack/gelss_worker.hpp (gelss_worker_hermitian) | Model/Hermitian |
| clef/{clef,sum,literals}.hpp, clef/adapters/vector.hpp | Model/Clef, Model/AutoAssign |
| mem/address_space.hpp (promotion, combine, compatibility), get_addr_space of expressions | Model/AddressSpace |
| gtest_tools.hpp | Model/TestTools |
| print.hpp (arrays), to_string of stdutil/array.hpp | Model/Print |
| arithmetic.hpp, map.hpp: call operators with ranges | Model/ExprSlice |
| sequences of statements of a user's program | Model/Programs, Model/ProgramsMul |
| ownership: handle.hpp, arithmetic.hpp, map.hpp, basic_functions.hpp (`make_regular`), assignments of basic_array.hpp | Model/Lifetime |
| failures: handle.hpp:81-203, constructors, assignments and resize of basic_array.hpp, macros.hpp | Model/Exceptions |
| clef/io.hpp | Model/ClefIo |
| layout/idx_map.hpp, layout/slice_static.hpp, layout/bound_check_worker.hpp, iterators.hpp once more, in 64-bit integers; mem/handle.hpp:148-171 (byte counts) | Model/Machine |
| stdutil/array.hpp:46-281 | Model/StdArray |
| exceptions.hpp | Model/Messages |
| arithmetic.hpp:273-307 | Model/Divide |
| basic_functions.hpp:25-112, basic_array.hpp:274-334 | Model/Factories |
| basic_array_view.hpp:120-175, basic_functions.hpp:302-311, mem/memset.hpp | Model/Containers |
| layout/rect_str.hpp:182-183 | Model/RectStrEq |
| blas/interface/cublas_interface.cpp:74-188, lapack/interface/cusolver_interface.cpp:50-106 (status only) | Model/DeviceErrors |
| mapped_functions.hpp:25-64, stdutil/complex.hpp:30-56 | Model/Scalars |
| clef/clef.hpp (placeholders given expressions) | Model/ClefLazy |
| print.hpp (expressions, adapters, layouts) | Model/PrintExpr |
| const qualifiers of arrays, views, iterators, references | Model/Constness |
| empty(), is_empty(), is_null() | Model/Empty |
| composition of statements by branches and loops on values read; local arrays | Model/ProgramsFlow |
| positions of members and elements in bytes (ABI rules assumed) | Model/Alignment |
| mem/handle.hpp: exceptions in `handle_sso`, `handle_stack` | Model/ThrowSmall |
| _impl_basic_array_view_common.hpp, arithmetic.hpp: assignments as single loads and stores, in several threads; basic_array.hpp: the generator of `rand` | Model/Threads |
| python/nda_py/cpp2py_converters.hpp: arrays by value | Model/PythonArray |
| h5.hpp: arrays and views in memory | Model/H5Layout |
| mem/handle.hpp: conversions; basic_array.hpp:103-106 | Model/Convert |
| mem/handle.hpp:66-112, 472-494: `get_sptr`, shared handles, in several threads | Model/SharedThreads |
| blas/interface/cxx_interface.cpp:92-152 with MKL | Model/BatchMkl |
| mem/handle.hpp:69-73, mem/allocators.hpp: the allocators in several threads, access by access | Model/AllocThreads |
| basic_functions.hpp:30-46, 157-206; basic_array.hpp:100-108, 153-171; mem/malloc, memcpy, memset.hpp; handle.hpp:191-203: address spaces at run time | Model/Spaces |
| mpi.hpp:35-45; mpi/gather.hpp, scatter.hpp, reduce.hpp with the assignments and constructors of basic_array.hpp:183-186, 384-389, basic_array_view.hpp:219-224: as processes that call MPI | Model/Spmd |
| arithmetic.hpp:31-310, map.hpp:28-99, concepts.hpp:120-180, _impl_basic_array_view_common.hpp:128-235, layout_transforms.hpp:25-101, matmul.hpp, det_and_inverse.hpp, norm.hpp, matrix_functions.hpp, basic_functions.hpp: the types and static checks | Model/Types |
| basic_array.hpp:71-176, 264-379, _impl_basic_array_view_common.hpp:285-316, 331-388 in programs whose right-hand sides read arrays | Model/Values |
| basic_array_view.hpp:75-258 (made, copied, rebound, swapped, assigned to, in programs with arrays), mem/handle.hpp:517-553 | Model/References |
| `mem/handle.hpp` 290-463 with `basic_array.hpp` 92-416 (arrays whose storage is `mem::sso<K>`: constructors, assignments, resize, destructor, element access) | `Model/SmallArrays` |
| `arithmetic.hpp` 31-162, `map.hpp` 48-86 with `basic_array.hpp` 159-176, 357-363, `basic_array_view.hpp` 198-204, `_impl_basic_array_view_common.hpp` 285-316 (programs of statements with expressions) | `Model/Statements` |
| `mem/handle.hpp` 226-286, `declarations.hpp` 80-101 with `basic_array.hpp` 92-416 (arrays on the stack with static extents: constructors, assignments, resize, destructor, element access) | `Model/StackArrays` |
| `basic_array.hpp` 98-175, 339-416 over `mem/handle.hpp` 290-463 (arrays with small-buffer storage and elements that throw) | `Model/ThrowSmallArrays` |
| `basic_array.hpp` 92-175, 339-416 over `mem/handle.hpp` 224-286 (arrays on the stack with elements that throw) | `Model/ThrowStackArrays` |
| `mem/handle.hpp` 192-203, 382-407, `basic_array.hpp` 103-106 with copies that throw | `Model/ThrowConvert` |
| python/nda_py/{nda_py,make_py_capsule,cpp2py_converters}.hpp | Model/Python |

## What is not modelled

* GPU code: device.hpp, cuBLAS/cuSOLVER/MAGMA branches.
* Templates as such: overload resolution, concepts (concepts.hpp), SFINAE. Where
  the compiler rejects a program the model has an error outcome; that the
  intended overload is chosen is read off the code by hand.
* macros.hpp, clef/macros.hpp, pybind11_converters.hpp (calls functions that do
  not exist in nda_py).
* Arrays of elements that throw are over `handle_heap` (C69), `handle_sso` (C101) and `handle_stack` (C102), with conversions
  of storage (C103), only;
  `handle_shared` makes no elements.
* Rounding, overflow, NaN (except where a theorem says so).
* Machine overflow of `long` outside the layout arithmetic of C71; the 32-bit truncations of BLAS, MPI
  and block copies are modelled.
* Weak memory, data races inside user callbacks.

## Where the code disagrees with the intended property

Each is a theorem with a concrete witness (or a statement about all such cases);
the positive theorem next to it has the suffix `_partial`, unless the property
does not claim the case.

* C02 `encode` shifts by 64 or more bits from rank 9 on although ranks up to 15 are
  accepted; static extents check only their first entry.
* C04/C08 positions and orders of empty arrays.
* C07/C12 adding unit fast dimensions to an evenly spaced layout keeps a promise
  that is no longer true.
* C10 reshape of a transposed view leaves strides unset; reversed views pass the
  contiguity test.
* C11 false positive (reversed views), false negative (unit dimension with a large
  stride), false positive of `is_strided_1d`.
* C14 `range(-1,-1)` is not checked.
* C15 `for_each_static` permutes the arguments for orders other than C.
* C16 the iterator does not terminate for a zero extent after a non-zero one
  without the even-spacing promise.
* C18 scalar assignment does nothing for evenly spaced layouts with non-positive stride.
* C19 overlapping copies; `a = a(range(1,3))` resizes first and reads freed memory.
* C20 `get_block_layout`: irregular spacing, 32-bit truncation, division by zero.
* C22 a moved-from array keeps its shape without storage; `resize_or_check_if_view`
  leaves it so.
* C23 ragged lists are accepted, empty nested lists are undefined behaviour.
* C24 `deep_swap` of overlapping views.
* C25 NaN and empty arrays for min/max.
* C26 mixed array/matrix expressions: the left operand decides what a scalar means.
* C27 `matrix::ones` gives the identity matrix; `trace` counts in `int`.
* C28 a moved-from shared handle keeps a pointer without a share; the reference-count
  pair is never deleted; self-move empties a handle.
* C29 self-assignment of `handle_sso`; moved-from inline elements are not destroyed;
  `handle_stack` destroys elements it never constructed and constructs over live ones.
* C30 the bucket allocator does not check sizes. C32 `stats::allocate_zero` does not zero.
* C34 `sym_grp` init/symmetrize for arrays other than dense C order.
* C36 strings with embedded NUL are cut. C37 `last = -1`, negative steps, and real
  datasets read into complex arrays.
* C39 scatter/gather in Fortran order; differing local extents.
* C41 empty inner dimension, steps along the fast dimension, `gemm_generic` loses
  `beta*c`. C42 `gemv_generic` gives `(1+beta)*alpha*A*b`, empty inner dimension,
  reversed vectors. C43 `outer_product` in Fortran order. C44 reversed vectors.
* C45 a singular 2x2 matrix is left with its diagonal exchanged. C46 the determinant of
  a non-square matrix without storage is 1. C53 `getrs` with C-order right-hand sides.
* C47 `if_else` evaluates both branches; sums that depend on only some placeholders stay
  lazy; a placeholder given twice; literal placeholders as sum indices.
* C48 capture of sum indices; dangling references to leaves of the original tree.
* C49 the test that indices differ compares only with the first.
* C50 ellipsis, generated labels, duplicate labels, `noexcept` termination.
* C51 negative strides and non-multiples from numpy; acceptance tests whether some
  element converts; empty arrays are refused; capsule of a moved parent. By reading only:
  `make_handle` (make_py_capsule.hpp:51-56) passes a `void *` where a function pointer is
  expected, so it cannot be instantiated; the capsule of a view of const elements holds a
  `handle_shared<U>` and is deleted as a `handle_shared<const U>` (82-84).
* C52 no check for `smallest_stride_is_one`, inexact check for `strided_1d`.
* C55 `gemm_batch` uses the leading dimension of the first matrix for all;
  `gemm_batch_strided` with rank-3 arrays in Fortran order multiplies the wrong blocks.
* C56 the 2-norm of a reversed vector reads outside it; `inf` of an empty vector.
* C59 a right-hand side without columns reads the maximum of an empty vector; dependent
  columns are not detected (division by zero).
* C60 a right-hand side that is not contiguous is read as if it were (checked in debug
  builds only): `C60_strided_witness`.
* C61 `gtsv` looks neither at the memory order of the right-hand side nor at strides,
  not even in debug builds: `C61_c_order_witness`, `C61_stride_witness`.
* C62 with fewer rows than columns, `gelss` writes the solution below a right-hand side of
  `m` rows: `C62_short_witness`.
* C63 `(host + unified) + device` is accepted although no processor reaches all operands, and
  `combine<Host, Unified, Device>` is accepted while `combine<Host, Device, Unified>` is not.
* C64 a NaN after the first element is not noticed by the array comparisons; an array of integers is
  close to an array of halves, but not the other way round.
* C65 the number of columns of a matrix without rows, and the shape of arrays of rank 3 and more,
  are not printed; equal arrays of rank 3 in different memory orders are printed differently.
* C66 a matrix plus a scalar is a lazy expression with elements but without slices: the call operator does not
  compile for ranges.
* C68 `auto &&x = make_regular(f())` dangles (the temporary is forwarded, not moved), `auto e = (A + f())(range)` dangles
  although `auto e = A + f()` does not, `A = B` for arrays of equal shape ends the validity of views of `A` although
  `A = B + C` does not, and moving an expression made by a mapped function copies its arrays.
* C69 when an element throws: `resize` leaves the new shape on the old storage and leaks the new block (the layout is set
  first, and `handle_heap(long)` has nobody to release its block); `A = B` is undefined behaviour (the copy constructor of
  the handle delegates, so its destructor runs over elements that were never constructed).  When `malloc` returns null
  and `NDEBUG` is set, a copy of an array succeeds and has no elements.
* C70 `cos(i_)` and `sin(i_)` print the same text, `lambda(_2147483647)`: the line that prints the callee is commented out.
* C71 `array<double, 1>(2^61)` requests 0 bytes; `size()` of the empty shape `{2^40, 2^40, 0}` and the strides of `{0, 2^40, 2^40}` overflow;
  slicing one row by `range(0, 1, 2^62)` overflows in the new stride.
* C72 `lapack::getrf` of a matrix in C order that is not square: the leading dimension is too small (more rows than columns), or the block
  named to LAPACK ends outside the memory of the view (fewer rows than columns).
* C74 writing to a copy of an exception overwrites its text from the beginning (`stringstream(str)` without `ate`).
* C65 an array of rank 0 is printed as nothing.
* C76 `ones` of a matrix is the identity matrix; `rand` of rank 0 uses a generator with the default seed, so every run gets the same numbers;
  samples of type `double` below 1 may become 1 when rounded to `float`; which sample becomes the real part is not specified.
* C45, C46 a dense view of size 0x0 that has storage has leading dimension 0, which LAPACK rejects: `determinant` and `inverse` throw, although
  the determinant of the same matrix without storage is 1.
* C77 `size()` of the result of a mapped function asks a `std::tuple` for its size and does not compile.
* C50 comparison of layouts with labels is not transitive (no labels are equal to any), and looking up a string, a `const` function, changes the result of
  a comparison.
* C78 the status of `axpy` and `copy` of real vectors, of MAGMA's batched `gemm` and of the query for work space of `gesvd` is dropped.
* C79 `pow` with a negative integral exponent gives 1; for 16-bit unsigned numbers it overflows `int`.
* C44 sizes are passed as `int`: for 2^31 elements `dot` gives 0 and `scal` does nothing, for 2^32 + n elements they use the first n.
* C48 the evaluator takes a placeholder that is given an expression for not lazy: `eval(if_else(x_, 1, 2), x_ = y_)` is rejected although `eval(if_else(x_, 1, z_), x_ = y_)` is
  accepted; calls of objects without lazy calls are rejected too; an expression that uses the index of a sum is captured.
* C80 every function of elements is printed as `mapped`, whatever the function and the arrays.
* C81 subscripts and slices of a const array give write access to its elements (`_impl_basic_array_view_common.hpp:146-168` use `ValueType`, not the const `r_v_t`; the FIXME there says so
  for slices), and so do views constructed from a const array (`basic_array_view.hpp:116` looks at the value type only) and `make_array_view`, `make_matrix_view`.
* C82 `empty()` is documented as `size() == 0` but tests the pointer (`_impl_basic_array_view_common.hpp:54-58`): a moved-from array keeps its size and is empty, a view without elements of an
  array with elements is not empty; `a(range::all, 1)` of an array of shape (0, 3) adds an offset to a null pointer.
* C84 elements of stack and small sso arrays are misaligned for types of alignment 16 or more, since the `alignas` of the handles is commented out (`C84_stack_witness`).
* C85 `handle_sso(size)` loses its memory when an element throws; the copy constructor of `handle_sso` and `handle_stack(size)` then destroy elements that were never made, because they delegate (`C85_copy_witness`, `C85_stack_witness`).
* C86 `basic_array::rand` in two threads is a race on its static generator, although the arrays are different; both can get the same sample (`C86_rand_witness`).
* C87 a numpy array in reverse order (`a[::-1]`) is accepted by value, not copied, and read outside its memory (`C87_reversed_witness`); object arrays in Fortran order are refused (`C87_fortran_witness`).
* C88 `h5_read` into a view with reversed rows writes outside the array, because the contiguity test accepts the view (`C88_reversed_witness`); `h5_read` of a dataset of another shape into a view with gaps is not rejected, unlike for contiguous views (`C88_shape_unchecked_witness`).
* C89 a shared handle whose share was moved away keeps its pointer and size; converting it to heap or small-buffer storage reads released memory (`C89_moved_witness`).
* C90 making a shared handle of a const array is not thread safe: `get_sptr` sets the mutable `sptr` without synchronisation; two threads that make the first shared handles of one array race, and can make two control blocks for one block of memory (`C90_race`, `C90_release_witness`).
* C55 without MKL, `gemm_batch_strided` multiplies position and stride as `int`, which overflows for large stacks (`C55_overflow_witness`).
* blas/interface/cxx_interface.cpp:49-50: on systems where Fortran names are upper case, `zdotu` and `zdotc` would be linked to `DDOT` (`F77_GLOBAL(zdotu, DDOT)`); names of symbols are not modelled.
* C91 the allocator of `handle_heap` is one static object for all threads. Only `mallocator` may be used from several threads: two threads can get the same chunk of a `bucket` or `multi_bucket`, the leak checker loses bytes and aborts, the statistics lose counts (`C91_bucket_race`, `C91_multi_bucket_race`, `C91_leak_check_race`, `C91_stats_race`). `NDA_DEBUG_LEAK_CHECK` thus makes programs with threads abort that are correct without it.
* C92 `fill_with_scalar`, `assign_from_scalar` (and with them `ones`, `array(n, x)`) do not check the address space: assigning a scalar to a device array makes the processor store to device memory (`C92_fill_device`). The sum of a Device and a Unified array counts as Unified and is computed on the processor (`C92_mixed_witness`). `zeros<T, mem::Unified>` returns a device array (`C92_zeros_unified_witness`). The runtime error for device arrays is thrown inside functions that are `noexcept`, so the program is terminated (`C92_terminate_witness`).
* C93 The collective operations check shapes and gaps on each process alone, after or between collective calls: if the check fails on one process only, the others wait for ever (`C93_reduce_view_hangs`, `C93_gap_hangs`, `C93_broadcast_hangs`); arrays of arrays with different numbers of elements as well (`C93_cells_hang`). The assignment operators are `noexcept`, so the exceptions of `resize_or_check_if_view` and of the contiguity check terminate the program (`C93_terminates`). `A = mpi::all_gather(A)` resizes `A` before it is sent (`C93_self_gather`). The `EXPECTS` in the assignment to views makes a collective call in debug mode only and demands a 1 x rest view on processes that receive nothing: the same program hangs in debug mode and works in release mode (`C93_debug_hangs`).
* C94 `operator+` and `operator-` compare ranks only: a matrix plus an array of two indices compiles and is what the left operand is (`C94_mixing_witness`). `operator*` returns nothing if the algebra of its left operand is `N` (a function mapped onto operands of different kinds): the product compiles with type `void` (`C94_void`); a matrix times such an operand of rank 1 is taken for a matrix-vector product (`C94_matvec_witness`). In release mode `map(f)(rank1, rank2)` compiles but is no `Array` (`C94_map_witness`). `expr_unary` has no `operator[]`, so `(-v)[0]` does not compile (`C94_bracket_witness`). `expr_call::size()` (map.hpp:85) calls `size()` of a `std::tuple`: it does not compile, and hence neither does `norm(abs(v))` (`C94_norm_witness`). `abs(m)(ellipsis{}, 0, 0)` does not compile while `m(ellipsis{}, 0, 0)` does (`C94_ellipsis_witness`).
* C95 An assignment whose right-hand side reads elements of the target at other indices sees the ones already assigned: `a(range(1, 4)) = a(range(0, 3))` on `1 2 3 4` makes `1 1 1 1` (`C95_overlap_witness`). Move assignment of an array to itself loses its elements (`C95_self_witness`).
* C99 `a(range(3, -1, -1)) = 5` in a program assigns nothing (`C99_reversed_witness`; the loop of `fill_with_scalar`, C18).
* C96 `a = b` (copy assignment) allocates new storage even if the shapes are equal, and even for `a = a`: all views of `a` are invalid afterwards (`C96_copy_assignment_invalidates`), whereas `a = expression` of equal shape keeps them (`C96_expression_assignment_keeps`).
* C98 `mem::handle_sso` copy assignment to itself (handle.hpp:447-462): an array with more elements than fit in the buffer loses its elements when it is assigned to itself (`C98_self_assign_witness`, whole arrays; `C29_self_assign_witness`, handles). The same array on the heap keeps them.
* C100 `mem::handle_stack` with a non-trivial element type: `basic_array` default-constructed on the stack holds no objects but its destructor destroys `Size` of them; copy and move assignment use placement new over existing objects (handle.hpp:244-277; `C100_nontrivial_witness`).
* C101 `basic_array::resize` with `handle_sso`, for a non-trivial element type and a new size that fits into the buffer: `sto = storage_t{n}` makes `n` elements in a temporary, moves them into the array, and the moved-from elements of the temporary are never destroyed (handle.hpp:357-371, `x._data = nullptr`): `n` elements lost per `resize` although nothing fails (`C101_small_resize`). If an element throws in the temporary, the array has the new shape and the old elements (`C101_resize_throws`).
* C101 `basic_array(Int...)` with `handle_sso`: `sto = storage_t{lay.size()}` in the body of the constructor (basic_array.hpp:118) makes every element twice, and never destroys the first ones if they fit into the buffer (`C101_ints`).
* C102 `basic_array` over `handle_stack`, non-trivial element types: `stack_array<T, N> a;` makes no elements (basic_array.hpp:95, handle.hpp:244), and its destructor destroys them nevertheless (246-250): undefined (`C102_default`). Copy and move assignment construct over the existing elements (274-277), which are never destroyed (`C102_assign`). Constructors whose elements throw destroy elements that were never made, if the stack is unwound before `std::terminate`.
* C103 `handle_heap(H const &)` and `handle_sso(H const &)` delegate to the constructor without initialisation (handle.hpp:194, 384): when a copy throws in their body, the destructor of the handle runs and destroys all `_size` elements, also those that were not made: undefined in every case (`C103_throw`). The array constructor is `noexcept` (basic_array.hpp:105): `C103_array_throw`.

## Axioms per theorem (generated with `#print axioms`)

### no axioms (4 theorems)

`Nda.IdxMap.C52_degrade_order`, `Nda.AddressSpace.C63_commutes`, `Nda.AddressSpace.C63_order_witness`, `Nda.Scalars.C79_pow_witness`

### propext (121 theorems)

`Nda.Perm.C01_cycle_invalid_witness`, `Nda.IdxMap.C04_empty_witness`, `Nda.LayoutTransforms.C07_fast_dims_witness`, `Nda.LayoutTransforms.C08_empty_witness`, `Nda.LayoutTransforms.C10_reversed_witness`, `Nda.Loops.C15_static_order_witness`, `Nda.Assign.C18_reversed_witness`, `Nda.Arr.C19_self_view_witness`, `Nda.Assign.C19_shift_witness`, `Nda.Assign.C19_shift_left_witness`, `Nda.Assign.C19_transpose_witness`, `Nda.Assign.C20_irregular_witness`, `Nda.Assign.C20_truncation_witness`, `Nda.Assign.C20_empty_witness`, `Nda.Arr.C22_moved_witness`, `Nda.Arr.C23_ragged_witness`, `Nda.Arr.C23_empty_witness`, `Nda.Swap.C24_overlap_witness`, `Nda.Algorithms.C25_empty_witness`, `Nda.Arith.C26_mixed_witness`, `Nda.Matrix.C27_ones_witness`, `Nda.Mem.C28_moved_shared_witness`, `Nda.Mem.C29_self_assign_witness`, `Nda.Mem.C29_inline_move_witness`, `Nda.Mem.C29_stack_witness`, `Nda.Alloc.C32_stats_zero_witness`, `Nda.SymGrp.C34_fortran_witness`, `Nda.SymGrp.C34_strided_witness`, `Nda.H5.C36_embedded_nul_witness`, `Nda.H5.C37_last_witness`, `Nda.H5.C37_negative_step_witness`, `Nda.H5.C37_real_into_complex_witness`, `Nda.H5.C37_write_kind_rejected`, `Nda.Mpi.C39_fortran_scatter_witness`, `Nda.Mpi.C39_fortran_gather_witness`, `Nda.Mpi.C39_local_shape_witness`, `Nda.Blas.C41_empty_witness`, `Nda.Blas.C41_step_witness`, `Nda.Blas.C41_generic_beta_witness`, `Nda.Blas.C42_gemv_rejects`, `Nda.Blas.C42_generic_beta_witness`, `Nda.Blas.C42_empty_witness`, `Nda.Blas.C42_reversed_witness`, `Nda.Blas.C43_outer_fortran_witness`, `Nda.Blas.C44_reversed_witness`, `Nda.Blas.C44_reversed_oob_witness`, `Nda.Blas.C44_scal_reversed_witness`, `Nda.Blas.C44_generic_empty_witness`, `Nda.RectStr.C50_ellipsis_witness`, `Nda.RectStr.C50_generated_witness`, `Nda.RectStr.C50_duplicate_witness`, `Nda.RectStr.C50_terminate_witness`, `Nda.RectStr.C50_equal_symmetric`, `Nda.RectStr.C50_equal_witness`, `Nda.Python.C51_negative_witness`, `Nda.Python.C51_multiple_witness`, `Nda.Python.C51_elements_witness`, `Nda.Python.C51_moved_parent_witness`, `Nda.IdxMap.C52_degrade_sound`, `Nda.IdxMap.C52_smallest_witness`, `Nda.IdxMap.C52_strided_witness`, `Nda.Blas.C55_leading_dimension_witness`, `Nda.Blas.C55_fortran_witness`, `Nda.Blas.C55_overflow_witness`, `Nda.Norm.C56_reversed_witness`, `Nda.Norm.C56_empty_witness`, `Nda.Linalg.C60_strided_witness`, `Nda.Linalg.C61_gtsv_rejects`, `Nda.AddressSpace.C63_accepted`, `Nda.AddressSpace.C63_mixed_witness`, `Nda.TestTools.C64_numbers_partial`, `Nda.TestTools.C64_nan_witness`, `Nda.TestTools.C64_conversion_witness`, `Nda.Print.C65_rank0_witness`, `Nda.Exc.C69_copy_without_memory`, `Nda.Machine.C71_empty_witness`, `Nda.Machine.C71_check_witness`, `Nda.Machine.C71_bytes_witness`, `Nda.StdArray.C73_negative_witness`, `Nda.Containers.C77_size_partial`, `Nda.Containers.C77_mapped_size_witness`, `Nda.DeviceErrors.C78_lost_witness`, `Nda.Constness.C81_slice_witness`, `Nda.Constness.C81_element_witness`, `Nda.Constness.C81_construct_witness`, `Nda.Constness.C81_make_view_witness`, `Nda.Empty.C82_moved_witness`, `Nda.Empty.C82_view_witness`, `Nda.Empty.C82_null_witness`, `Nda.Mem.C85_copy_witness`, `Nda.Mem.C85_stack_witness`, `Nda.Threads.C86_ends`, `Nda.Threads.C86_variables`, `Nda.Threads.C86_rows`, `Nda.Python.C87_reversed_witness`, `Nda.Python.C87_fortran_witness`, `Nda.H5.C88_reversed_witness`, `Nda.H5.C88_shape_unchecked_witness`, `Nda.Mem.C89_moved_witness`, `Nda.SharedThreads.C90_release_witness`, `Nda.Spaces.C92_fill_device_witness`, `Nda.Spaces.C92_mixed_witness`, `Nda.Spaces.C92_terminate_witness`, `Nda.Spaces.C92_zeros_unified_witness`, `Nda.Spmd.C93_terminates`, `Nda.Types.C94_transform`, `Nda.Types.C94_mixing_witness`, `Nda.Types.C94_void_witness`, `Nda.Types.C94_matvec_witness`, `Nda.Types.C94_map_witness`, `Nda.Types.C94_bracket_witness`, `Nda.Types.C94_norm_witness`, `Nda.Types.C94_ellipsis_witness`, `Nda.Arr.C95_overlap_witness`, `Nda.Arr.C95_self_witness`, `Nda.SmallArr.C98_self_assign_witness`, `Nda.Num.C99_overlap_witness`, `Nda.Num.C99_reversed_witness`, `Nda.StackArr.C100_nontrivial_witness`, `Nda.Mem.SmallArr.C101_only_resize`, `Nda.Mem.SmallArr.C101_witness`

### propext, Quot.sound (90 theorems)

`Nda.Perm.C01_apply_perm`, `Nda.Perm.C01_identity`, `Nda.Perm.C02_encode_undefined`, `Nda.Perm.C02_static_extents_witness`, `Nda.LayoutTransforms.C06_shape_unique`, `Nda.LayoutTransforms.C06_rejects`, `Nda.LayoutTransforms.C11_reversed_witness`, `Nda.Loops.C15_static`, `Nda.Loops.C15_static_order`, `Nda.Grid.C16_random_access`, `Nda.Grid.C16_distance`, `Nda.Assign.C18_negative_stride`, `Nda.Swap.C24_bindings`, `Nda.Swap.C24_swap`, `Nda.Arith.C26_shape`, `Nda.Arith.C26_eval_mixed`, `Nda.Arith.C26_promises`, `Nda.Matrix.C27_trace`, `Nda.Mem.C29_stack_partial`, `Nda.Alloc.C30_oversize_witness`, `Nda.H5.C37_rank_checked`, `Nda.Mpi.C39_strided_rejected`, `Nda.Mpi.C39_gather_shape`, `Nda.Mpi.C40_broadcast_view_rejected`, `Nda.Blas.C44_large_witness`, `Nda.Linalg.C45_lapack_errors`, `Nda.Linalg.C45_empty_view`, `Nda.Linalg.C46_rejects`, `Nda.Linalg.C46_empty_witness`, `Nda.Clef.C47_if_else_witness`, `Nda.Clef.C47_superfluous_witness`, `Nda.Clef.C47_twice_witness`, `Nda.Clef.C47_literal_witness`, `Nda.Clef.C47_lazy_agrees`, `Nda.Clef.C48_sum_witness`, `Nda.Clef.C48_capture_witness`, `Nda.Clef.C48_dangling_witness`, `Nda.Clef.C48_function_survives`, `Nda.Clef.C48_outside_survives`, `Nda.Clef.C48_value_survives`, `Nda.Clef.C48_lazy_if_witness`, `Nda.Clef.C48_lazy_call_witness`, `Nda.Clef.C48_lazy_capture_witness`, `Nda.Clef.C48_if_types`, `Nda.Clef.C49_all_different_witness`, `Nda.Clef.C49_sum_witness`, `Nda.RectStr.C50_unknown`, `Nda.RectStr.C50_equal_partial`, `Nda.Python.C51_to_python`, `Nda.Python.C51_from_python_partial`, `Nda.Python.C51_roundtrip_partial`, `Nda.IdxMap.C52_equal_iff`, `Nda.Linalg.C54_is_square`, `Nda.Blas.C55_mkl_strided`, `Nda.AddressSpace.C63_combine`, `Nda.AddressSpace.C63_expression`, `Nda.AddressSpace.C63_one_processor_partial`, `Nda.AddressSpace.C63_compatible`, `Nda.AddressSpace.C63_same`, `Nda.Print.C65_vector`, `Nda.Print.C65_tuple`, `Nda.Programs.C67_no_exception`, `Nda.Programs.C67_program_no_exception`, `Nda.Programs.C67_product_no_exception`, `Nda.Programs.C67_product_program_no_exception`, `Nda.Lifetime.C68_moved`, `Nda.Clef.C70_printable`, `Nda.StdArray.C73_sum`, `Nda.StdArray.C73_product`, `Nda.StdArray.C73_dot_product`, `Nda.Messages.C74_copy_loses`, `Nda.DeviceErrors.C78_reported_partial`, `Nda.DeviceErrors.C78_returned`, `Nda.DeviceErrors.C78_unsynchronised`, `Nda.Scalars.C79_pow_negative`, `Nda.Scalars.C79_complex`, `Nda.Constness.C81_exact`, `Nda.Align.C84_stack_witness`, `Nda.Mem.C85_stack_partial`, `Nda.Threads.C86_alone`, `Nda.Threads.C86_block`, `Nda.Threads.C86_blocks`, `Nda.Threads.C86_race_witness`, `Nda.Threads.C86_rand_witness`, `Nda.Python.C87_accept`, `Nda.SharedThreads.C90_race`, `Nda.Spaces.C92_fill_device`, `Nda.Spmd.C93_gap_hangs`, `Nda.Types.C94_regular`, `Nda.Mem.StackArr.C102_default`

### propext, Classical.choice, Quot.sound (485 theorems)

`Nda.Perm.C01_applyInverse_apply`, `Nda.Perm.C01_apply_applyInverse`, `Nda.Perm.C01_apply_compose`, `Nda.Perm.C01_applyInverse_compose`, `Nda.Perm.C01_compose_assoc`, `Nda.Perm.C01_inverse`, `Nda.Perm.C01_applyInverse_eq_apply_inverse`, `Nda.Perm.C01_isValid_true_iff`, `Nda.Perm.C01_isValid_false_iff`, `Nda.Perm.C01_reverseIdentity`, `Nda.Perm.C01_transposition`, `Nda.Perm.C01_cycle`, `Nda.Perm.C02_decode_encode_partial`, `Nda.Perm.C02_encode_injective_partial`, `Nda.Perm.C02_static_extents_partial`, `Nda.IdxMap.C03_fresh_bijection`, `Nda.IdxMap.C03_empty_ellipsis`, `Nda.IdxMap.C03_strides`, `Nda.IdxMap.C04_toIdx_call`, `Nda.IdxMap.C04_call_toIdx`, `Nda.IdxMap.C04_toIdx_nested`, `Nda.LayoutTransforms.C05_chain_safe`, `Nda.LayoutTransforms.C06_slice_elements`, `Nda.LayoutTransforms.C07_flags_hold_partial`, `Nda.LayoutTransforms.C07_static_extents_hold`, `Nda.LayoutTransforms.C07_slice_keeps_flags`, `Nda.LayoutTransforms.C07_linear_access`, `Nda.LayoutTransforms.C08_order_valid`, `Nda.LayoutTransforms.C08_test_exact`, `Nda.LayoutTransforms.C08_chain_order_valid`, `Nda.IdxMap.C09_transpose_element`, `Nda.IdxMap.C09_transpose_compose`, `Nda.IdxMap.C09_transpose_inverse`, `Nda.IdxMap.C09_transposed_view`, `Nda.IdxMap.C09_transposed_twice`, `Nda.IdxMap.C09_matrix_twice`, `Nda.LayoutTransforms.C10_reshape_partial`, `Nda.LayoutTransforms.C10_reshape_back_partial`, `Nda.LayoutTransforms.C10_flatten_partial`, `Nda.LayoutTransforms.C10_policy`, `Nda.LayoutTransforms.C10_transposed_witness`, `Nda.LayoutTransforms.C11_contiguous_sound_partial`, `Nda.LayoutTransforms.C11_contiguous_complete_partial`, `Nda.LayoutTransforms.C11_chain_sound_partial`, `Nda.LayoutTransforms.C11_unit_dim_witness`, `Nda.LayoutTransforms.C11_strided_witness`, `Nda.IdxMap.C11_strided_complete`, `Nda.LayoutTransforms.C12_same_elements_partial`, `Nda.LayoutTransforms.C12_strided_witness`, `Nda.GroupIndices.C13_accepts_iff`, `Nda.GroupIndices.C13_group`, `Nda.GroupIndices.C13_view`, `Nda.BoundCheck.C14_exact_partial`, `Nda.BoundCheck.C14_accepted_safe_partial`, `Nda.BoundCheck.C14_element_exact`, `Nda.BoundCheck.C14_element_ellipsis`, `Nda.BoundCheck.C14_blind_witness`, `Nda.Loops.C15_for_each`, `Nda.Loops.C15_enumeration`, `Nda.Loops.C15_trace`, `Nda.Loops.C15_empty`, `Nda.IdxMap.C16_iterate_partial`, `Nda.IdxMap.C16_indices`, `Nda.IdxMap.C16_empty_never_terminates`, `Nda.Assign.C17_assign_partial`, `Nda.Assign.C17_assign_host`, `Nda.Assign.C17_assign_expr`, `Nda.Assign.C18_fill_partial`, `Nda.Assign.C18_matrix_partial`, `Nda.Assign.C19_pointwise`, `Nda.Assign.C19_compound`, `Nda.Assign.C19_copy_exact`, `Nda.Assign.C19_read_ahead`, `Nda.Arr.C19_resize`, `Nda.Assign.C20_block_layout_partial`, `Nda.Assign.C21_equality`, `Nda.Assign.C21_views`, `Nda.Assign.C21_equivalence`, `Nda.Arr.C22_history_partial`, `Nda.Arr.C22_resize_same`, `Nda.Arr.C22_assign_values`, `Nda.Arr.C22_build_values`, `Nda.Arr.C23_shape2`, `Nda.Arr.C23_shape3`, `Nda.Arr.C23_rank1`, `Nda.Arr.C23_rank2`, `Nda.Arr.C23_rank3`, `Nda.Arr.C23_reject_partial`, `Nda.Swap.C24_deep_swap`, `Nda.Algorithms.C25_fold`, `Nda.Algorithms.C25_sum`, `Nda.Algorithms.C25_product`, `Nda.Algorithms.C25_any`, `Nda.Algorithms.C25_all`, `Nda.Algorithms.C25_max`, `Nda.Algorithms.C25_min`, `Nda.Algorithms.C25_frobenius`, `Nda.Algorithms.C25_in_memory`, `Nda.Algorithms.C25_nan_witness`, `Nda.Arith.C26_eval`, `Nda.Arith.C26_assign`, `Nda.Arith.C26_compound_scalar`, `Nda.Arith.C26_compound`, `Nda.Arith.C26_linear`, `Nda.Arith.C26_linear_agrees`, `Nda.Matrix.C27_eye`, `Nda.Matrix.C27_dagger`, `Nda.Matrix.C27_transpose_call`, `Nda.Matrix.C27_diagonal`, `Nda.Matrix.C27_diagonal_write`, `Nda.Matrix.C27_diag`, `Nda.Matrix.C27_vstack`, `Nda.Mem.C28_errors`, `Nda.Mem.C28_history_partial`, `Nda.Mem.C28_no_leak`, `Nda.Mem.C28_copy`, `Nda.Mem.C28_pair_leak`, `Nda.Mem.C29_sso_partial`, `Nda.Mem.C29_no_leak`, `Nda.Alloc.C30_bucket`, `Nda.Alloc.C30_next`, `Nda.Alloc.C30_release`, `Nda.Alloc.C31_multi_bucket`, `Nda.Alloc.C31_routing`, `Nda.Alloc.C32_segregator`, `Nda.Alloc.C32_leak_check`, `Nda.Alloc.C32_stats_partial`, `Nda.Alloc.C32_composed`, `Nda.SymGrp.C33_partition`, `Nda.SymGrp.C33_orbits`, `Nda.SymGrp.C34_members`, `Nda.SymGrp.C34_init`, `Nda.SymGrp.C34_init_symmetric`, `Nda.SymGrp.C34_symmetrize`, `Nda.SymGrp.C34_symmetrize_fixed`, `Nda.SymGrp.C34_init_positions`, `Nda.SymGrp.C35_race_free`, `Nda.SymGrp.C35_parallel`, `Nda.H5.C36_char_buf`, `Nda.H5.C36_round_trip`, `Nda.H5.C37_selection_partial`, `Nda.H5.C37_read_partial`, `Nda.H5.C37_same_as_memory_partial`, `Nda.H5.C37_write_partial`, `Nda.H5.C37_view_checked`, `Nda.H5.C37_whole`, `Nda.H5.C37_whole_slice_partial`, `Nda.H5.C37_write_shape_rejected`, `Nda.H5.C38_names_distinct`, `Nda.H5.C38_name_not_shape`, `Nda.H5.C38_round_trip`, `Nda.Mpi.C39_buffers`, `Nda.Mpi.C39_gather`, `Nda.Mpi.C39_chunks`, `Nda.Mpi.C39_scatter`, `Nda.Mpi.C39_cover`, `Nda.Mpi.C39_round_trip`, `Nda.Mpi.C39_overflow`, `Nda.Mpi.C39_gather_other`, `Nda.Mpi.C39_gather_view_rejected`, `Nda.Mpi.C39_scatter_view_rejected`, `Nda.Mpi.C40_broadcast`, `Nda.Mpi.C40_reduce`, `Nda.Mpi.C40_all_reduce_sum`, `Nda.Mpi.C40_overlap_rejected`, `Nda.Mpi.C40_in_place_size`, `Nda.Mpi.C40_sizes`, `Nda.Mpi.C40_reduce_other`, `Nda.Mpi.C40_reduce_view_rejected`, `Nda.Blas.C41_gemm`, `Nda.Blas.C41_gemm_rejects`, `Nda.Blas.C41_matmul_partial`, `Nda.Blas.C41_generic_partial`, `Nda.Blas.C41_result_order`, `Nda.Blas.C42_gemv_partial`, `Nda.Blas.C42_matvecmul_partial`, `Nda.Blas.C42_generic_partial`, `Nda.Blas.C43_ger`, `Nda.Blas.C43_outer_positions`, `Nda.Blas.C43_outer_partial`, `Nda.Blas.C44_blas_dot_partial`, `Nda.Blas.C44_dot_partial`, `Nda.Blas.C44_generic_partial`, `Nda.Blas.C44_scal_partial`, `Nda.Linalg.C45_inverse_in_place`, `Nda.Linalg.C45_inverse_in_place_any`, `Nda.Linalg.C45_inverse`, `Nda.Linalg.C45_singular_leftover_witness`, `Nda.Linalg.C46_lapack_exists`, `Nda.Linalg.C46_determinant_in_place`, `Nda.Linalg.C46_determinant`, `Nda.Linalg.C46_empty_view`, `Nda.Linalg.C46_lapack_empty_exists`, `Nda.Clef.C47_value`, `Nda.Clef.C47_plain_partial`, `Nda.Clef.C47_sums_partial`, `Nda.Clef.C48_same_value`, `Nda.Clef.C48_sums`, `Nda.Clef.C48_stages`, `Nda.Clef.C48_function`, `Nda.Clef.C48_function_stages`, `Nda.Clef.C48_substitute`, `Nda.Clef.C48_substitute_value`, `Nda.Clef.C48_substitute_partial`, `Nda.Clef.C49_array`, `Nda.Clef.C49_vector`, `Nda.Clef.C49_sum`, `Nda.Clef.C49_sum_one`, `Nda.Clef.C49_empty`, `Nda.RectStr.C50_lookup`, `Nda.RectStr.C50_labels`, `Nda.RectStr.C50_generated`, `Nda.RectStr.C50_convert`, `Nda.RectStr.C50_slice_partial`, `Nda.RectStr.C50_permute`, `Nda.RectStr.C50_chain_partial`, `Nda.RectStr.C50_equal_same`, `Nda.Python.C51_accept_view`, `Nda.Python.C51_elements_any`, `Nda.Python.C51_accept_elements_partial`, `Nda.Python.C51_empty_witness`, `Nda.Python.C51_alive`, `Nda.Python.C51_alive_array`, `Nda.IdxMap.C52_from_dynamic`, `Nda.IdxMap.C52_default`, `Nda.IdxMap.C52_static_size`, `Nda.IdxMap.C52_convert_keeps`, `Nda.IdxMap.C52_convert_contiguous_partial`, `Nda.Linalg.C53_solve_partial`, `Nda.Linalg.C53_c_order_witness`, `Nda.Linalg.C54_is_diagonal`, `Nda.Linalg.C54_cross_product`, `Nda.Linalg.C54_cross_orthogonal`, `Nda.Blas.C55_vbatch`, `Nda.Blas.C55_batch_partial`, `Nda.Blas.C55_strided_partial`, `Nda.Blas.C55_strided_rejects`, `Nda.Blas.C55_mkl_batch`, `Nda.Norm.C56_norm_partial`, `Nda.Norm.C56_zero`, `Nda.Norm.C56_inf`, `Nda.Norm.C56_neg_inf`, `Nda.Norm.C56_negative`, `Nda.Linalg.C57_eigenelements`, `Nda.Linalg.C57_hermitian`, `Nda.Linalg.C57_unique`, `Nda.Linalg.C57_eigenvalues`, `Nda.Linalg.C57_heev_exists`, `Nda.Linalg.C58_gesvd`, `Nda.Linalg.C58_gesvd_rejects`, `Nda.Linalg.C58_unique`, `Nda.Linalg.C58_gesvd_exists`, `Nda.Linalg.C59_least_squares`, `Nda.Linalg.C59_rejects`, `Nda.Linalg.C59_no_columns`, `Nda.Linalg.C60_hermitian`, `Nda.Linalg.C60_dimension_required`, `Nda.Linalg.C60_shape_checked`, `Nda.Linalg.C61_gtsv_partial`, `Nda.Linalg.C61_gtsv_vector_partial`, `Nda.Linalg.C61_gtsv_exists`, `Nda.Linalg.C61_c_order_witness`, `Nda.Linalg.C61_stride_witness`, `Nda.Linalg.C62_gelss_partial`, `Nda.Linalg.C62_gelss_rejects`, `Nda.Linalg.C62_gelss_exists`, `Nda.Linalg.C62_short_witness`, `Nda.TestTools.C64_close_partial`, `Nda.TestTools.C64_zero_partial`, `Nda.TestTools.C64_equal`, `Nda.Print.C65_matrix_partial`, `Nda.Print.C65_flat_partial`, `Nda.Print.C65_print_partial`, `Nda.Print.C65_rows_witness`, `Nda.Print.C65_shape_witness`, `Nda.Print.C65_order_witness`, `Nda.Arith.C66_slice`, `Nda.Arith.C66_exists`, `Nda.Arith.C66_value`, `Nda.Arith.C66_chain`, `Nda.Arith.C66_scalar_witness`, `Nda.Programs.C67_statement`, `Nda.Programs.C67_program`, `Nda.Programs.C67_determined`, `Nda.Programs.C67_layout`, `Nda.Programs.C67_start`, `Nda.Programs.C67_product`, `Nda.Programs.C67_product_program`, `Nda.Programs.C67_product_determined`, `Nda.Lifetime.C68_ownership`, `Nda.Lifetime.C68_safe`, `Nda.Lifetime.C68_usable`, `Nda.Lifetime.C68_dropped`, `Nda.Lifetime.C68_resized`, `Nda.Lifetime.C68_copied`, `Nda.Lifetime.C68_in_place`, `Nda.Lifetime.C68_temporary`, `Nda.Lifetime.C68_regular`, `Nda.Exc.C69_refines`, `Nda.Exc.C69_leaks`, `Nda.Exc.C69_only_resize`, `Nda.Exc.C69_resize`, `Nda.Exc.C69_resize_then_read`, `Nda.Exc.C69_resize_back`, `Nda.Exc.C69_copy_assign`, `Nda.Exc.C69_quiet`, `Nda.Clef.C70_text`, `Nda.Clef.C70_meaning`, `Nda.Clef.C70_evaluation`, `Nda.Clef.C70_integers`, `Nda.Clef.C70_callee_witness`, `Nda.Machine.C71_construct`, `Nda.Machine.C71_construct_exact`, `Nda.Machine.C71_chain_partial`, `Nda.Machine.C71_step_witness`, `Nda.Machine.C71_to_idx`, `Nda.Machine.C71_bound_check_partial`, `Nda.Machine.C71_iterate_partial`, `Nda.Machine.C71_bytes_partial`, `Nda.Linalg.C72_getrf_exists`, `Nda.Linalg.C72_getrf_square`, `Nda.Linalg.C72_fortran_block`, `Nda.Linalg.C72_c_order_block`, `Nda.Linalg.C72_getrf_partial`, `Nda.Linalg.C72_pivot_witness`, `Nda.StdArray.C73_arithmetic`, `Nda.StdArray.C73_convert`, `Nda.StdArray.C73_append`, `Nda.StdArray.C73_pop`, `Nda.StdArray.C73_front_pop`, `Nda.StdArray.C73_join`, `Nda.StdArray.C73_round_trips`, `Nda.Messages.C74_message_partial`, `Nda.Messages.C74_thrown`, `Nda.Messages.C74_assert`, `Nda.Messages.C74_copy_witness`, `Nda.Divide.C75_divide`, `Nda.Divide.C75_divide_multiply`, `Nda.Divide.C75_multiply_divide`, `Nda.Divide.C75_scalar`, `Nda.Factories.C76_zeros`, `Nda.Factories.C76_ones`, `Nda.Factories.C76_ones_matrix`, `Nda.Factories.C76_free`, `Nda.Factories.C76_arange`, `Nda.Factories.C76_rand_real`, `Nda.Factories.C76_rand_complex`, `Nda.Factories.C76_rand_range`, `Nda.Factories.C76_rand_float_witness`, `Nda.Factories.C76_rand_calls`, `Nda.Containers.C77_shape_view`, `Nda.Containers.C77_range_view`, `Nda.Containers.C77_equal`, `Nda.Containers.C77_assign`, `Nda.Containers.C77_memset`, `Nda.Containers.C77_memset2D`, `Nda.Scalars.C79_pow_signed`, `Nda.Scalars.C79_pow_unsigned`, `Nda.Scalars.C79_pow_narrow`, `Nda.Scalars.C79_abs2_positive`, `Nda.Scalars.C79_mixed`, `Nda.Print.C80_expression_partial`, `Nda.Print.C80_mapped_witness`, `Nda.Print.C80_layout`, `Nda.Constness.C81_const_view`, `Nda.Constness.C81_const_array_partial`, `Nda.Empty.C82_array_partial`, `Nda.Empty.C82_view_partial`, `Nda.Programs.C83_program`, `Nda.Programs.C83_ends`, `Nda.Programs.C83_layout`, `Nda.Programs.C83_max`, `Nda.Programs.C83_determined`, `Nda.Align.C84_heap`, `Nda.Align.C84_bucket`, `Nda.Align.C84_inline_partial`, `Nda.Align.C84_inside`, `Nda.Mem.C85_sso_partial`, `Nda.Mem.C85_leaks`, `Nda.Threads.C86_threads`, `Nda.Threads.C86_completes`, `Nda.Threads.C86_any_order`, `Nda.Threads.C86_forkjoin`, `Nda.Threads.C86_forkjoin_ends`, `Nda.Threads.C86_rand_alone`, `Nda.Threads.C86_rand_race`, `Nda.Python.C87_values_partial`, `Nda.Python.C87_array_partial`, `Nda.Python.C87_objects`, `Nda.H5.C88_write_whole_partial`, `Nda.H5.C88_write_slice_partial`, `Nda.H5.C88_read_whole_partial`, `Nda.H5.C88_read_slice_partial`, `Nda.H5.C88_round_trip_partial`, `Nda.H5.C88_real_into_complex`, `Nda.H5.C88_backwards_write`, `Nda.Mem.C89_history_partial`, `Nda.Mem.C89_convert_partial`, `Nda.Mem.C89_array_partial`, `Nda.SharedThreads.C90_safe_partial`, `Nda.SharedThreads.C90_counts_partial`, `Nda.SharedThreads.C90_released_partial`, `Nda.SharedThreads.C90_completes_partial`, `Nda.Alloc.C91_exclusive_partial`, `Nda.Alloc.C91_private_partial`, `Nda.Alloc.C91_no_abort_partial`, `Nda.Alloc.C91_mallocator`, `Nda.Alloc.C91_test_allocator_partial`, `Nda.Alloc.C91_bucket_race`, `Nda.Alloc.C91_multi_bucket_race`, `Nda.Alloc.C91_last_chunk_race`, `Nda.Alloc.C91_leak_check_race`, `Nda.Alloc.C91_stats_race`, `Nda.Spaces.C92_statement_partial`, `Nda.Spaces.C92_program_partial`, `Nda.Spaces.C92_no_device`, `Nda.Spaces.C92_same_as_host`, `Nda.Spaces.C92_transfer`, `Nda.Spaces.C92_round_trip`, `Nda.Spaces.C92_mismatch`, `Nda.Spmd.C93_programs`, `Nda.Spmd.C93_outcome`, `Nda.Spmd.C93_never_waits`, `Nda.Spmd.C93_no_mpi`, `Nda.Spmd.C93_gather_elements`, `Nda.Spmd.C93_scatter_elements`, `Nda.Spmd.C93_reduce_view_hangs`, `Nda.Spmd.C93_broadcast_hangs`, `Nda.Spmd.C93_debug_hangs`, `Nda.Spmd.C93_self_gather`, `Nda.Spmd.C93_cells`, `Nda.Spmd.C93_cells_hang`, `Nda.Spmd.C93_distributed_map`, `Nda.Spmd.C93_round_trip`, `Nda.Spmd.C93_gather_broadcast`, `Nda.Spmd.C93_distributed_rows`, `Nda.Spmd.C93_distributed_sum`, `Nda.Types.C94_kinds`, `Nda.Types.C94_elements`, `Nda.Types.C94_operands`, `Nda.Types.C94_call`, `Nda.Types.C94_parts`, `Nda.Types.C94_part_kinds`, `Nda.Types.C94_sum_partial`, `Nda.Types.C94_product`, `Nda.Types.C94_quotient`, `Nda.Types.C94_numbers`, `Nda.Types.C94_mapped`, `Nda.Types.C94_void`, `Nda.Types.C94_bracket_partial`, `Nda.Types.C94_size_partial`, `Nda.Types.C94_agrees`, `Nda.Types.C94_agrees_parts`, `Nda.Arr.C95_values`, `Nda.Arr.C95_independent`, `Nda.Arr.C95_copy`, `Nda.Arr.C95_swap`, `Nda.Arr.C95_lazy`, `Nda.Arr.C96_references`, `Nda.Arr.C96_lifetime`, `Nda.Arr.C96_copy_assignment_invalidates`, `Nda.Arr.C96_expression_assignment_keeps`, `Nda.Arr.C96_moves_take_views_along`, `Nda.Mem.NoRelease.C97_collected`, `Nda.Mem.NoRelease.C97_kept_alive`, `Nda.SmallArr.C98_values_partial`, `Nda.SmallArr.C98_same_partial`, `Nda.SmallArr.C98_storage_partial`, `Nda.Num.C99_programs`, `Nda.Num.C99_temporaries`, `Nda.StackArr.C100_values_partial`, `Nda.StackArr.C100_heap_partial`, `Nda.StackArr.C100_move_partial`, `Nda.Mem.SmallArr.C101_refines_partial`, `Nda.Mem.SmallArr.C101_resize_throws`, `Nda.Mem.SmallArr.C101_small_resize`, `Nda.Mem.SmallArr.C101_ints`, `Nda.Mem.SmallArr.C101_heap`, `Nda.Mem.StackArr.C102_refines_partial`, `Nda.Mem.StackArr.C102_only_copy_assignment`, `Nda.Mem.StackArr.C102_assign`, `Nda.Mem.C103_convert_partial`, `Nda.Mem.C103_throw`, `Nda.Mem.C103_array_throw`, `Nda.Mem.C103_history_partial`

