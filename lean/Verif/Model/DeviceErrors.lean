/-!
# Model of the error handling of the device libraries (`c++/nda/blas/interface/cublas_interface.cpp`, `c++/nda/lapack/interface/cusolver_interface.cpp`, `c++/nda/device.hpp`)

A library call is rejected at once (its status is not success), or it starts work on the device that succeeds or fails.  A failure on the device is seen by `cudaDeviceSynchronize`,
by the one of this call or any later one (such errors stay until the process ends).  What the calls compute is the subject of C41-C44, C53, C55, C58.
-/
namespace Nda.DeviceErrors

/-- The functions in the namespaces `device`: cublas_interface.cpp:92-188, cusolver_interface.cpp:63-106.  `gesvdQuery`: `gesvd` with `LWORK == -1`. -/
inductive Fn where
  | gemm | gemmBatch | gemmVbatch | gemmBatchStrided | axpy | copy | dot | dotc | gemv | ger | scal | swap | gesvdQuery | gesvd | getrf | getrs
deriving DecidableEq, Repr

/-- How the result of the library function is treated. -/
inductive Kind where
  /-- `CUBLAS_CHECK`, cublas_interface.cpp:74-90; `CUSOLVER_CHECK`, cusolver_interface.cpp:50-61 -/
  | checked
  /-- the status is dropped, nothing is synchronised -/
  | dropped
  /-- the status and the results of the synchronisations are dropped -/
  | droppedSync
deriving DecidableEq, Repr

/-- The two versions (`double`, `dcomplex`) of every function: cublas_interface.cpp:92-188 (146-149: `axpy`, 151-152: `copy`; 115-131: `gemm_vbatch` with MAGMA),
cusolver_interface.cpp:63-106 (68, 79: the query of the work space). -/
def kind (f : Fn) (complex : Bool) : Kind :=
  match f with
  | .axpy => if complex then .checked else .dropped
  | .copy => if complex then .checked else .dropped
  | .gemmVbatch => .droppedSync
  | .gesvdQuery => .dropped
  | _ => .checked

/-- What the library does with a call. -/
inductive Fate where
  | done
  | rejected
  | fails
deriving DecidableEq, Repr

structure Call where
  fn : Fn
  complex : Bool
  fate : Fate
deriving DecidableEq, Repr

/-- One call; the state: work on the device has failed.  `none`: an exception. -/
def call (synchronize : Bool) (bad : Bool) (c : Call) : Option Bool :=
  match kind c.fn c.complex with
  | .checked =>
    if c.fate = .rejected then none
    else
      let bad := bad || decide (c.fate = .fails)
      if synchronize && bad then none else some bad
  | .dropped => some (bad || decide (c.fate = .fails))
  | .droppedSync => some (bad || decide (c.fate = .fails))

/-- A sequence of calls, ended by an exception: the number of calls that returned, and whether there was one. -/
def run (synchronize : Bool) : Bool → List Call → Nat × Bool
  | _, [] => (0, false)
  | bad, c :: cs =>
    match call synchronize bad c with
    | none => (0, true)
    | some bad => ((run synchronize bad cs).1 + 1, (run synchronize bad cs).2)

end Nda.DeviceErrors
