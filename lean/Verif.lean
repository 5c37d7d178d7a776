import Verif.Props.Perm
import Verif.Props.IdxMap
import Verif.Props.Views
import Verif.Props.Contiguous
import Verif.Props.BoundCheck
import Verif.Props.GroupIndices
import Verif.Props.Layouts
import Verif.Props.Loops
import Verif.Props.Iterators
import Verif.Props.Assign
import Verif.Props.Scalar
import Verif.Props.Overlap
import Verif.Props.Allocators
import Verif.Props.Handles
import Verif.Props.Sso
import Verif.Props.Arrays
import Verif.Props.InitList
import Verif.Props.Swap
import Verif.Props.Algorithms
import Verif.Props.Arithmetic
import Verif.Props.Matrix
import Verif.Props.SymGrp
import Verif.Props.SymInit
import Verif.Props.Mpi
import Verif.Props.SymPar
import Verif.Props.H5Names
import Verif.Props.H5Slice
import Verif.Props.Blas
import Verif.Props.BlasVec
import Verif.Props.Linalg
import Verif.Props.LapackRef
import Verif.Props.Solve
import Verif.Props.Clef
import Verif.Props.AutoAssign
import Verif.Props.RectStr
import Verif.Props.Python
import Verif.Props.Batch
import Verif.Props.Norm
import Verif.Props.Rejects
import Verif.Props.Eigen
import Verif.Lemmas.Svd
import Verif.Lemmas.Rect
import Verif.Props.Svd
import Verif.Props.LeastSquares
import Verif.Model.Hermitian
import Verif.Spec.Hermitian
import Verif.Props.Hermitian
import Verif.Spec.Tridiagonal
import Verif.Props.Tridiagonal
import Verif.Spec.MinNorm
import Verif.Props.MinNorm
import Verif.Props.Resizing
import Verif.Spec.AddressSpace
import Verif.Props.AddressSpace
import Verif.Props.TestTools
import Verif.Spec.Print
import Verif.Props.Print
import Verif.Model.ExprSlice
import Verif.Spec.ExprSlice
import Verif.Props.ExprSlice
import Verif.Model.Programs
import Verif.Spec.Programs
import Verif.Props.Programs
import Verif.Model.ProgramsMul
import Verif.Spec.ProgramsMul
import Verif.Props.ProgramsMul
import Verif.Model.Lifetime
import Verif.Spec.Lifetime
import Verif.Lemmas.Lifetime
import Verif.Lemmas.LifetimeRules
import Verif.Props.Lifetime
import Verif.Model.Exceptions
import Verif.Spec.Exceptions
import Verif.Lemmas.Exceptions
import Verif.Props.Exceptions
import Verif.Props.ProductLayout
import Verif.Model.ClefIo
import Verif.Spec.ClefIo
import Verif.Lemmas.ClefIo
import Verif.Props.ClefIo
import Verif.Model.Machine
import Verif.Spec.Machine
import Verif.Lemmas.Machine
import Verif.Lemmas.MachineMore
import Verif.Props.Machine
import Verif.Spec.LapackRect
import Verif.Props.LapackRect
import Verif.Model.StdArray
import Verif.Props.StdArray
import Verif.Model.Messages
import Verif.Spec.Messages
import Verif.Props.Messages
import Verif.Model.Divide
import Verif.Props.Divide
import Verif.Model.Factories
import Verif.Props.Factories
import Verif.Spec.LinalgEmpty
import Verif.Props.LinalgEmpty
import Verif.Model.Containers
import Verif.Props.Containers
import Verif.Model.RectStrEq
import Verif.Props.RectStrEq
import Verif.Model.DeviceErrors
import Verif.Props.DeviceErrors
import Verif.Model.Scalars
import Verif.Props.Scalars
import Verif.Props.BlasLarge
import Verif.Model.ClefLazy
import Verif.Spec.ClefLazy
import Verif.Lemmas.ClefLazy
import Verif.Props.ClefLazy
import Verif.Model.PrintExpr
import Verif.Spec.PrintExpr
import Verif.Props.PrintExpr
import Verif.Model.Constness
import Verif.Props.Constness
import Verif.Model.Empty
import Verif.Props.Empty
import Verif.Model.ProgramsFlow
import Verif.Spec.ProgramsFlow
import Verif.Props.ProgramsFlow
import Verif.Model.Alignment
import Verif.Props.Alignment
import Verif.Model.ThrowSmall
import Verif.Spec.ThrowSmall
import Verif.Lemmas.ThrowSmall
import Verif.Props.ThrowSmall
import Verif.Model.Threads
import Verif.Spec.Threads
import Verif.Lemmas.Threads
import Verif.Lemmas.ThreadsCode
import Verif.Props.Threads
import Verif.Model.PythonArray
import Verif.Spec.PythonArray
import Verif.Props.PythonArray
import Verif.Model.H5Layout
import Verif.Spec.H5Layout
import Verif.Lemmas.H5Layout
import Verif.Props.H5Layout
import Verif.Model.Convert
import Verif.Spec.Convert
import Verif.Lemmas.Convert
import Verif.Props.Convert
import Verif.Model.SharedThreads
import Verif.Spec.SharedThreads
import Verif.Lemmas.SharedThreads
import Verif.Props.SharedThreads
import Verif.Props.ThreadsRand
import Verif.Props.ClefTypes
import Verif.Model.BatchMkl
import Verif.Props.BatchMkl
import Verif.Model.AllocThreads
import Verif.Spec.AllocThreads
import Verif.Lemmas.AllocThreads
import Verif.Props.AllocThreads
import Verif.Props.H5Reverse
import Verif.Model.Spaces
import Verif.Spec.Spaces
import Verif.Lemmas.Spaces
import Verif.Props.Spaces
import Verif.Lemmas.AllocBlind
import Verif.Lemmas.ClefStages
import Verif.Model.Spmd
import Verif.Spec.Spmd
import Verif.Lemmas.Spmd
import Verif.Lemmas.SpmdOps
import Verif.Lemmas.SpmdAssign
import Verif.Props.Spmd
import Verif.Props.SpmdPrograms
import Verif.Props.SpmdErrors
import Verif.Props.SpmdExamples
import Verif.Props.Promises
import Verif.Props.SpmdRows
import Verif.Model.Types
import Verif.Spec.Types
import Verif.Lemmas.Types
import Verif.Lemmas.TypesReach
import Verif.Props.Types
import Verif.Props.TypesAgree
import Verif.Model.Values
import Verif.Spec.Values
import Verif.Lemmas.Values
import Verif.Lemmas.ValuesSteps
import Verif.Lemmas.ValuesAssign
import Verif.Props.Values
import Verif.Model.References
import Verif.Spec.References
import Verif.Lemmas.References
import Verif.Lemmas.ReferencesStep
import Verif.Props.References
import Verif.Spec.Collected
import Verif.Lemmas.Collected
import Verif.Props.Collected
import Verif.Model.SmallArrays
import Verif.Spec.SmallArrays
import Verif.Lemmas.SmallArrays
import Verif.Lemmas.SmallArraysSteps
import Verif.Props.SmallArrays
import Verif.Model.Statements
import Verif.Spec.Statements
import Verif.Lemmas.Statements
import Verif.Props.Statements
import Verif.Model.StackArrays
import Verif.Spec.StackArrays
import Verif.Lemmas.StackArrays
import Verif.Props.StackArrays
import Verif.Props.Cases
import Verif.Props.Cases2
import Verif.Props.Cases3
import Verif.Props.Cases4
import Verif.Props.Cases5
import Verif.Props.Cases6
import Verif.Props.Cases7
import Verif.Model.ThrowSmallArrays
import Verif.Spec.ThrowSmallArrays
import Verif.Props.ThrowSmallArrays
import Verif.Model.ThrowStackArrays
import Verif.Spec.ThrowStackArrays
import Verif.Props.ThrowStackArrays
import Verif.Model.ThrowConvert
import Verif.Props.ThrowConvert
