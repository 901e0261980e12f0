import Verif.Model.Attributes
import Verif.Model.AutogradSupplement
import Verif.Model.CholeskyRule
import Verif.Model.Copies
import Verif.Model.DTypes
import Verif.Model.DictHeap
import Verif.Model.Files
import Verif.Model.FunctionPatterns
import Verif.Model.Jacobian
import Verif.Model.Json
import Verif.Model.JsonText
import Verif.Model.JsonTexts
import Verif.Model.Keys
import Verif.Model.LinAlg
import Verif.Model.Memory
import Verif.Model.Messages
import Verif.Model.MessagesFree
import Verif.Model.MessagesIndices
import Verif.Model.NDArray
import Verif.Model.Numeric
import Verif.Model.Optimization
import Verif.Model.PSD
import Verif.Model.Pattern
import Verif.Model.PrecondMemory
import Verif.Model.PrintText
import Verif.Model.Protocols
import Verif.Model.PyFloat
import Verif.Model.Rounding
import Verif.Model.RoundingFlatten
import Verif.Model.RoundingJacobian
import Verif.Model.RoundingOptimization
import Verif.Model.SignedZero
import Verif.Model.Simplex
import Verif.Model.Sizes
import Verif.Model.Sparse
import Verif.Model.Stacks
import Verif.Model.Str
import Verif.Model.Tracing
import Verif.Model.Truncation
import Verif.Model.Version
import Verif.Model.WrapperArrays
import Verif.Model.WrapperMemory
import Verif.Model.WrapperTexts
import Verif.Spec.Accepted
import Verif.Spec.Admissible
import Verif.Spec.Attributes
import Verif.Spec.Autograd
import Verif.Spec.Canon
import Verif.Spec.CholeskyRule
import Verif.Spec.Copies
import Verif.Spec.DTypes
import Verif.Spec.Densities
import Verif.Spec.DictHeap
import Verif.Spec.Exceptions
import Verif.Spec.FunctionPatterns
import Verif.Spec.Interior
import Verif.Spec.Jacobian
import Verif.Spec.Json
import Verif.Spec.JsonText
import Verif.Spec.JsonTexts
import Verif.Spec.Keys
import Verif.Spec.Layout
import Verif.Spec.LeafNames
import Verif.Spec.Leaves
import Verif.Spec.Marked
import Verif.Spec.Memory
import Verif.Spec.Messages
import Verif.Spec.Names
import Verif.Spec.Optimization
import Verif.Spec.PrecondMemory
import Verif.Spec.PrintText
import Verif.Spec.Regroup
import Verif.Spec.Rounding
import Verif.Spec.RoundingClose
import Verif.Spec.RoundingFlattenClose
import Verif.Spec.RoundingFree
import Verif.Spec.RoundingJacobian
import Verif.Spec.RoundingMatrix
import Verif.Spec.RoundingOptimization
import Verif.Spec.RoundingTrip
import Verif.Spec.Settle
import Verif.Spec.Sparse
import Verif.Spec.Str
import Verif.Spec.Valid
import Verif.Spec.Version
import Verif.Spec.WellFormed
import Verif.Spec.WrapperArrays
import Verif.Spec.WrapperMemory
import Verif.Proofs.Attributes
import Verif.Proofs.AttributesValidate
import Verif.Proofs.Autograd
import Verif.Proofs.Basic
import Verif.Proofs.Binary64
import Verif.Proofs.Binary64Sane
import Verif.Proofs.Built
import Verif.Proofs.Canon
import Verif.Proofs.Cholesky
import Verif.Proofs.CholeskyDiff
import Verif.Proofs.CholeskyMargin
import Verif.Proofs.CholeskyPerturb
import Verif.Proofs.CholeskyRule
import Verif.Proofs.Closure
import Verif.Proofs.Convex
import Verif.Proofs.Copies
import Verif.Proofs.DTypes
import Verif.Proofs.DTypesFree
import Verif.Proofs.DictHeap
import Verif.Proofs.DictHeapDen
import Verif.Proofs.DictHeapFloat
import Verif.Proofs.FreeTrip
import Verif.Proofs.FreeVal
import Verif.Proofs.FunctionPatterns
import Verif.Proofs.Indices
import Verif.Proofs.JacobianCalc
import Verif.Proofs.JacobianInv
import Verif.Proofs.JacobianLeaf
import Verif.Proofs.JacobianPSD
import Verif.Proofs.JacobianTree
import Verif.Proofs.JacobianUnfree
import Verif.Proofs.Json
import Verif.Proofs.JsonEdit
import Verif.Proofs.JsonText
import Verif.Proofs.JsonTextBound
import Verif.Proofs.JsonTextPattern
import Verif.Proofs.JsonTextPrefix
import Verif.Proofs.JsonTextSize
import Verif.Proofs.JsonTextSound
import Verif.Proofs.Keys
import Verif.Proofs.KeysBuilt
import Verif.Proofs.KeysJson
import Verif.Proofs.LinAlg
import Verif.Proofs.Memory
import Verif.Proofs.MemoryTree
import Verif.Proofs.Messages
import Verif.Proofs.MessagesFold
import Verif.Proofs.MessagesFree
import Verif.Proofs.Nonfree
import Verif.Proofs.NonfreeTrip
import Verif.Proofs.NumericFree
import Verif.Proofs.Optimization
import Verif.Proofs.PSDFree
import Verif.Proofs.PrintText
import Verif.Proofs.Regroup
import Verif.Proofs.Reorder
import Verif.Proofs.Rounding
import Verif.Proofs.RoundingEigen
import Verif.Proofs.RoundingGram
import Verif.Proofs.RoundingJacobian
import Verif.Proofs.RoundingLogDiag
import Verif.Proofs.RoundingMatrix
import Verif.Proofs.RoundingMatrix64
import Verif.Proofs.RoundingOptimization
import Verif.Proofs.RoundingPrecond
import Verif.Proofs.RoundingSimplex
import Verif.Proofs.RoundingSoftmax
import Verif.Proofs.RoundingTree
import Verif.Proofs.RoundingTrip
import Verif.Proofs.RoundingTwoSided
import Verif.Proofs.RoundingWitness
import Verif.Proofs.Settle
import Verif.Proofs.SignedZero
import Verif.Proofs.SimplexFree
import Verif.Proofs.Sparse
import Verif.Proofs.SparseProduct
import Verif.Proofs.Stacks
import Verif.Proofs.Str
import Verif.Proofs.TriangularInverse
import Verif.Proofs.User
import Verif.Proofs.Version
import Verif.Proofs.WrapperArrays
import Verif.Proofs.WrapperMemory
import Verif.Props.Accepted
import Verif.Props.Analytic
import Verif.Props.Attributes
import Verif.Props.Autograd
import Verif.Props.Boundary
import Verif.Props.ChainRule
import Verif.Props.Conditioning
import Verif.Props.Containers
import Verif.Props.Copies
import Verif.Props.CopiesFold
import Verif.Props.DTypes
import Verif.Props.Densities
import Verif.Props.DerivativeRules
import Verif.Props.DictHeap
import Verif.Props.Display
import Verif.Props.Empty
import Verif.Props.EqualKeys
import Verif.Props.Exceptions
import Verif.Props.Files
import Verif.Props.FoldShape
import Verif.Props.FunctionPatterns
import Verif.Props.IndexAlgebra
import Verif.Props.Indices
import Verif.Props.Jacobians
import Verif.Props.Json
import Verif.Props.JsonEdit
import Verif.Props.JsonRest
import Verif.Props.JsonText
import Verif.Props.JsonTexts
import Verif.Props.Keys
import Verif.Props.LeafNames
import Verif.Props.Leaves
import Verif.Props.MatrixJacobians
import Verif.Props.Memory
import Verif.Props.Messages
import Verif.Props.MessagesFree
import Verif.Props.MessagesIndices
import Verif.Props.Minimizers
import Verif.Props.Names
import Verif.Props.Nesting
import Verif.Props.Newton
import Verif.Props.NumericFree
import Verif.Props.Optimization
import Verif.Props.Order
import Verif.Props.PSD
import Verif.Props.PSDFactor
import Verif.Props.PSDIndices
import Verif.Props.PSDNonfinite
import Verif.Props.PrecondMemory
import Verif.Props.PrintText
import Verif.Props.Protocols
import Verif.Props.Regroup
import Verif.Props.Reorder
import Verif.Props.RoundTrip
import Verif.Props.Rounding
import Verif.Props.RoundingClose
import Verif.Props.RoundingCloseTrip
import Verif.Props.RoundingFlattenClose
import Verif.Props.RoundingFreeTotal
import Verif.Props.RoundingFreeTrip
import Verif.Props.RoundingJacobian
import Verif.Props.RoundingMatrix
import Verif.Props.RoundingNear
import Verif.Props.RoundingOptimization
import Verif.Props.RoundingSimplexTrip
import Verif.Props.RoundingTrip
import Verif.Props.SecondOrder
import Verif.Props.Settle
import Verif.Props.SignedZero
import Verif.Props.Simplex
import Verif.Props.Sizes
import Verif.Props.Sparse
import Verif.Props.Sparsity
import Verif.Props.Stacks
import Verif.Props.Str
import Verif.Props.Tracing
import Verif.Props.Truncation
import Verif.Props.Validating
import Verif.Props.Validation
import Verif.Props.ValidationErrors
import Verif.Props.Version
import Verif.Props.WrapperArrays
import Verif.Props.WrapperMemory
import Verif.Props.WrapperMessages
import Verif.Props.WrapperPatterns
import Verif.Props.WrapperTexts
