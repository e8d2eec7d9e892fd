import Verif.Model.Num
import Verif.Model.Scalar
import Verif.Model.Array
import Verif.Model.Constraint
import Verif.Spec
import Verif.SpecArray
import Verif.SpecConstraint
import Verif.Witness
import Verif.WitnessArray
import Verif.WitnessConstraint
import Verif.Lemmas.Lists
import Verif.Lemmas.Degs
import Verif.Lemmas.Struct
import Verif.Lemmas.Value
import Verif.Lemmas.Mul
import Verif.Lemmas.Families
import Verif.Lemmas.NormalForm
import Verif.Lemmas.Coeffs
import Verif.Lemmas.Deriv
import Verif.Lemmas.Subst
import Verif.Lemmas.Arr
import Verif.Lemmas.ArrOps
import Verif.Lemmas.ArrMul
import Verif.Lemmas.ArrDen
import Verif.Lemmas.Constr
import Verif.Props.Arith
import Verif.Props.ArithNeg
import Verif.Props.NormalForm
import Verif.Props.Vars
import Verif.Props.Coeffs
import Verif.Props.Deriv
import Verif.Props.Subst
import Verif.Props.Reject
import Verif.Props.RejectArray
import Verif.Props.Vectors
import Verif.Props.Matrices
import Verif.Props.MatrixSum
import Verif.Props.Shapes
import Verif.Props.Constr
import Verif.Props.ConstrNeg
import Verif.Props.Implies
import Verif.Props.Compile
import Verif.Props.ArrayInfo
import Verif.Props.VecLinear
import Verif.Props.ArraySubst
import Verif.Props.ArrayDeriv
import Verif.Props.Heap
import Verif.Props.HeapAll
import Verif.Props.Env
import Verif.Props.Share
import Verif.Props.From
import Verif.Model.Args
import Verif.Model.Methods
import Verif.Lemmas.Simp
import Verif.Lemmas.Fixed
import Verif.Props.Args
import Verif.Props.Methods
import Verif.Lemmas.FixConc
import Verif.Lemmas.Closed
import Verif.Props.Simplified
import Verif.Props.Closed
import Verif.Props.Tight
import Verif.Model.Slice
import Verif.Props.Slice
import Verif.Model.Convert
import Verif.Props.Convert
import Verif.Model.Text
import Verif.Lemmas.Text
import Verif.Props.Text
import Verif.Lemmas.Sound
import Verif.Props.Sound
import Verif.Props.MatCon
import Verif.Props.VecPower
import Verif.Lemmas.Modulo
import Verif.Props.Binary
import Verif.Props.BinaryArr
import Verif.Model.Binary64
import Verif.Lemmas.FloatSim
import Verif.Lemmas.Binary64
import Verif.Lemmas.FloatSimArr
import Verif.Lemmas.FloatSimArr2
import Verif.Lemmas.FloatSimCon
import Verif.Props.Float
import Verif.Props.FloatArr
import Verif.Model.Util
import Verif.Props.Util
import Verif.Lemmas.Neat
import Verif.Props.Program
import Verif.Tests.Base
import Verif.Tests.Polynomial
import Verif.Tests.Monomial
import Verif.Tests.Variable
import Verif.Tests.Constant
import Verif.Tests.ConstantVector
import Verif.Tests.VariableVector
import Verif.Tests.MonomialVector
import Verif.Tests.PolynomialVector
import Verif.Tests.ConstantMatrix
import Verif.Tests.VariableMatrix
import Verif.Tests.MonomialMatrix
import Verif.Tests.PolynomialMatrix
import Verif.Tests.Constraint
import Verif.Tests.Expression
import Verif.Tests.MatrixConstraint
import Verif.Tests.PolynomialLike
import Verif.Tests.ScalarConstraint
import Verif.Tests.Utils
import Verif.Tests.VectorConstraint
import Verif.Props.ArrayProgram
import Verif.Model.HeapArith
import Verif.Lemmas.HeapRef
import Verif.Lemmas.HeapArithRef
import Verif.Props.HeapArith
import Verif.Model.HeapArray
import Verif.Lemmas.HeapArrayRef
import Verif.Lemmas.HeapArrayOps
import Verif.Lemmas.HeapArrayMul
import Verif.Props.HeapArray
import Verif.Lemmas.HeapOwn
import Verif.Props.HeapDeriv
import Verif.Model.Errors
import Verif.Props.Errors
import Verif.Model.HeapSteps
import Verif.Lemmas.HeapStepsRun
import Verif.Lemmas.HeapStepsRef
import Verif.Lemmas.HeapStepsArith
import Verif.Props.HeapSteps
import Verif.Lemmas.Round
import Verif.Lemmas.RoundSimp
import Verif.Lemmas.RoundPlus
import Verif.Lemmas.RoundMul
import Verif.Lemmas.RoundPow
import Verif.Lemmas.RoundF64
import Verif.Props.Round
import Verif.Lemmas.RoundArr
import Verif.Props.RoundArr
import Verif.Props.RoundGrid
import Verif.Model.EnvMem
import Verif.Props.EnvMem
import Verif.Props.RoundLin
import Verif.Lemmas.Sharp
import Verif.Props.RoundVecLin
import Verif.Lemmas.CoefSum
import Verif.Props.Coefs
import Verif.Lemmas.CoefMul
import Verif.Props.CoefsMul
import Verif.Props.CoefsMat
import Verif.Props.CoefsQuad
import Verif.Props.CoefsProg
import Verif.Props.CoefsVec
import Verif.Props.RoundDeriv
import Verif.Lemmas.Forms
import Verif.Lemmas.FormsMul
import Verif.Lemmas.FormsExact
import Verif.Props.Forms
import Verif.Lemmas.FormsProg
import Verif.Props.Checked
import Verif.Props.CheckedFits
import Verif.Props.ProgramTotal
import Verif.Lemmas.Entries
import Verif.Props.ArrayChecked
import Verif.Props.ArrayCheckedFits
import Verif.Props.CheckedCon
import Verif.Props.ArrayCheckedCon
import Verif.Props.CheckedLinear
import Verif.Props.CheckedProblem
import Verif.Props.Machine
import Verif.Model.DerivRace
import Verif.Props.DerivRace
import Verif.Lemmas.RoundSubst
import Verif.Props.RoundProgram
import Verif.Model.Format
import Verif.Props.Format
import Verif.Props.FormatExpr
import Verif.Lemmas.Hom
import Verif.Lemmas.HomArray
import Verif.Lemmas.HomArrayMul
import Verif.Lemmas.HomCon
import Verif.Lemmas.HomText
import Verif.Lemmas.HomProg
import Verif.Lemmas.Doubling
import Verif.Lemmas.HeapCalls
import Verif.Lemmas.HeapSpec
import Verif.Lemmas.Machine
import Verif.Lemmas.Shapes
import Verif.Model.SignedZero
import Verif.Props.SignedZero
import Verif.Props.Renaming
import Verif.Props.Evaluate
import Verif.Props.CoefsMatMul
import Verif.Props.CoefsPow
import Verif.Props.LinError
import Verif.Props.CoefsArr
import Verif.Props.CoefsMatVec
import Verif.Props.CoefsDeriv
import Verif.Props.MixedPartials
import Verif.Props.Twice
import Verif.Props.TwiceCon
