import Verif.Lemmas.Accepted
import Verif.Lemmas.Arrays
import Verif.Lemmas.B64Shift
import Verif.Lemmas.Broadcast
import Verif.Lemmas.CmpReal
import Verif.Lemmas.CompareFloat
import Verif.Lemmas.Concurrent
import Verif.Lemmas.ConcurrentCov
import Verif.Lemmas.Copy
import Verif.Lemmas.CorrRounding
import Verif.Lemmas.Correlated
import Verif.Lemmas.CorrelatedRounding
import Verif.Lemmas.Cost
import Verif.Lemmas.CostCopy
import Verif.Lemmas.CostMachine
import Verif.Lemmas.CostWork
import Verif.Lemmas.Cov
import Verif.Lemmas.CovReal
import Verif.Lemmas.Decimal
import Verif.Lemmas.DerivMath
import Verif.Lemmas.DerivMath2
import Verif.Lemmas.DerivOps
import Verif.Lemmas.Done
import Verif.Lemmas.Effects
import Verif.Lemmas.EffectsLog
import Verif.Lemmas.FloatDigits
import Verif.Lemmas.FloatFields
import Verif.Lemmas.FloatFormat
import Verif.Lemmas.FloatLayout
import Verif.Lemmas.FloatParse
import Verif.Lemmas.FloatPlan
import Verif.Lemmas.FloatRoundTrip
import Verif.Lemmas.FloatShown
import Verif.Lemmas.FloatSpecial
import Verif.Lemmas.FormatNum
import Verif.Lemmas.FormatPlan
import Verif.Lemmas.FormatSpec
import Verif.Lemmas.FormatSpecial
import Verif.Lemmas.Formula
import Verif.Lemmas.FormulaCov
import Verif.Lemmas.FormulaMachine
import Verif.Lemmas.FormulaRounding
import Verif.Lemmas.General
import Verif.Lemmas.HSteps
import Verif.Lemmas.IntExpand
import Verif.Lemmas.Integers
import Verif.Lemmas.Iso
import Verif.Lemmas.Iso2
import Verif.Lemmas.Iterator
import Verif.Lemmas.IteratorCalls
import Verif.Lemmas.Layout
import Verif.Lemmas.LayoutSpecial
import Verif.Lemmas.LinComb
import Verif.Lemmas.Literal
import Verif.Lemmas.Machine
import Verif.Lemmas.MatDeriv
import Verif.Lemmas.Matrices
import Verif.Lemmas.Monotone
import Verif.Lemmas.NRSum
import Verif.Lemmas.Nested
import Verif.Lemmas.NumDeriv
import Verif.Lemmas.NumRounding
import Verif.Lemmas.OpSpec
import Verif.Lemmas.Paren
import Verif.Lemmas.Paren2
import Verif.Lemmas.ParseGeneric
import Verif.Lemmas.ParsePm
import Verif.Lemmas.ParseText
import Verif.Lemmas.Print
import Verif.Lemmas.PrintTag
import Verif.Lemmas.Printed
import Verif.Lemmas.Random
import Verif.Lemmas.RandomAffine
import Verif.Lemmas.ReadTerms
import Verif.Lemmas.Regex
import Verif.Lemmas.Replay
import Verif.Lemmas.Replay2
import Verif.Lemmas.Reprint
import Verif.Lemmas.Resume
import Verif.Lemmas.RoundTrip
import Verif.Lemmas.Rounding
import Verif.Lemmas.RoundingCopy
import Verif.Lemmas.RoundingCov
import Verif.Lemmas.RoundingMachine
import Verif.Lemmas.RoundingStd
import Verif.Lemmas.RoundingWorld
import Verif.Lemmas.SameWraps
import Verif.Lemmas.Sees
import Verif.Lemmas.SetStd
import Verif.Lemmas.Shape
import Verif.Lemmas.Shape2
import Verif.Lemmas.Shape3
import Verif.Lemmas.Shape4
import Verif.Lemmas.Signs
import Verif.Lemmas.SpecialFields
import Verif.Lemmas.SqrtSquare
import Verif.Lemmas.Stays
import Verif.Lemmas.Text
import Verif.Lemmas.ThreadCalls
import Verif.Lemmas.Threads
import Verif.Lemmas.Total
import Verif.Lemmas.Weave
import Verif.Lemmas.Weave2
import Verif.Lemmas.World
import Verif.Lemmas.World2
import Verif.Lemmas.Wrap
import Verif.Lemmas.WrapsGrow
import Verif.Model.Arrays
import Verif.Model.Broadcast
import Verif.Model.Callables
import Verif.Model.Copy
import Verif.Model.CorrMatrix
import Verif.Model.Correlated
import Verif.Model.CovSum
import Verif.Model.Decimal
import Verif.Model.Fixers
import Verif.Model.FloatFormat
import Verif.Model.FloatParse
import Verif.Model.Format
import Verif.Model.IntExpand
import Verif.Model.Legacy
import Verif.Model.LinComb
import Verif.Model.Machine
import Verif.Model.Objects
import Verif.Model.Ops
import Verif.Model.Parse
import Verif.Model.Pickle
import Verif.Model.Print
import Verif.Model.PyFormat
import Verif.Model.Recursion
import Verif.Model.Text
import Verif.Model.ThreadCalls
import Verif.Model.ThreadCov
import Verif.Model.ThreadStd
import Verif.Model.Threads
import Verif.Model.Ufloat
import Verif.Model.Umath
import Verif.Model.Unumpy
import Verif.Model.World
import Verif.Model.Wrap
import Verif.Model.WrapEffects
import Verif.Model.WrapIterator
import Verif.Model.WrapNested
import Verif.Props.C01_Nominal
import Verif.Props.C02_Derivatives
import Verif.Props.C03_Reads
import Verif.Props.C05_StdDev
import Verif.Props.C08_Floats
import Verif.Props.C08_Update
import Verif.Props.C100_Resume
import Verif.Props.C101_Callables
import Verif.Props.C102_Nested
import Verif.Props.C103_Broadcast
import Verif.Props.C11_Covariance
import Verif.Props.C13_Correlated
import Verif.Props.C15_Compare
import Verif.Props.C19_Wrap
import Verif.Props.C23_Operators
import Verif.Props.C24_Mixed
import Verif.Props.C27_Umath
import Verif.Props.C28_Doubles
import Verif.Props.C31_Frexp
import Verif.Props.C32_Copies
import Verif.Props.C35_Digits
import Verif.Props.C38_Format
import Verif.Props.C39_RoundTrip
import Verif.Props.C43_Special
import Verif.Props.C45_Parsing
import Verif.Props.C46_Exponent
import Verif.Props.C47_Invalid
import Verif.Props.C48_Superscript
import Verif.Props.C49_Repr
import Verif.Props.C50_Threads
import Verif.Props.C52_Arrays
import Verif.Props.C52_Reads
import Verif.Props.C53_Matrices
import Verif.Props.C55_Unumpy
import Verif.Props.C58_Laws
import Verif.Props.C59_Ufloat
import Verif.Props.C60_Fixers
import Verif.Props.C60_FixersComplete
import Verif.Props.C60_Legacy
import Verif.Props.C60_SetStdDev
import Verif.Props.C61_ArrayFunctions
import Verif.Props.C64_Layout
import Verif.Props.C64_Special
import Verif.Props.C65_Total
import Verif.Props.C66_Containers
import Verif.Props.C67_Hash
import Verif.Props.C68_Pickle
import Verif.Props.C69_Recursion
import Verif.Props.C70_Correlation
import Verif.Props.C71_Rounding
import Verif.Props.C72_Cost
import Verif.Props.C73_ThreadCalls
import Verif.Props.C75_General
import Verif.Props.C76_FloatFormat
import Verif.Props.C76_Layout
import Verif.Props.C76_Special
import Verif.Props.C76_Uncertainty
import Verif.Props.C77_FloatParse
import Verif.Props.C78_FloatRoundTrip
import Verif.Props.C79_PrintAgain
import Verif.Props.C80_CovRounding
import Verif.Props.C81_Printing
import Verif.Props.C82_CorrRounding
import Verif.Props.C83_NumRounding
import Verif.Props.C84_Covariance
import Verif.Props.C84_Formula
import Verif.Props.C84_Functions
import Verif.Props.C84_Power
import Verif.Props.C84_Umath
import Verif.Props.C84_Umath2
import Verif.Props.C84_Umath3
import Verif.Props.C84_Umath4
import Verif.Props.C85_Independent
import Verif.Props.C86_LeftProducts
import Verif.Props.C87_Constants
import Verif.Props.C87_FloatCompare
import Verif.Props.C88_ReadOnce
import Verif.Props.C89_Concurrent
import Verif.Props.C90_CovThreads
import Verif.Props.C91_Correlated
import Verif.Props.C92_CorrThreads
import Verif.Props.C93_Sorting
import Verif.Props.C94_Integers
import Verif.Props.C95_Correlated
import Verif.Props.C95_Functions
import Verif.Props.C95_Random
import Verif.Props.C96_Effects
import Verif.Props.C97_Monotone
import Verif.Props.C98_Signs
import Verif.Props.C99_Iterator
import Verif.Props.Examples
import Verif.Props.TestSuite
import Verif.Py.B64
import Verif.Py.B64Exact
import Verif.Py.B64Format
import Verif.Py.Basic
import Verif.Py.D64
import Verif.Py.IZ
import Verif.Py.NR
import Verif.Py.NRMath
import Verif.Py.NRRounded
import Verif.Py.Num
import Verif.Py.OZ
import Verif.Py.Rounded
import Verif.Py.RoundedDiv
import Verif.Py.RoundedOps
import Verif.Py.RoundedRange
import Verif.Py.RoundedSign
import Verif.Py.RoundedStep
import Verif.Py.ZN
import Verif.Spec.Accepted
import Verif.Spec.Broadcast
import Verif.Spec.Callables
import Verif.Spec.Calls
import Verif.Spec.Concurrent
import Verif.Spec.ConcurrentCorr
import Verif.Spec.Copy
import Verif.Spec.CorrRounding
import Verif.Spec.CorrelatedRounding
import Verif.Spec.Cost
import Verif.Spec.Decimal
import Verif.Spec.Deriv
import Verif.Spec.Effects
import Verif.Spec.FloatFormat
import Verif.Spec.FloatParse
import Verif.Spec.FormatSpec
import Verif.Spec.Formula
import Verif.Spec.FormulaCov
import Verif.Spec.General
import Verif.Spec.Integers
import Verif.Spec.Iterator
import Verif.Spec.Layout
import Verif.Spec.Lin
import Verif.Spec.Literal
import Verif.Spec.Machine
import Verif.Spec.Matrices
import Verif.Spec.Nested
import Verif.Spec.NumRounding
import Verif.Spec.Observe
import Verif.Spec.Plain
import Verif.Spec.Print
import Verif.Spec.Printed
import Verif.Spec.PyEval
import Verif.Spec.PySyntax
import Verif.Spec.Random
import Verif.Spec.RandomCov
import Verif.Spec.ReadOnce
import Verif.Spec.Real
import Verif.Spec.Replay
import Verif.Spec.Resume
import Verif.Spec.Rounding
import Verif.Spec.RoundingCopy
import Verif.Spec.RoundingCov
import Verif.Spec.Same
import Verif.Spec.Sorting
import Verif.Spec.Text
import Verif.Spec.ThreadCalls
import Verif.Spec.Threads
import Verif.Spec.Weave
import Verif.Spec.World
import Verif.Spec.Wrap
