import Verif.Base
import Verif.Float
import Verif.Model.Index
import Verif.Model.NDArray
import Verif.Model.Utils
import Verif.Model.PyFlatten
import Verif.Model.RConvert
import Verif.Spec
import Verif.Proof.IndexLemmas
import Verif.Proof.ArrayLemmas
import Verif.Proof.SliceLemmas
import Verif.Proof.ListifyLemmas
import Verif.Proof.ConvertLemmas
import Verif.Props.Arrays
import Verif.Model.SobolData
import Verif.Model.Sobol
import Verif.SobolSpec
import Verif.Proof.SobolLemmas
import Verif.Props.Sobol
import Verif.ProblemSpec
import Verif.Model.Microsynthesis
import Verif.Model.IPF
import Verif.Proof.MicroLemmas
import Verif.Proof.MicroNew
import Verif.Proof.MicroInt
import Verif.Proof.ScaleLemmas
import Verif.Proof.IPFLemmas
import Verif.Props.Validation
import Verif.Proof.IPFExact
import Verif.Proof.IPFAlgebra
import Verif.Proof.IPFProduct
import Verif.Proof.IPFDiverge
import Verif.Proof.MicroRat
import Verif.Proof.IPFWitness
import Verif.Props.IPF
import Verif.Model.StatFuncs
import Verif.Model.QIS
import Verif.Proof.Pick
import Verif.Proof.SliceLast
import Verif.Proof.QISSample
import Verif.Proof.QISSplit
import Verif.Proof.QISLoop
import Verif.Proof.QISSolve
import Verif.Proof.QISTree
import Verif.Proof.QISMore
import Verif.QISSpec
import Verif.Proof.QISAxes
import Verif.Proof.QISFull
import Verif.Proof.QISPoints
import Verif.Props.QIS
import Verif.Model.QISI
import Verif.QISISpec
import Verif.Proof.QISIDraw
import Verif.Proof.QISILoop
import Verif.Proof.QISISolve
import Verif.Proof.QISIExact
import Verif.Proof.QISIDisjoint
import Verif.Props.QISI
import Verif.Model.Integerise
import Verif.IntegeriseSpec
import Verif.Proof.IntegeriseLemmas
import Verif.Proof.IntegeriseRound
import Verif.Proof.IntegeriseExact
import Verif.Proof.IntegeriseWitness
import Verif.Proof.IntegeriseArray
import Verif.Proof.IntegeriseVector
import Verif.Props.Integerise
import Verif.Proof.StatLemmas
import Verif.Props.Stats
import Verif.Props.Degeneracy
import Verif.Props.DegeneracyOverflow
import Verif.Model.DDWR
import Verif.Proof.DDWRLemmas
import Verif.Props.DDWR
import Verif.Model.Heap
import Verif.HeapSpec
import Verif.Proof.HeapLemmas
import Verif.Props.Heap
import Verif.Model.Log
import Verif.Props.Log
import Verif.Model.PyApi
import Verif.PySpec
import Verif.Proof.PyLemmas
import Verif.Props.PyApi
import Verif.Model.RApi
import Verif.RSpec
import Verif.Proof.RLemmas
import Verif.Props.RApi
import Verif.Props.SobolJoint
import Verif.Proof.Discrepancy
import Verif.Props.SobolDiscrepancy
import Verif.Props.PValue
import Verif.Model.RExtra
import Verif.Props.RExtra
import Verif.Props.RReject
import Verif.EntropySpec
import Verif.Proof.Entropy
import Verif.Proof.EntropySweep
import Verif.Proof.EntropyLimit
import Verif.Props.IPFClosest
import Verif.Props.IPFOrder
import Verif.Proof.LooseLemmas
import Verif.Proof.SumRound
import Verif.Props.IPFRounded
import Verif.IntSpec
import Verif.Proof.IntTable
import Verif.Proof.QISIInt
import Verif.Proof.IntDouble
import Verif.Props.Whole
import Verif.Proof.IntegeriseOrder
import Verif.Props.IntegeriseRounded
import Verif.Proof.IntegeriseClosest
import Verif.Props.IntegeriseClosest
import Verif.Props.QISDraw
import Verif.Props.QISIDraws
import Verif.Props.Normal
import Verif.NormalSpec
import Verif.Proof.NormalReal
import Verif.Proof.PolyCert
import Verif.Proof.NormalCentral
import Verif.Proof.NormalTail
import Verif.Proof.NearCalc
import Verif.Proof.NormalHalley
import Verif.Proof.NormalStart
import Verif.Proof.NormalInverse
import Verif.Proof.NormalPair
import Verif.Props.NormalAccuracy
import Verif.Props.ArrayUtils
import Verif.Props.Degenerate
import Verif.Props.IntegeriseSigned
import Verif.Model.Int64
import Verif.Int64Spec
import Verif.Proof.Int64Lemmas
import Verif.Proof.Int64Micro
import Verif.Proof.Int64Run
import Verif.Props.Int64
import Verif.Proof.RelErr
import Verif.Proof.QISRound
import Verif.Props.QISRounded
import Verif.Model.SizeT
import Verif.Props.SizeT
import Verif.Props.SobolPortable
import Verif.DecompSpec
import Verif.Proof.QISDecomp
import Verif.Props.Decomp
import Verif.Model.QISState
import Verif.Proof.QISState
import Verif.Props.QISState
import Verif.Props.QISStateStats
import Verif.Props.QISStateStatsRounded
import Verif.Proof.QISStateRound
import Verif.Props.QISStateRounded
import Verif.Model.SobolMem
import Verif.SobolMemSpec
import Verif.Proof.SobolMem
import Verif.Proof.SobolMemRun
import Verif.Props.SobolMem
import Verif.Proof.PValueRound
import Verif.Proof.GammaFrac
import Verif.Proof.FracSol
import Verif.Proof.FracErr
import Verif.Props.PValueRound
import Verif.Proof.FracRound
import Verif.Proof.FracLoop
import Verif.Props.PValueFrac
import Verif.RelabelSpec
import Verif.Proof.Relabel
import Verif.Proof.RelabelOK
import Verif.Props.Relabel
import Verif.Props.IPFUnits
import Verif.Props.IPFPowTwo
import Verif.Props.QISIScale
import Verif.Proof.ChiBound
import Verif.Props.QISIStats
import Verif.Proof.IPFUnitRound
import Verif.Props.IPFDouble
import Verif.RegularSpec
import Verif.Proof.IPFBackward
import Verif.Props.IPFBackward
import Verif.Proof.IPFRateMatrix
import Verif.Proof.IPFRate
import Verif.Props.IPFRate
import Verif.Proof.IPFRateRound
import Verif.Props.IPFRateDouble
import Verif.Proof.EntropyTwo
import Verif.Props.IPFTwo
import Verif.Proof.IntegeriseMonotone
import Verif.Props.IntegeriseMonotone
import Verif.Props.IPFSame
import Verif.FeasibleSpec
import Verif.Proof.Transport
import Verif.Proof.IPFFeasible
import Verif.Props.IPFFeasible
import Verif.Proof.QISISlow
import Verif.Proof.QISISlowDraw
import Verif.Proof.QISIProductSeed
import Verif.Props.QISISolvable
import Verif.Proof.SumFix
import Verif.Proof.IPFDecomp
import Verif.Proof.QISIDecompFit
import Verif.Props.IPFDecomp
import Verif.Proof.IPFDecompRound
import Verif.Props.IPFDecompDouble
import Verif.Proof.QISIScript
import Verif.Proof.IntegeriseStray
import Verif.Props.IntegeriseStray
import Verif.AttachedSpec
import Verif.Proof.ProbCheck
import Verif.Proof.QISScript
import Verif.Proof.QISAdded
import Verif.Props.QISAdded
import Verif.Proof.QISNew
import Verif.Props.QISNew
import Verif.PadSpec
import Verif.Proof.QISPad
import Verif.Proof.QISPadRun
import Verif.Props.QISPad
import Verif.Proof.IPFPad
import Verif.Props.IPFPad
import Verif.Model.HeapData
import Verif.HeapDataSpec
import Verif.Proof.HeapData
import Verif.Props.HeapData
import Verif.Model.UnitTest
import Verif.UnitTestSpec
import Verif.Props.UnitTest
import Verif.Conform.Basic
import Verif.Conform.Cpp
import Verif.Conform.Python
import Verif.Conform.R
import Verif.Proof.QISIPad
import Verif.Proof.QISIPadRun
import Verif.Props.QISIPad
import Verif.LargestSpec
import Verif.Proof.Fract
import Verif.Proof.IntegeriseLargest
import Verif.Proof.LargestPad
import Verif.Proof.LargestRound
import Verif.Props.IntegeriseLargest
import Verif.Proof.IntegerisePad
import Verif.Proof.IntegerisePad1
import Verif.Props.IntegerisePad
import Verif.CloseSpec
import Verif.Proof.MicroClose
import Verif.Props.ValidationClose
import Verif.ReorderSpec
import Verif.Proof.LargestPerm
import Verif.Props.IntegeriseScale
import Verif.QISRuleSpec
import Verif.Proof.QISFollow
import Verif.Proof.QISRule
import Verif.Props.QISRule
import Verif.Props.QISRedundant
import Verif.QISIRuleSpec
import Verif.Props.QISIRule
import Verif.PipelineSpec
import Verif.Props.Pipeline
import Verif.Props.PipelineIPF
import Verif.Props.PipelineDouble
import Verif.Props.DDWREdit
import Verif.CursorSpec
import Verif.Props.IndexCursor
import Verif.Props.CallerArrays
import Verif.Model.Refusal
import Verif.RefusalSpec
import Verif.Props.Refusal
import Verif.StrataSpec
import Verif.Proof.IPFStrata
import Verif.Props.IPFStrata
import Verif.Props.IPFRedundant
import Verif.AlikeSpec
import Verif.Props.IPFAlike
import Verif.SplitSpec
import Verif.Proof.IPFSplit
import Verif.Props.IPFSplit
import Verif.Proof.IntegeriseRmse
import Verif.Props.IntegeriseRmse
import Verif.MessageSpec
import Verif.Model.Messages
import Verif.Props.Messages
import Verif.Model.RefusalFl
import Verif.RefusalFlSpec
import Verif.Props.RefusalFl
import Verif.Props.IPFPartway
import Verif.NoTinySpec
import Verif.Proof.IPFPartwayRound
import Verif.Props.IPFPartwayDouble
import Verif.Props.IPFConditional
import Verif.Props.IPFPositive
import Verif.Props.IPFRateMany
import Verif.Props.IPFConverges
import Verif.ClosestSpec
import Verif.Props.IPFAccuracy
import Verif.SensitivitySpec
import Verif.Props.IPFSensitivity
import Verif.Props.IPFRaise
import Verif.Props.IPFRaiseBound
import Verif.Props.IPFStages
import Verif.Props.IPFStagesDouble
import Verif.Props.IPFMoved
import Verif.Props.IPFGroups
import Verif.Props.IPFGroupsCall
