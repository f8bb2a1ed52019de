import Verif.Model.AP1roG
import Verif.Model.APr2G
import Verif.Model.Alias
import Verif.Model.Binomial
import Verif.Model.CC
import Verif.Model.CCCopy
import Verif.Model.CCMemo
import Verif.Model.CI
import Verif.Model.Cache
import Verif.Model.Composite
import Verif.Model.CreationCC
import Verif.Model.Density
import Verif.Model.DetRatio
import Verif.Model.EigPower
import Verif.Model.EmbedBulk
import Verif.Model.EmbedScript
import Verif.Model.EnergyConstraint
import Verif.Model.Eqn
import Verif.Model.EqnInit
import Verif.Model.EqnWeights
import Verif.Model.FANPT
import Verif.Model.Factory
import Verif.Model.FanBase
import Verif.Model.FanCI
import Verif.Model.FanciReport
import Verif.Model.FanciScript
import Verif.Model.FanptRun
import Verif.Model.FciMatrix
import Verif.Model.FillWfn
import Verif.Model.FloatColumns
import Verif.Model.FloatSteps
import Verif.Model.GaussianCli
import Verif.Model.GbsFile
import Verif.Model.GemCopy
import Verif.Model.GemDefault
import Verif.Model.Geminal
import Verif.Model.GenFanCI
import Verif.Model.Graphs
import Verif.Model.HamDeriv
import Verif.Model.HamWfn
import Verif.Model.HamWfnDeriv
import Verif.Model.HamWfnDerivSpin
import Verif.Model.Hamiltonian
import Verif.Model.HfInput
import Verif.Model.IntHeap
import Verif.Model.Itertools
import Verif.Model.Jacobi
import Verif.Model.JacobiNested
import Verif.Model.Linalg
import Verif.Model.Localize
import Verif.Model.MPS
import Verif.Model.MPSOne
import Verif.Model.MathTools
import Verif.Model.NatOrb
import Verif.Model.Nonorth
import Verif.Model.NormInit
import Verif.Model.PCCD
import Verif.Model.PCCDNew
import Verif.Model.ParamContainer
import Verif.Model.ParamHeap
import Verif.Model.Params
import Verif.Model.Printer
import Verif.Model.PyciIface
import Verif.Model.PyscfInput
import Verif.Model.QuasiParams
import Verif.Model.Quasiparticle
import Verif.Model.RBM
import Verif.Model.Rank2Fit
import Verif.Model.Rotation
import Verif.Model.RunCalc
import Verif.Model.SaveOrbitals
import Verif.Model.SaveParams
import Verif.Model.Script
import Verif.Model.SdList
import Verif.Model.SeniorityCC
import Verif.Model.Settings
import Verif.Model.Slater
import Verif.Model.SlaterBulk
import Verif.Model.Solver
import Verif.Model.SolverKw
import Verif.Model.SolverRun
import Verif.Model.SolverWrap
import Verif.Model.TableFiles
import Verif.Model.TableWrap
import Verif.Model.Tables
import Verif.Model.TablesGem
import Verif.Model.Text
import Verif.Model.TextWrap
import Verif.Model.ToAP1roG
import Verif.Spec.Blocks
import Verif.Spec.Cluster
import Verif.Spec.Density
import Verif.Spec.Double
import Verif.Spec.Eigen
import Verif.Spec.FanptRun
import Verif.Spec.Fock
import Verif.Spec.Geminal
import Verif.Spec.HamDeriv
import Verif.Spec.Hamiltonian
import Verif.Spec.IntHeap
import Verif.Spec.ListSign
import Verif.Spec.Matching
import Verif.Spec.Network
import Verif.Spec.Occ
import Verif.Spec.ParamValues
import Verif.Spec.Rotation
import Verif.Spec.SaveParams
import Verif.Spec.Seniority
import Verif.Spec.Svd
import Verif.Spec.Transform
import Verif.Lemmas.Alias
import Verif.Lemmas.Bits
import Verif.Lemmas.Bits2
import Verif.Lemmas.Blocks
import Verif.Lemmas.Borchardt
import Verif.Lemmas.Bulk
import Verif.Lemmas.CCMain
import Verif.Lemmas.CCOps
import Verif.Lemmas.CCPairs
import Verif.Lemmas.CCPaths
import Verif.Lemmas.CCPaths2
import Verif.Lemmas.CCPaths3
import Verif.Lemmas.CCPaths4
import Verif.Lemmas.CI
import Verif.Lemmas.Chain
import Verif.Lemmas.CreationCC
import Verif.Lemmas.Density
import Verif.Lemmas.DensityFold
import Verif.Lemmas.DensityPairs
import Verif.Lemmas.DerivCalc
import Verif.Lemmas.DerivKernel
import Verif.Lemmas.DetCount
import Verif.Lemmas.Determinant
import Verif.Lemmas.Double
import Verif.Lemmas.Eqn
import Verif.Lemmas.EqnDeriv
import Verif.Lemmas.Excitations
import Verif.Lemmas.Excite
import Verif.Lemmas.FANPT
import Verif.Lemmas.Factory
import Verif.Lemmas.FanptRun
import Verif.Lemmas.FciMatrix
import Verif.Lemmas.FirstPartition
import Verif.Lemmas.FloatColumns
import Verif.Lemmas.Geminal
import Verif.Lemmas.GeminalCovers
import Verif.Lemmas.GenHam
import Verif.Lemmas.Grassmann
import Verif.Lemmas.HamDeriv
import Verif.Lemmas.HamSums
import Verif.Lemmas.HamWfnDeriv
import Verif.Lemmas.HamWfnDerivCols
import Verif.Lemmas.HamWfnDerivSpin
import Verif.Lemmas.IntHeap
import Verif.Lemmas.Interleave
import Verif.Lemmas.Localize
import Verif.Lemmas.Matching
import Verif.Lemmas.NatOrb
import Verif.Lemmas.PCCD
import Verif.Lemmas.PCCDNew
import Verif.Lemmas.PCCDPairs
import Verif.Lemmas.ParamHeap
import Verif.Lemmas.Partition
import Verif.Lemmas.Permanent
import Verif.Lemmas.PermanentEntries
import Verif.Lemmas.PermanentLaplace
import Verif.Lemmas.PermanentLists
import Verif.Lemmas.Perms
import Verif.Lemmas.RBM
import Verif.Lemmas.RBMFlat
import Verif.Lemmas.RotTwo
import Verif.Lemmas.Rotation
import Verif.Lemmas.SaveParams
import Verif.Lemmas.SdPair
import Verif.Lemmas.SenZero
import Verif.Lemmas.Seniority
import Verif.Lemmas.SeniorityMain
import Verif.Lemmas.SeniorityOps
import Verif.Lemmas.SeniorityPaths
import Verif.Lemmas.Sign
import Verif.Lemmas.SlaterCondon
import Verif.Lemmas.SlaterCondonSums
import Verif.Lemmas.SpinSplit
import Verif.Lemmas.SvdExists
import Verif.Lemmas.TableFiles
import Verif.Lemmas.Tables
import Verif.Lemmas.TablesCC
import Verif.Lemmas.Text
import Verif.Lemmas.TextWrap
import Verif.Lemmas.Transform
import Verif.Lemmas.UnrArrays
import Verif.Lemmas.UnrCore
import Verif.Lemmas.UnrDeriv
import Verif.Lemmas.UnrTotal
import Verif.Lemmas.UnrWfn
import Verif.Lemmas.WfnSums
import Verif.Props.AP1roG
import Verif.Props.APr2G
import Verif.Props.Alias
import Verif.Props.BicliquePmatch
import Verif.Props.Binomial
import Verif.Props.Borchardt
import Verif.Props.Bulk
import Verif.Props.CC
import Verif.Props.CCCopy
import Verif.Props.CCCopyOverlap
import Verif.Props.CCDeriv
import Verif.Props.CCMemo
import Verif.Props.CI
import Verif.Props.CIRdm
import Verif.Props.CISpaces
import Verif.Props.Cache
import Verif.Props.CompletePmatch
import Verif.Props.Composite
import Verif.Props.CreationCC
import Verif.Props.CreationCCDeriv
import Verif.Props.CreationCCParams
import Verif.Props.Density
import Verif.Props.DetRatio
import Verif.Props.EigPower
import Verif.Props.EmbedBulk
import Verif.Props.EmbedScript
import Verif.Props.Embedding
import Verif.Props.Energy
import Verif.Props.EnergyConstraint
import Verif.Props.EqnInit
import Verif.Props.EqnParams
import Verif.Props.EqnVariational
import Verif.Props.EqnWeights
import Verif.Props.FANPT
import Verif.Props.FANPTArrays
import Verif.Props.FANPTFree
import Verif.Props.FANPTQuasi
import Verif.Props.FANPTUpdate
import Verif.Props.Factory
import Verif.Props.FanBase
import Verif.Props.FanCIDets
import Verif.Props.FanCIObjective
import Verif.Props.FanCIOptimize
import Verif.Props.FanciReport
import Verif.Props.FanciScript
import Verif.Props.FanptRun
import Verif.Props.FciMatrix
import Verif.Props.FillWfn
import Verif.Props.FloatColumns
import Verif.Props.FloatSteps
import Verif.Props.GaussianCli
import Verif.Props.GbsFile
import Verif.Props.GemCopy
import Verif.Props.GemDefault
import Verif.Props.Geminal
import Verif.Props.GeminalColumns
import Verif.Props.GeminalDeriv
import Verif.Props.GenFanCI
import Verif.Props.GeneralPmatch
import Verif.Props.GeneralizedHam
import Verif.Props.HCI
import Verif.Props.HamDeriv
import Verif.Props.HamSymmetric
import Verif.Props.HamWfn
import Verif.Props.HamWfnDeriv
import Verif.Props.HamWfnDerivSpin
import Verif.Props.HamWfnFock
import Verif.Props.HamWfnSenZero
import Verif.Props.HamWfnSpin
import Verif.Props.HfInput
import Verif.Props.IntHeap
import Verif.Props.IntPartition
import Verif.Props.Jacobi
import Verif.Props.JacobiGroup
import Verif.Props.Localize
import Verif.Props.MPS
import Verif.Props.MPSOne
import Verif.Props.NatOrb
import Verif.Props.Nonorth
import Verif.Props.NormInit
import Verif.Props.PCCD
import Verif.Props.PCCDGeminal
import Verif.Props.PCCDNew
import Verif.Props.PCCDOperators
import Verif.Props.ParamContainer
import Verif.Props.ParamHeap
import Verif.Props.ParamIndex
import Verif.Props.Params
import Verif.Props.PartitionOrder
import Verif.Props.Permanent
import Verif.Props.Printer
import Verif.Props.Projected
import Verif.Props.PyciIface
import Verif.Props.PyscfInput
import Verif.Props.QuasiParams
import Verif.Props.Quasiparticle
import Verif.Props.RBM
import Verif.Props.RBMBatch
import Verif.Props.RBMDeriv
import Verif.Props.Rank2Fit
import Verif.Props.Rotation
import Verif.Props.RunCalc
import Verif.Props.SaveOrbitals
import Verif.Props.SaveParams
import Verif.Props.Script
import Verif.Props.SdList
import Verif.Props.SeniorityCC
import Verif.Props.SeniorityHam
import Verif.Props.Settings
import Verif.Props.SignArray
import Verif.Props.Signs
import Verif.Props.SlaterBits
import Verif.Props.Solver
import Verif.Props.SolverKw
import Verif.Props.SolverRun
import Verif.Props.SolverWrap
import Verif.Props.SpinHam
import Verif.Props.TableFiles
import Verif.Props.TableWrap
import Verif.Props.TablesCC
import Verif.Props.TablesCI
import Verif.Props.TablesGem
import Verif.Props.Tetret
import Verif.Props.TextWrap
import Verif.Props.ToAP1roG
import Verif.Props.Unitary
import Verif.Props.UnorderedPartition
