import Verif.Blas
import Verif.Dim
import Verif.DimProps
import Verif.AuxC
import Verif.AuxCProps
import Verif.Tree
import Verif.TreeProps
import Verif.TreeSpec
import Verif.TreeQp
import Verif.TreeRes
import Verif.TreeResProps
import Verif.TreeResEx
import Verif.PartCond
import Verif.PartCondProps
import Verif.Core
import Verif.CoreProps
import Verif.OcpQp
import Verif.OcpQpProps
import Verif.Mem
import Verif.MemProps
import Verif.Res
import Verif.ResVal
import Verif.KktSpec
import Verif.View
import Verif.Adjoint
import Verif.ResProps
import Verif.Chol
import Verif.Riccati
import Verif.RicChain
import Verif.Kkt
import Verif.KktSlack
import Verif.KktVal
import Verif.KktBack
import Verif.KktSweep
import Verif.KktFwd
import Verif.KktTail
import Verif.KktEq
import Verif.KktStep
import Verif.KktPd
import Verif.KktConv
import Verif.KktEx
import Verif.KktSolve
import Verif.KktShared
import Verif.KktUnc
import Verif.Arg
import Verif.ArgProps
import Verif.IpmInit
import Verif.IpmInitProps
import Verif.IpmCtl
import Verif.IpmCtlProps
import Verif.Ipm
import Verif.IpmFrame
import Verif.IpmMat
import Verif.IpmEx
import Verif.IpmProps
import Verif.IpmPos
import Verif.OcpQpMore
import Verif.IpmStatus
import Verif.Red
import Verif.RedSpec
import Verif.RedVal
import Verif.RedStage
import Verif.RedSolVal
import Verif.RedProps
import Verif.RedOpt
import Verif.RedRes
import Verif.RedSplit
import Verif.Cond
import Verif.CondSpec
import Verif.CondDyn
import Verif.CondQuad
import Verif.CondRsq
import Verif.CondRsq1
import Verif.CondCon
import Verif.CondCon2
import Verif.CondCon3
import Verif.CondBlock
import Verif.CondEquiv
import Verif.CondRun
import Verif.CondExpand
import Verif.CondAdj
import Verif.CondExpRun
import Verif.CondProps
import Verif.PartCondUser
import Verif.KktReg
import Verif.IpmEnds
import Verif.IpmEndsEx
import Verif.CoreAlpha
import Verif.IpmItref
import Verif.IpmItrefEx
import Verif.IpmInitBox
import Verif.Solver
import Verif.SolverProps
import Verif.RicVal
import Verif.Ric
import Verif.RicProps
import Verif.Sens
import Verif.SensProps
import Verif.SensDer
import Verif.Move
import Verif.SensPred
import Verif.SensEx
import Verif.ErkSpec
import Verif.Erk
import Verif.ErkProps
import Verif.ErkDer
import Verif.ErkTab
import Verif.ErkMem
import Verif.ErkEx
import Verif.KktPrim
import Verif.IpmDir
import Verif.IpmContract
import Verif.IpmContractRun
import Verif.DenseQp
import Verif.DenseQpProps
import Verif.DenseSpec
import Verif.DenseRes
import Verif.DenseView
import Verif.DenseResProps
import Verif.DenseKkt
import Verif.DenseLin
import Verif.DenseKktVal
import Verif.DenseKktFac
import Verif.DenseKktStep
import Verif.DenseKktProps
import Verif.DenseKktConv
import Verif.DenseKktEx
import Verif.DenseUnc
import Verif.DenseIpm
import Verif.DenseIpmFrame
import Verif.DenseIpmProps
import Verif.DenseIpmInit
import Verif.DenseIpmEx
import Verif.DenseIpmPos
import Verif.DenseIpmEnds
import Verif.DenseIpmUser
import Verif.DenseIpmObj
import Verif.DenseIpmShow
import Verif.IpmUser
import Verif.IpmUnc
import Verif.TreePrim
import Verif.TreeContract
import Verif.CondFullEx
import Verif.TreeKkt
import Verif.TreeKktBack
import Verif.TreeKktFwd
import Verif.TreeKktStep
import Verif.TreeKktSolve
import Verif.TreeKktUnc
import Verif.TreeKktEx
import Verif.TreeIpm
import Verif.TreeIpmFrame
import Verif.TreeIpmProps
import Verif.TreeIpmUser
import Verif.QcqpSpec
import Verif.Qcqp
import Verif.QcqpVal
import Verif.QcqpProps
import Verif.QcqpEx
import Verif.QcqpIpm
import Verif.QcqpIpmVal
import Verif.QcqpIpmProps
import Verif.QcqpIpmInit
import Verif.QcqpIpmRun
import Verif.QcqpIpmUser
import Verif.QcqpIpmOpt
import Verif.QcqpIpmEx
import Verif.QcqpIpmEnds
import Verif.QcqpIpmHang
import Verif.QcqpArg
import Verif.QcqpBad
import Verif.MehMats
import Verif.MehSpec
import Verif.MehDir
import Verif.MehRef
import Verif.MehPass
import Verif.MehRun
import Verif.MehStop
import Verif.MehUser
import Verif.MehForm
import Verif.MehEx
import Verif.LinDep
import Verif.LinDepProps
import Verif.LinDepIncons
import Verif.LinDepEx
import Verif.DenseArg
import Verif.CondSplit
import Verif.CondSplitCost
import Verif.CondSplitCon
import Verif.CondSplitUser
import Verif.CondSplitEx
import Verif.SolAcc
import Verif.SolAccProps
import Verif.SolAccDense
import Verif.SolAccEx
import Verif.DenseMem
import Verif.CondMem
import Verif.QcqpDim
import Verif.DQcqpArg
import Verif.DQcqpSpec
import Verif.DQcqp
import Verif.DQcqpRes
import Verif.DQcqpProps
import Verif.DQcqpData
import Verif.DQcqpIpm
import Verif.DQcqpIpmProps
import Verif.DQcqpIpmRun
import Verif.DQcqpIpmUser
import Verif.DQcqpIpmEx
import Verif.CondQc
import Verif.CondQcVal
import Verif.CondQcProps
import Verif.CondQcUser
import Verif.CondQcEx
import Verif.CondQcFlags
import Verif.CondQcSplit
import Verif.CondQcExp
import Verif.CondSol
import Verif.CondSolEx
import Verif.CondSeed
import Verif.CondQcSol
import Verif.PartCondSol
import Verif.PartCondSolEx
