import Verif.ModelBase
import Verif.ModelKernel
import Verif.SpecKernel
import Verif.ProofsKernel
import Verif.PropsKernel
import Verif.ModelExpr
import Verif.SpecExpr
import Verif.PropsExpr
import Verif.SpecKaucher
import Verif.PropsKaucher
import Verif.ModelObjects
import Verif.PropsObjects
import Verif.PropsLists
import Verif.ModelFloat
import Verif.ModelPrint
import Verif.ProofsFloat
import Verif.PropsFloat
import Verif.PropsFloatEnc
import Verif.PropsFloatWit
import Verif.PropsKaucherRnd
import Verif.ModelArray
import Verif.PropsArray
import Verif.ModelHeap
import Verif.PropsHeap
import Verif.ModelRecFun
import Verif.SpecRecFun
import Verif.PropsRecFun
import Verif.PropsRecGrad
import Verif.PropsOptim
import Verif.PropsRalgb
import Verif.PropsCheb
import Verif.PropsChebExact
import Verif.ModelChebMin
import Verif.PropsChebMin
import Verif.ModelViews
import Verif.PropsViews
import Verif.PropsPSSStart
import Verif.ModelPSSViews
import Verif.PropsPSSViews
import Verif.ModelPSSClass
import Verif.PropsPSSClass
import Verif.PropsDualFloat
import Verif.PropsRohnRnd
import Verif.PropsKrawFloat
import Verif.PropsPSSRnd
import Verif.PropsKrawStep
import Verif.PropsGSFloat
import Verif.ModelElemArr
import Verif.PropsElemArr
import Verif.ModelRohnFull
import Verif.PropsRohnFull
import Verif.PropsRalgbAcc
import Verif.PropsPPSPick
import Verif.PropsGlobViews
import Verif.PropsGaussFair
import Verif.ModelElem
import Verif.SpecElem
import Verif.ProofsElem
import Verif.PropsElem
import Verif.PropsTrig
import Verif.PropsElemRef
import Verif.PropsExpExact
import Verif.ModelLinear
import Verif.PropsGauss
import Verif.PropsRohn
import Verif.PropsHBR
import Verif.ModelHBRMat
import Verif.PropsHBRHull
import Verif.PropsGSConv
import Verif.PropsGSHull
import Verif.PropsMargin
import Verif.ModelInter
import Verif.PropsInter
import Verif.PropsNewton
import Verif.PropsTolRound
import Verif.PropsGlobConv
import Verif.ModelPenalty
import Verif.PropsPenalty
import Verif.PropsNeumaier
import Verif.ModelNonlinear
import Verif.PropsNonlinear
import Verif.ModelSubdiff
import Verif.PropsSubdiff
import Verif.ModelBoundary
import Verif.PropsOrthant
import Verif.PropsPreproc
import Verif.PropsBoundary
import Verif.PropsLineqs
import Verif.ModelPSS
import Verif.ProofsLp
import Verif.PropsKdiv
import Verif.PropsPSS
import Verif.ModelModels
import Verif.PropsModels
import Verif.PropsIspae
import Verif.ModelPPS
import Verif.PropsPPS
import Verif.PropsPPSSharp
import Verif.PropsPPSTags
import Verif.PropsPolygon
import Verif.PropsVertices
import Verif.PropsR2
import Verif.ModelBoundary3D
import Verif.PropsSpace
import Verif.PropsLineqs3D
import Verif.PropsSpaceWindow
import Verif.PropsR3
import Verif.PropsPower
import Verif.ModelSysProp
import Verif.PropsIve
import Verif.ModelDist
import Verif.PropsDist
import Verif.PropsDistF
import Verif.PropsMidRad
import Verif.PropsRefine
import Verif.ModelArrayOps
import Verif.PropsArrayOps
import Verif.PropsHTest
import Verif.ModelUtils
import Verif.PropsUtils
import Verif.PropsUtilsExact
import Verif.PropsMagMig
import Verif.PropsPrint
import Verif.PropsNest
import Verif.ModelConstruct
import Verif.PropsConstruct
import Verif.PropsPSSSharp
import Verif.PropsPSSReturn
import Verif.PropsPSSPrune
import Verif.PropsMiranda
import Verif.PropsNlRec
import Verif.PropsNewtonExist
import Verif.PropsGSExist
import Verif.PropsGSIso
import Verif.PropsCharLaws
import Verif.PropsHBRSmall
import Verif.PropsGaussReg
import Verif.PropsLawsRnd
import Verif.PropsRohnRank
import Verif.PropsLaws
import Verif.PropsSubdiffDir
import Verif.PropsSubdiffConv
import Verif.ModelSubdiffViews
import Verif.PropsSubdiffViews
import Verif.PropsIspaeUni
import Verif.PropsUniRows
import Verif.PropsIspaeFit
import Verif.PropsWilsFit
import Verif.PropsRalgbStep
import Verif.PropsRalgbConv
import Verif.PropsRalgbMove
import Verif.PropsCompare
import Verif.Runs
import Verif.PropsNaN
import Verif.PropsNaNElem
import Verif.PropsPowLib
import Verif.PropsPowIv
import Verif.PropsPowZero
import Verif.PropsExactSmall
import Verif.PropsMuExact
import Verif.PropsFCompare
import Verif.PropsIntEnds
import Verif.PropsIntDiv
import Verif.PropsUnbounded
import Verif.PropsPowInf
import Verif.Docs
import Verif.RunsBasic
import Verif.RunsRalg
import Verif.RunsPPS
import Verif.RunsOpt
