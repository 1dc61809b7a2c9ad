import Verif.Core.Exec
import Verif.Core.Heap
import Verif.Core.Mem
import Verif.Core.Prog
import Verif.Core.Share
import Verif.Lemmas.Accum
import Verif.Lemmas.Banded
import Verif.Lemmas.BandedClenshaw
import Verif.Lemmas.BandedOps
import Verif.Lemmas.BandedTB
import Verif.Lemmas.BandedTri
import Verif.Lemmas.Bary
import Verif.Lemmas.BaryCheb
import Verif.Lemmas.BlockDense
import Verif.Lemmas.BlockTri
import Verif.Lemmas.Clenshaw
import Verif.Lemmas.ColMap
import Verif.Lemmas.Compose
import Verif.Lemmas.Connect
import Verif.Lemmas.Cosine
import Verif.Lemmas.Dct18
import Verif.Lemmas.Der
import Verif.Lemmas.Diag
import Verif.Lemmas.DiagJac
import Verif.Lemmas.DiagSteps
import Verif.Lemmas.Dpr1Asm
import Verif.Lemmas.Dpr1Eig
import Verif.Lemmas.Dpr1Mv
import Verif.Lemmas.Dpr1Roots
import Verif.Lemmas.Drivers
import Verif.Lemmas.DriversSimd
import Verif.Lemmas.DropTdc
import Verif.Lemmas.EigFmm
import Verif.Lemmas.EigFmmNode
import Verif.Lemmas.EigFmmRun
import Verif.Lemmas.EigFmmSort
import Verif.Lemmas.EigVec
import Verif.Lemmas.EigVecBlock
import Verif.Lemmas.Factor
import Verif.Lemmas.Fftw
import Verif.Lemmas.Fftw2
import Verif.Lemmas.Fftw3
import Verif.Lemmas.Fill
import Verif.Lemmas.HeapBanded
import Verif.Lemmas.HeapBlock
import Verif.Lemmas.HeapDrivers
import Verif.Lemmas.HeapFmm
import Verif.Lemmas.HeapHarmonic
import Verif.Lemmas.HeapHier
import Verif.Lemmas.HeapIso
import Verif.Lemmas.HeapLogic
import Verif.Lemmas.HeapModified
import Verif.Lemmas.HeapMpfr
import Verif.Lemmas.HeapPlans
import Verif.Lemmas.HeapRot
import Verif.Lemmas.HeapSpec
import Verif.Lemmas.HeapTb
import Verif.Lemmas.Hier
import Verif.Lemmas.HierAcc
import Verif.Lemmas.HierNorm
import Verif.Lemmas.HierPar
import Verif.Lemmas.Hmm
import Verif.Lemmas.Hmv
import Verif.Lemmas.Hodge
import Verif.Lemmas.HodgeExec
import Verif.Lemmas.HodgeRun
import Verif.Lemmas.HodgeSolve
import Verif.Lemmas.Isometry
import Verif.Lemmas.JacOps
import Verif.Lemmas.JacScale
import Verif.Lemmas.Kac
import Verif.Lemmas.KacDual
import Verif.Lemmas.KernelProg
import Verif.Lemmas.KernelWithin
import Verif.Lemmas.Ladder
import Verif.Lemmas.LagOps
import Verif.Lemmas.Lambda
import Verif.Lemmas.LambdaErr
import Verif.Lemmas.LegChebAdd
import Verif.Lemmas.LegChebBuild
import Verif.Lemmas.LegChebCells
import Verif.Lemmas.LegChebDirect
import Verif.Lemmas.LegChebFar
import Verif.Lemmas.LegChebFmm
import Verif.Lemmas.LegChebKern
import Verif.Lemmas.LegChebNear
import Verif.Lemmas.LegChebNodes
import Verif.Lemmas.LegChebOdd
import Verif.Lemmas.LegChebPoly
import Verif.Lemmas.LegChebPoly2
import Verif.Lemmas.LegChebReal
import Verif.Lemmas.LegChebSub
import Verif.Lemmas.LegChebSum
import Verif.Lemmas.LegChebTabs
import Verif.Lemmas.LegChebTree
import Verif.Lemmas.LegChebTri
import Verif.Lemmas.Loop
import Verif.Lemmas.Modified
import Verif.Lemmas.Monic
import Verif.Lemmas.Mpfr
import Verif.Lemmas.MpfrPencil
import Verif.Lemmas.MpfrScale
import Verif.Lemmas.MpfrTri
import Verif.Lemmas.Ode
import Verif.Lemmas.Ops
import Verif.Lemmas.Pencil
import Verif.Lemmas.PencilFill
import Verif.Lemmas.Permute
import Verif.Lemmas.Permute2
import Verif.Lemmas.PlanFun
import Verif.Lemmas.PlansDrop
import Verif.Lemmas.PlansRun
import Verif.Lemmas.PlansScale
import Verif.Lemmas.Polar
import Verif.Lemmas.PosPivot
import Verif.Lemmas.Qr
import Verif.Lemmas.QrSeq
import Verif.Lemmas.Ranges
import Verif.Lemmas.RankOne
import Verif.Lemmas.RecClenshaw
import Verif.Lemmas.RecEigen
import Verif.Lemmas.Recurrence
import Verif.Lemmas.RotFun
import Verif.Lemmas.RotJac
import Verif.Lemmas.RotPlan
import Verif.Lemmas.RotSimd
import Verif.Lemmas.RotSimd2
import Verif.Lemmas.RotSimd3
import Verif.Lemmas.RotSimd4
import Verif.Lemmas.RotSimd5
import Verif.Lemmas.RotSpin
import Verif.Lemmas.RotTet
import Verif.Lemmas.Rotations
import Verif.Lemmas.Scalar
import Verif.Lemmas.Scale
import Verif.Lemmas.Share
import Verif.Lemmas.ShtPencil
import Verif.Lemmas.Sim
import Verif.Lemmas.Sort
import Verif.Lemmas.SortPerm
import Verif.Lemmas.SortSearch
import Verif.Lemmas.SpinDrivers
import Verif.Lemmas.SpinFun
import Verif.Lemmas.SpinTransforms
import Verif.Lemmas.Sqrt
import Verif.Lemmas.TbEig
import Verif.Lemmas.TbEigAlloc
import Verif.Lemmas.TbEigRun
import Verif.Lemmas.TbEigScale
import Verif.Lemmas.Tdc
import Verif.Lemmas.TdcMat
import Verif.Lemmas.TdcMv
import Verif.Lemmas.Tet
import Verif.Lemmas.Transforms
import Verif.Lemmas.Tri
import Verif.Lemmas.TriCong
import Verif.Lemmas.TriCongAll
import Verif.Lemmas.TriCongMat
import Verif.Lemmas.TriDense
import Verif.Lemmas.TriEigAll
import Verif.Lemmas.TriEigGhost
import Verif.Lemmas.TriEigRec
import Verif.Lemmas.TriEigRow
import Verif.Lemmas.TriEigStep
import Verif.Lemmas.Tridiag
import Verif.Lemmas.Warp
import Verif.Lemmas.Yz
import Verif.Lemmas.YzPlan
import Verif.Lemmas.YzSym
import Verif.Model.Accum
import Verif.Model.Banded
import Verif.Model.Bary
import Verif.Model.BlockTri
import Verif.Model.Dct18
import Verif.Model.Dpr1Eig
import Verif.Model.Drivers
import Verif.Model.DropTdc
import Verif.Model.EigFmm
import Verif.Model.EigVec
import Verif.Model.Factor
import Verif.Model.Fftw
import Verif.Model.FftwReal
import Verif.Model.HarmonicPlans
import Verif.Model.HeapBanded
import Verif.Model.HeapDrivers
import Verif.Model.HeapFmm
import Verif.Model.HeapMpfr
import Verif.Model.HeapPlans
import Verif.Model.Hier
import Verif.Model.Hodge
import Verif.Model.Isometry
import Verif.Model.KernelProg
import Verif.Model.Lambda
import Verif.Model.LegCheb
import Verif.Model.LegChebPlan
import Verif.Model.LegChebTab
import Verif.Model.Modified
import Verif.Model.Mpfr
import Verif.Model.MpfrTri
import Verif.Model.Ops
import Verif.Model.Permute
import Verif.Model.Plans
import Verif.Model.RankOne
import Verif.Model.Recurrence
import Verif.Model.RotSimd
import Verif.Model.Rotations
import Verif.Model.Scalar
import Verif.Model.ShtPencil
import Verif.Model.SkewSym
import Verif.Model.Sort
import Verif.Model.SpinDrivers
import Verif.Model.SpinTransforms
import Verif.Model.TbEig
import Verif.Model.Tdc
import Verif.Model.Tet
import Verif.Model.Transforms
import Verif.Model.Tri
import Verif.Model.TriCong
import Verif.Model.TriEig
import Verif.Model.Tridiag
import Verif.Model.Utilities
import Verif.Model.Yz
import Verif.Model.YzPlan
import Verif.Props.Banded
import Verif.Props.Bary
import Verif.Props.BlockTri
import Verif.Props.Dct18
import Verif.Props.Dct18Spec
import Verif.Props.Diagonal
import Verif.Props.Dpr1Eig
import Verif.Props.Dpr1EigSpec
import Verif.Props.Drivers
import Verif.Props.DropTdc
import Verif.Props.EigFmm
import Verif.Props.EigFmmSpec
import Verif.Props.EigVec
import Verif.Props.Factor
import Verif.Props.Fftw
import Verif.Props.FftwReal
import Verif.Props.Functions
import Verif.Props.GridValues
import Verif.Props.Heap
import Verif.Props.HeapFmm
import Verif.Props.HeapMpfr
import Verif.Props.HeapView
import Verif.Props.Hier
import Verif.Props.HierSpec
import Verif.Props.Hodge
import Verif.Props.Isometry
import Verif.Props.Lambda
import Verif.Props.LambdaSpec
import Verif.Props.LegCheb
import Verif.Props.LegChebFmm
import Verif.Props.LegChebFmmSpec
import Verif.Props.LegChebSpec
import Verif.Props.Modified
import Verif.Props.Mpfr
import Verif.Props.MpfrTri
import Verif.Props.Ops
import Verif.Props.Pencil
import Verif.Props.Permute
import Verif.Props.PlanFunctions
import Verif.Props.Plans
import Verif.Props.PlansScale
import Verif.Props.PlansSpec
import Verif.Props.PolySpec
import Verif.Props.Qr
import Verif.Props.QrSolve
import Verif.Props.RankOne
import Verif.Props.Recurrence
import Verif.Props.RotSimd
import Verif.Props.Rotations
import Verif.Props.Scalar
import Verif.Props.Secular
import Verif.Props.ShtPencil
import Verif.Props.Similarity
import Verif.Props.SkewSym
import Verif.Props.Sort
import Verif.Props.SpinDrivers
import Verif.Props.SpinFunctions
import Verif.Props.SpinGridValues
import Verif.Props.SpinTransforms
import Verif.Props.Synthesis
import Verif.Props.TbEig
import Verif.Props.TbEigSpec
import Verif.Props.Tdc
import Verif.Props.TdcSpec
import Verif.Props.Tet
import Verif.Props.TransformSem
import Verif.Props.Transforms
import Verif.Props.Tri
import Verif.Props.TriCong
import Verif.Props.TriCongSpec
import Verif.Props.TriEig
import Verif.Props.TriEigSpec
import Verif.Props.Tridiag
import Verif.Props.Utilities
import Verif.Props.Yz
import Verif.Props.YzPlan
