import Verif.Model.Seq
import Verif.Props.Seq
import Verif.Model.WorkerPool
import Verif.Lemmas.WorkerPool
import Verif.Props.WorkerPool
import Verif.Model.Semaphore
import Verif.Lemmas.Semaphore
import Verif.Props.Semaphore
import Verif.Model.AutoBuffer
import Verif.Spec.AutoBuffer
import Verif.Lemmas.AutoBuffer
import Verif.Props.AutoBuffer
import Verif.Model.Bits
import Verif.Spec.Bits
import Verif.Lemmas.Bits
import Verif.Props.Bits
import Verif.Model.MathSeq
import Verif.Spec.MathSeq
import Verif.Lemmas.MathSeq
import Verif.Props.MathSeq
import Verif.Model.LU
import Verif.Lemmas.LU
import Verif.Props.LU
import Verif.Model.Sampling
import Verif.Lemmas.Sampling
import Verif.Props.Sampling
import Verif.Model.Metrics
import Verif.Spec.Metrics
import Verif.Lemmas.Metrics
import Verif.Props.Metrics
import Verif.Model.Groups
import Verif.Spec.Groups
import Verif.Lemmas.Groups
import Verif.Props.Groups
import Verif.Model.Packets
import Verif.Lemmas.Packets
import Verif.Props.Packets
import Verif.Model.Precacher
import Verif.Lemmas.Precacher
import Verif.Props.Precacher
import Verif.Model.Writer
import Verif.Lemmas.Writer
import Verif.Props.Writer
import Verif.Model.LBSP
import Verif.Spec.LBSP
import Verif.Lemmas.LBSP
import Verif.Props.LBSP
import Verif.Model.Thinning
import Verif.Spec.Thinning
import Verif.Lemmas.Thinning
import Verif.Props.Thinning
import Verif.Model.Filters
import Verif.Spec.Filters
import Verif.Lemmas.Filters
import Verif.Props.Filters
import Verif.Model.Maxima
import Verif.Spec.Maxima
import Verif.Lemmas.Maxima
import Verif.Props.Maxima
import Verif.Model.Consensus
import Verif.Spec.Consensus
import Verif.Lemmas.Consensus
import Verif.Props.Consensus
import Verif.Model.BgUtils
import Verif.Lemmas.BgUtils
import Verif.Props.BgUtils
import Verif.Model.Lobster
import Verif.Lemmas.Lobster
import Verif.Props.Lobster
import Verif.Model.MatIO
import Verif.Spec.MatIO
import Verif.Lemmas.MatIO
import Verif.Props.MatIO
import Verif.Model.Simd
import Verif.Spec.Simd
import Verif.Lemmas.Simd
import Verif.Props.Simd
import Verif.Model.Reducer
import Verif.Spec.Reducer
import Verif.Lemmas.Reducer
import Verif.Props.Reducer
import Verif.Model.Lut
import Verif.Lemmas.Lut
import Verif.Props.Lut
import Verif.Model.Shift
import Verif.Spec.Shift
import Verif.Lemmas.Shift
import Verif.Props.Shift
import Verif.Model.Color
import Verif.Lemmas.Color
import Verif.Lemmas.ColorMap
import Verif.Props.Color
import Verif.Props.ColorMap
import Verif.Model.Views
import Verif.Spec.Views
import Verif.Lemmas.Views
import Verif.Props.Views
import Verif.Model.MatSize
import Verif.Props.MatSize
import Verif.Model.SubPix
import Verif.Props.SubPix
import Verif.Model.IEEE
import Verif.Lemmas.IEEE
import Verif.Model.SubSense
import Verif.Spec.SubSense
import Verif.Lemmas.SubSense
import Verif.Lemmas.SubSenseFrame
import Verif.Lemmas.SubSenseHist
import Verif.Props.SubSense
import Verif.Model.Pbas
import Verif.Spec.Pbas
import Verif.Lemmas.Pbas
import Verif.Props.Pbas
import Verif.Model.EdgeLBSP
import Verif.Spec.EdgeLBSP
import Verif.Lemmas.EdgeHyst
import Verif.Lemmas.EdgeGrad
import Verif.Lemmas.EdgePyr
import Verif.Lemmas.EdgeFuse
import Verif.Props.EdgeLBSP
import Verif.Model.MI
import Verif.Spec.MI
import Verif.Lemmas.MIHist
import Verif.Lemmas.MICalc
import Verif.Lemmas.MIInfo
import Verif.Lemmas.MIScore
import Verif.Props.MI
import Verif.Model.Affinity
import Verif.Spec.Affinity
import Verif.Lemmas.Affinity
import Verif.Props.Affinity
import Verif.Model.LSS
import Verif.Spec.LSS
import Verif.Lemmas.LSS
import Verif.Props.LSS
import Verif.Model.GMM
import Verif.Spec.Gauss
import Verif.Spec.GMM
import Verif.Lemmas.Gauss
import Verif.Lemmas.GMM
import Verif.Props.GMM
import Verif.Model.GMMSeg
import Verif.Spec.GMMSeg
import Verif.Lemmas.GMMSeg
import Verif.Props.GMMSeg
import Verif.Model.Warp
import Verif.Spec.Warp
import Verif.Lemmas.Warp
import Verif.Lemmas.WarpImg
import Verif.Props.Warp
import Verif.Model.SC
import Verif.Spec.SC
import Verif.Lemmas.SC
import Verif.Props.SC
import Verif.Props.SCDirect
import Verif.Props.SCInv
import Verif.Model.DASC
import Verif.Spec.DASC
import Verif.Lemmas.DASC
import Verif.Props.DASC
import Verif.Model.Slic
import Verif.Spec.Slic
import Verif.Lemmas.Slic
import Verif.Lemmas.SlicRun
import Verif.Lemmas.SlicSeg
import Verif.Props.Slic
import Verif.Model.SlicConn
import Verif.Spec.SlicConn
import Verif.Lemmas.SlicConn
import Verif.Props.SlicConn
import Verif.Model.SlicShow
import Verif.Spec.SlicShow
import Verif.Lemmas.SlicShow
import Verif.Props.SlicShow
import Verif.Model.Pawcs
import Verif.Spec.Pawcs
import Verif.Lemmas.Pawcs
import Verif.Lemmas.PawcsInit
import Verif.Lemmas.PawcsFrame
import Verif.Lemmas.PawcsStep
import Verif.Props.Pawcs
import Verif.Model.PawcsFeed
import Verif.Spec.PawcsFeed
import Verif.Lemmas.PawcsFeed
import Verif.Props.PawcsFeed
import Verif.Model.BgImage
import Verif.Spec.BgImage
import Verif.Lemmas.BgImage
import Verif.Props.BgImage
import Verif.Model.PawcsBg
import Verif.Lemmas.PawcsBg
import Verif.Props.PawcsBg
import Verif.Model.Vptz
import Verif.Spec.Vptz
import Verif.Lemmas.Vptz
import Verif.Props.Vptz
import Verif.Model.VptzCam
import Verif.Spec.VptzCam
import Verif.Lemmas.VptzCam
import Verif.Props.VptzCam
import Verif.Model.VptzEval
import Verif.Spec.VptzEval
import Verif.Lemmas.VptzEval
import Verif.Props.VptzEval
import Verif.Model.SegmAssoc
import Verif.Spec.SegmAssoc
import Verif.Lemmas.SegmAssoc
import Verif.Lemmas.SegmEnergy
import Verif.Props.SegmAssoc
import Verif.Model.SegmDual
import Verif.Spec.SegmDual
import Verif.Lemmas.SegmDual
import Verif.Lemmas.SegmDualInv
import Verif.Props.SegmDual
import Verif.Model.SegmProj
import Verif.Spec.SegmProj
import Verif.Lemmas.SegmProj
import Verif.Props.SegmProj
import Verif.Model.SegmRun
import Verif.Spec.SegmRun
import Verif.Lemmas.SegmRun
import Verif.Props.SegmRun
import Verif.Model.SegmUnary
import Verif.Spec.SegmUnary
import Verif.Lemmas.SegmUnary
import Verif.Props.SegmUnary
import Verif.Model.GLEval
import Verif.Spec.GLEval
import Verif.Lemmas.GLEval
import Verif.Props.GLEval
import Verif.Model.GLScan
import Verif.Spec.GLScan
import Verif.Lemmas.GLScan
import Verif.Props.GLScan
import Verif.Model.GLPreload
import Verif.Spec.GLPreload
import Verif.Lemmas.GLPreload
import Verif.Props.GLPreload
import Verif.Model.GLLobster
import Verif.Spec.GLLobster
import Verif.Lemmas.GLLobster
import Verif.Props.GLLobster
import Verif.Model.GLPipe
import Verif.Spec.GLPipe
import Verif.Lemmas.GLPipe
import Verif.Props.GLPipe
import Verif.Model.TextIO
import Verif.Spec.TextIO
import Verif.Lemmas.TextIO
import Verif.Props.TextIO
import Verif.Model.Display
import Verif.Spec.Display
import Verif.Lemmas.Display
import Verif.Props.Display
import Verif.Model.Loader
import Verif.Spec.Loader
import Verif.Lemmas.Loader
import Verif.Props.Loader
import Verif.Model.KofN
import Verif.Spec.KofN
import Verif.Lemmas.KofN
import Verif.Props.KofN
import Verif.Model.Bsds
import Verif.Spec.Bsds
import Verif.Lemmas.Bsds
import Verif.Props.Bsds
import Verif.Model.BsdsScore
import Verif.Spec.BsdsScore
import Verif.Lemmas.BsdsScore
import Verif.Props.BsdsScore
import Verif.Model.Report
import Verif.Spec.Report
import Verif.Lemmas.Report
import Verif.Props.Report
import Verif.Model.Cuda
import Verif.Lemmas.Cuda
import Verif.Model.CudaAff
import Verif.Spec.CudaAff
import Verif.Lemmas.CudaAff
import Verif.Props.CudaAff
import Verif.Model.CudaSC
import Verif.Lemmas.CudaSC
import Verif.Props.CudaSC
import Verif.Model.DirList
import Verif.Spec.DirList
import Verif.Lemmas.DirList
import Verif.Props.DirList
import Verif.Model.Subset
import Verif.Spec.Subset
import Verif.Lemmas.Subset
import Verif.Props.Subset
import Verif.Model.EvalRun
import Verif.Spec.EvalRun
import Verif.Lemmas.EvalRun
import Verif.Props.EvalRun
import Verif.Model.Bilodeau
import Verif.Spec.Bilodeau
import Verif.Lemmas.Bilodeau
import Verif.Props.Bilodeau
import Verif.Model.Corresp
import Verif.Spec.Corresp
import Verif.Lemmas.Corresp
import Verif.Props.Corresp
import Verif.Model.Files
import Verif.Spec.Files
import Verif.Lemmas.Files
import Verif.Props.Files
import Verif.Model.OutDir
import Verif.Spec.OutDir
import Verif.Lemmas.OutDir
import Verif.Props.OutDir
import Verif.Model.DispMask
import Verif.Spec.DispMask
import Verif.Lemmas.DispMask
import Verif.Props.DispMask
import Verif.Model.Flow
import Verif.Props.Flow
import Verif.Model.ResegmGraph
import Verif.Spec.ResegmGraph
import Verif.Lemmas.ResegmGraph
import Verif.Props.ResegmGraph
import Verif.Model.ResegmCost
import Verif.Spec.ResegmCost
import Verif.Lemmas.ResegmCost
import Verif.Props.ResegmCost
import Verif.Model.RootSift
import Verif.Spec.RootSift
import Verif.Lemmas.RootSift
import Verif.Props.RootSift
import Verif.Model.ShapeDist
import Verif.Spec.ShapeDist
import Verif.Lemmas.ShapeDist
import Verif.Props.ShapeDist
import Verif.Model.DepthMap
import Verif.Spec.DepthMap
import Verif.Lemmas.DepthMap
import Verif.Props.DepthMap
import Verif.Model.CudaToggle
import Verif.Spec.CudaToggle
import Verif.Lemmas.CudaToggle
import Verif.Props.CudaToggle
import Verif.Model.Canny
import Verif.Spec.Canny
import Verif.Lemmas.Canny
import Verif.Props.Canny
import Verif.Model.MatType
import Verif.Spec.MatType
import Verif.Lemmas.MatType
import Verif.Props.MatType
import Verif.Model.LutText
import Verif.Spec.LutText
import Verif.Lemmas.LutText
import Verif.Props.LutText
import Verif.Model.VapLoad
import Verif.Spec.VapLoad
import Verif.Lemmas.VapLoad
import Verif.Props.VapLoad
import Verif.Model.TinyMT
import Verif.Spec.TinyMT
import Verif.Lemmas.TinyMT
import Verif.Props.TinyMT
import Verif.Model.LineNum
import Verif.Spec.LineNum
import Verif.Lemmas.LineNum
import Verif.Props.LineNum
import Verif.Model.GLFormat
import Verif.Spec.GLFormat
import Verif.Lemmas.GLFormat
import Verif.Props.GLFormat
import Verif.Model.GLTex
import Verif.Spec.GLTex
import Verif.Lemmas.GLTex
import Verif.Props.GLTex
import Verif.Model.Coseg
import Verif.Spec.Coseg
import Verif.Lemmas.Coseg
import Verif.Props.Coseg
import Verif.Model.GMInfo
import Verif.Spec.GMInfo
import Verif.Lemmas.GMInfo
import Verif.Props.GMInfo
import Verif.Model.Billboard
import Verif.Spec.Billboard
import Verif.Lemmas.Billboard
import Verif.Props.Billboard
import Verif.Model.UnlockGuard
import Verif.Spec.UnlockGuard
import Verif.Lemmas.UnlockGuard
import Verif.Props.UnlockGuard
import Verif.Model.ChangeDet
import Verif.Spec.ChangeDet
import Verif.Lemmas.ChangeDet
import Verif.Props.ChangeDet
import Verif.Model.VidReg
import Verif.Spec.VidReg
import Verif.Lemmas.VidReg
import Verif.Props.VidReg
import Verif.Model.Capture
import Verif.Spec.Capture
import Verif.Lemmas.Capture
import Verif.Props.Capture
import Verif.Model.CosegmPush
import Verif.Spec.CosegmPush
import Verif.Lemmas.CosegmPush
import Verif.Props.CosegmPush
import Verif.Model.Pretrain
import Verif.Spec.Pretrain
import Verif.Lemmas.Pretrain
import Verif.Props.Pretrain
import Verif.Model.RectEdit
import Verif.Spec.RectEdit
import Verif.Lemmas.RectEdit
import Verif.Props.RectEdit
