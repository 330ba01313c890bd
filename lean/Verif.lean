import Verif.Prop.Region
import Verif.Prop.Pool
import Verif.Prop.RList
import Verif.Prop.Vector
import Verif.Prop.Bits
import Verif.Prop.Swap
import Verif.Prop.Heap
import Verif.Prop.Refcount
import Verif.Prop.Time
import Verif.Prop.Endian
import Verif.Prop.Scalar
import Verif.Prop.Quat
import Verif.Prop.Rotmat
import Verif.Prop.Vec
import Verif.Prop.Rigid
import Verif.Prop.Exp
import Verif.Prop.Slerp
import Verif.Prop.Conv
import Verif.Prop.Vel
import Verif.Prop.Expv
import Verif.Prop.Mat
import Verif.Prop.La
import Verif.Prop.LaStat
import Verif.Prop.Pinv
import Verif.Prop.PinvSvd
import Verif.Prop.Hungarian
import Verif.Prop.Diffeq
import Verif.Prop.OdeOrder
import Verif.Prop.OdeStep
import Verif.Prop.OdeSol
import Verif.Prop.TrajList
import Verif.Prop.TrajGen
import Verif.Prop.TrajEval
import Verif.Prop.SgIndex
import Verif.Prop.SgUpdate
import Verif.Prop.SgFk
import Verif.Prop.SgRep
import Verif.Prop.SgReparent
import Verif.Prop.SgChain
import Verif.Prop.SgJac
import Verif.Prop.SgCl
import Verif.Prop.SgAllow
import Verif.Prop.Ik
import Verif.Prop.Opt
import Verif.Prop.Lc3
import Verif.Prop.Planar
import Verif.Prop.Wf
import Verif.Prop.RegionAll
import Verif.Prop.RefcountAll
import Verif.Prop.Tfp
import Verif.Prop.Dh
import Verif.Prop.LnJac
import Verif.Prop.ExpDeriv
import Verif.Prop.SlerpChain
import Verif.Prop.Vecs2quat
import Verif.Prop.QvelRk
import Verif.Prop.Lnv
import Verif.Prop.Frames
import Verif.Prop.QuatInt
import Verif.Prop.Wk
import Verif.Prop.BoxMuller
import Verif.Prop.Stat
import Verif.Prop.Exclude
import Verif.Prop.Io
import Verif.Prop.IoParse
import Verif.Prop.IkCheck
import Verif.Prop.SgLim
import Verif.Prop.SgLimUse
import Verif.Prop.SgCopy
import Verif.Prop.GlMask
import Verif.Prop.GlCam
import Verif.Prop.GlMesh
import Verif.Prop.GlCover
import Verif.Prop.GlClosed
import Verif.Prop.FclCheck
import Verif.Prop.FclDist
import Verif.Prop.Mp
import Verif.Prop.FclAllow
import Verif.Prop.Life
import Verif.Prop.IkOpt
import Verif.Prop.IkSqp
import Verif.Prop.RxCt
import Verif.Prop.Lp
import Verif.Prop.LpMore
import Verif.Prop.MatExp
import Verif.Prop.Spatial
import Verif.Prop.TfpCpp
import Verif.Prop.Dual
import Verif.Prop.GeomOpt
import Verif.Prop.MpSeq
import Verif.Prop.WinCall
import Verif.Prop.SdlCam
import Verif.Prop.SdlLoop
import Verif.Prop.TfAvg
import Verif.Prop.DuquMat
import Verif.Prop.TfCheck
import Verif.Prop.Care
import Verif.Prop.Lls
import Verif.Prop.Qr
import Verif.Prop.RegionData
import Verif.Prop.Cv
import Verif.Prop.Validate
import Verif.Prop.TjX
import Verif.Prop.PyTf
import Verif.Prop.PyMat
import Verif.Prop.PySg
import Verif.Prop.TfRate
import Verif.Prop.Squad
import Verif.Prop.TfWavg
import Verif.Prop.IkParm
import Verif.Prop.PyLife
import Verif.Prop.WinShow
import Verif.Prop.GlDraw
import Verif.Prop.TjXPb
import Verif.Prop.TrajChk
import Verif.Prop.TrajArr
import Verif.Prop.TrajLink
import Verif.Prop.RegionLocal
import Verif.Prop.IkRestart
import Verif.Prop.Octree
import Verif.Prop.Svd
import Verif.Prop.WfScan
import Verif.Prop.MtlScan
import Verif.Prop.MatIter
import Verif.Prop.IkJacStep
import Verif.Prop.IkCx
import Verif.Prop.Num
import Verif.Prop.FkObj
import Verif.Prop.PyMp
import Verif.Prop.MatAlloc
import Verif.Prop.PyCl
import Verif.Prop.Inv
import Verif.Prop.Spline
import Verif.Prop.Qp
import Verif.Prop.LaF
import Verif.Prop.CurlyExp
import Verif.Prop.OptExp
import Verif.Prop.MeshDe
import Verif.Prop.MtlLisp
import Verif.Prop.CurlyScene
import Verif.Prop.LispSg
import Verif.Prop.SgGen
import Verif.Prop.Urdf
import Verif.Prop.SgSet
import Verif.Prop.SgRope
import Verif.Prop.Keyframe
import Verif.Prop.NetRender
import Verif.Prop.TfTree
import Verif.Prop.LispTf
import Verif.Prop.PyDk
import Verif.Prop.SgCheck
import Verif.Prop.Encode
import Verif.Prop.PyIk
import Verif.Prop.PyDist
import Verif.Prop.Crs
