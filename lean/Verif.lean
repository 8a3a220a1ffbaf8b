import Verif.Props.C01
import Verif.Props.C02
import Verif.Props.C03
import Verif.Props.C04
import Verif.Props.C05
import Verif.Props.C06
import Verif.Props.C07
import Verif.Props.C08
import Verif.Props.C09
import Verif.Props.C10
import Verif.Props.C11
import Verif.Props.C12
import Verif.Props.C13
import Verif.Props.C14
import Verif.Props.C15
import Verif.Props.C16
import Verif.Props.C17
import Verif.Props.C18
import Verif.Props.C19
import Verif.Props.C20
import Verif.Props.C21
import Verif.Props.C22
import Verif.Props.C23
import Verif.Props.C24
import Verif.Props.C25
import Verif.Props.C26
import Verif.Props.C27
import Verif.Props.C28
import Verif.Props.C29
import Verif.Props.C30
import Verif.Props.C31
import Verif.Props.C31Inst
import Verif.Props.C32
import Verif.Props.C32Double
import Verif.Props.C33
import Verif.Props.C33Displaced
import Verif.Props.C34
import Verif.Props.C35
import Verif.Props.C36
import Verif.Props.C37
import Verif.Props.C38
import Verif.Props.C39
import Verif.Props.C40
import Verif.Props.C41
import Verif.Props.C42
import Verif.Props.C43
import Verif.Props.C43Inst
import Verif.Props.C44
import Verif.Props.C45
import Verif.Props.C46
import Verif.Store.SoaModel
import Verif.Store.SoaLemmas
import Verif.Props.C47
import Verif.Props.C48
import Verif.Store.ThreadModel
import Verif.Store.ThreadLemmas
import Verif.Props.C49
import Verif.IO.FileModel
import Verif.IO.FileLemmas
import Verif.Props.C50
import Verif.Props.C50Serial
import Verif.Props.C51
import Verif.Comm.MpiModel
import Verif.Comm.Confluence
import Verif.Comm.Exchange
import Verif.Comm.GatherModel
import Verif.Comm.GatherLemmas
import Verif.Comm.Pmw
import Verif.Comm.Cw
import Verif.Props.C52
import Verif.Props.C53
import Verif.Hpx.DataflowModel
import Verif.Hpx.GroupModel
import Verif.Hpx.Group
import Verif.Hpx.GroupInv
import Verif.Hpx.GroupStep
import Verif.Hpx.DataflowLemmas
import Verif.Hpx.DataflowInv
import Verif.Hpx.DataflowProgress
import Verif.Props.C54
import Verif.Store.MeshlessModel
import Verif.Store.MeshlessLemmas
import Verif.Store.MeshlessOpt
import Verif.Props.C55
import Verif.Store.MeshlessDoubleModel
import Verif.Props.C55Double
import Verif.Comm.LinkProgModel
import Verif.Comm.LinkProg
import Verif.Comm.LinkView
import Verif.Comm.LinkRounds
import Verif.Comm.LinkSim
import Verif.Props.C56
import Verif.Props.C57
import Verif.Tune.ParamModel
import Verif.Tune.Param
import Verif.Tune.Search
import Verif.Props.C58
import Verif.Tune.SimplexModel
import Verif.Tune.Simplex
import Verif.Props.C59
import Verif.Tune.AutoModel
import Verif.Props.C60
import Verif.Cuda.KernelModel
import Verif.Cuda.Kernel
import Verif.Cuda.SimModel
import Verif.Props.C61
import Verif.Mesh.PolytopeModel
import Verif.Mesh.Polytope
import Verif.Mesh.ShapeModel
import Verif.Props.C62
import Verif.Props.C62Shape
import Verif.Store.SelectorModel
import Verif.Store.Selector
import Verif.Props.C63
import Verif.Part.ScotchModel
import Verif.Part.Scotch
import Verif.Part.ScotchGraph
import Verif.Part.ScotchFloat
import Verif.Part.ScotchDist
import Verif.Props.C64
import Verif.Comm.LayerModel
import Verif.Comm.LayerColl
import Verif.Comm.LayerReq
import Verif.Comm.LayerVec
import Verif.Props.C65
import Verif.Image.ImageModel
import Verif.Image.ImageLemmas
import Verif.Image.PpmLemmas
import Verif.Image.PaletteLemmas
import Verif.Props.C66
import Verif.Store.CudaGridModel
import Verif.Store.CudaGridLemmas
import Verif.Props.C67
import Verif.Chrono.ChronoModel
import Verif.Props.C68
import Verif.Text.TextModel
import Verif.Text.TokenLemmas
import Verif.Props.C69
import Verif.Sim.OmpModel
import Verif.Props.C70
import Verif.Ieee.RoundModel
import Verif.Ieee.RoundLemmas
import Verif.Mesh.MesherModel
import Verif.Props.C71
import Verif.Misc.RandomModel
import Verif.Misc.RandomLemmas
import Verif.Misc.RandomInjective
import Verif.Props.C72
import Verif.Unstr.SoaGridModel
import Verif.Props.C73
import Verif.Sim.CacheBlockModel
import Verif.Props.C74
import Verif.Store.SoaVectorModel
import Verif.Props.C75
import Verif.Store.LoopPeelModel
import Verif.Props.C76
import Verif.Store.AllocModel
import Verif.Props.C77
import Verif.Misc.TestCellModel
import Verif.Props.C78
import Verif.Store.SoaArrayModel
import Verif.Props.C79
import Verif.Hpx.StartModel
import Verif.Props.C80
import Verif.Misc.UTestCellModel
import Verif.Props.C81
import Verif.Store.MultiCellModel
import Verif.Props.C82
