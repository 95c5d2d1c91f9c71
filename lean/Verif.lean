import Verif.Props.Container
import Verif.Props.Brace
import Verif.Props.Code
import Verif.Props.Descent
import Verif.Props.Json
import Verif.Props.Index
import Verif.Props.Encode
import Verif.Props.Module
import Verif.Props.Header
import Verif.Props.Misc
import Verif.Props.ExtExc
import Verif.Props.Embed
import Verif.Props.Zlib
import Verif.Props.Form
import Verif.Props.OForm
import Verif.Props.Areas
import Verif.Props.Product
import Verif.Props.Nested
import Verif.Props.JsonText
import Verif.Props.Object
import Verif.Props.Store
import Verif.Props.Tree
import Verif.Props.TreeTable
import Verif.Props.TreeEx
import Verif.Props.TreeFormEx
import Verif.Root
import Verif.Props.RootLists
import Verif.Props.RootParts
import Verif.Props.RootDesc
import Verif.Props.Root
import Verif.Props.RootNeg
import Verif.Props.RootEx
import Verif.Props.RootSpec
import Verif.Leaf
import Verif.Props.Leaf
import Verif.Props.ObjectSpec
import Verif.Props.LeafSpec
import Verif.Props.LeafEx
import Verif.Props.TreeSpec
import Verif.FormJson
import Verif.FormJsonLemmas
import Verif.FormObj
import Verif.FormObjLemmas
import Verif.Props.FormObj
import Verif.Props.FormSpec
import Verif.Props.FormEx
import Verif.Stage
import Verif.Props.Stage
import Verif.Props.StageEx
import Verif.Org
import Verif.Props.Org
import Verif.Props.OrgEx
import Verif.Props.Whole
import Verif.Props.WholeEx
import Verif.Pipe
import Verif.Props.PipeElems
import Verif.Props.PipeShape
import Verif.Props.PipeExtract
import Verif.Props.PipeSteady
import Verif.Props.Pipe
import Verif.Props.PipeTable
import Verif.Props.PipeEx
import Verif.OFormAuto
import Verif.OFormShape
import Verif.OFormRefs
import Verif.OFormRenum
import Verif.OFormAutoPages
import Verif.OFormAutoLoop
import Verif.OFormAutoPanel
import Verif.OFormAutoElem
import Verif.OFormAutoTree
import Verif.OFormAutoForm
import Verif.Props.OFormAuto
import Verif.OFormFix
import Verif.OFormFixPanel
import Verif.OFormFixForm
import Verif.OFormAgain
import Verif.OFormAgainTree
import Verif.OFormAgainPanel
import Verif.OFormAgainForm
import Verif.Props.OFormAgain
import Verif.Crash
import Verif.CrashLemmas
import Verif.CrashRead
import Verif.CrashPhases
import Verif.CrashMain
import Verif.CrashOuts
import Verif.Props.Crash
import Verif.PathText
import Verif.PathLemmas
import Verif.Props.Path
import Verif.Top
import Verif.Props.Top
import Verif.OrgIndex
import Verif.OrgIndexLemmas
import Verif.Props.OrgIndex
import Verif.Props.OrgIndexEx
import Verif.Versions
import Verif.Props.Versions
import Verif.Props.VersionsBack
import Verif.Props.VersionsNeg
import Verif.Props.VersionsSave
import Verif.Props.VersionsSaveEx
import Verif.Props.VersionsEx
import Verif.Props.PipeLayouts
import Verif.Props.PipeLayoutsEx
import Verif.OrgStarLemmas
import Verif.Props.OrgStar
import Verif.Props.OrgStarEx
import Verif.Cli
import Verif.Props.Cli
import Verif.Props.CliEx
import Verif.VersIndex
import Verif.Props.VersIndex
import Verif.Props.VersIndexBack
import Verif.Props.VersIndexEx
import Verif.Props.PipeVersIndex
import Verif.Props.TreeAgain
import Verif.Props.RootAgain
import Verif.Props.RootAgainNeg
import Verif.Props.PipeAgain
import Verif.Props.PipeAgainEx
import Verif.Props.Edit
import Verif.Props.EditRoot
import Verif.Props.EditRound
import Verif.Props.EditNeg
import Verif.Props.EditEx
import Verif.Props.Folders
import Verif.Props.FoldersRoot
import Verif.Props.FoldersRound
import Verif.Props.FoldersNeg
import Verif.Props.FoldersEx
import Verif.Props.Describe
import Verif.Props.DescribeRoot
import Verif.Props.DescribeRound
import Verif.Props.DescribeEx
import Verif.Props.Order
import Verif.Props.OrderRoot
import Verif.Props.OrderEx
import Verif.Props.Same
import Verif.Props.SameEx
import Verif.Dummy
import Verif.Props.Dummy
