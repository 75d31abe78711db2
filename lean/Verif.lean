import Verif.Model.Adjset
import Verif.Model.Array
import Verif.Model.Base64
import Verif.Model.Base64Json
import Verif.Model.Bcast
import Verif.Model.Combine
import Verif.Model.CommSchema
import Verif.Model.Contiguous
import Verif.Model.Csv
import Verif.Model.DataType
import Verif.Model.Diff
import Verif.Model.Extract
import Verif.Model.Float
import Verif.Model.Gather
import Verif.Model.GenNode
import Verif.Model.Generator
import Verif.Model.Hash
import Verif.Model.Hilbert
import Verif.Model.Irecv
import Verif.Model.Json
import Verif.Model.JsonStr
import Verif.Model.KdTree
import Verif.Model.ListOf
import Verif.Model.Log
import Verif.Model.MapBack
import Verif.Model.Matset
import Verif.Model.Mcarray
import Verif.Model.McarrayConv
import Verif.Model.Mem
import Verif.Model.MeshBuilder
import Verif.Model.MeshConvert
import Verif.Model.MeshFiles
import Verif.Model.MeshIO
import Verif.Model.MeshIndex
import Verif.Model.MeshPoints
import Verif.Model.MeshReorder
import Verif.Model.MeshTree
import Verif.Model.MeshVerify
import Verif.Model.MpiTag
import Verif.Model.NDIndex
import Verif.Model.Node
import Verif.Model.NodeEndian
import Verif.Model.NodeIO
import Verif.Model.NodeSync
import Verif.Model.O2M
import Verif.Model.Partition
import Verif.Model.PlainMsg
import Verif.Model.PointMerge
import Verif.Model.Reduce
import Verif.Model.Relay
import Verif.Model.Res
import Verif.Model.Schema
import Verif.Model.SchemaOp
import Verif.Model.SchemaRaw
import Verif.Model.Silo
import Verif.Model.Specset
import Verif.Model.Str
import Verif.Model.Summary
import Verif.Model.TopoMeta
import Verif.Model.TopoPoly
import Verif.Model.Utils
import Verif.Spec.Adjset
import Verif.Spec.Array
import Verif.Spec.Bcast
import Verif.Spec.Combine
import Verif.Spec.Compare
import Verif.Spec.Contiguous
import Verif.Spec.Csv
import Verif.Spec.Diff
import Verif.Spec.Endian
import Verif.Spec.Extract
import Verif.Spec.GenNode
import Verif.Spec.Json
import Verif.Spec.JsonText
import Verif.Spec.KdTree
import Verif.Spec.Layout
import Verif.Spec.MapBack
import Verif.Spec.Matset
import Verif.Spec.Mesh
import Verif.Spec.MeshBuilder
import Verif.Spec.MeshFiles
import Verif.Spec.MeshIO
import Verif.Spec.MeshIndex
import Verif.Spec.MeshPoints
import Verif.Spec.MeshReorder
import Verif.Spec.MeshVerify
import Verif.Spec.NodeHistory
import Verif.Spec.NodeJson
import Verif.Spec.NodeSync
import Verif.Spec.O2M
import Verif.Spec.Partition
import Verif.Spec.PlainMsg
import Verif.Spec.PointMerge
import Verif.Spec.PureJson
import Verif.Spec.Relay
import Verif.Spec.SchemaJson
import Verif.Spec.SetSchema
import Verif.Spec.Silo
import Verif.Spec.Specset
import Verif.Spec.Table
import Verif.Spec.TopoMeta
import Verif.Spec.Tree
import Verif.Spec.Update
import Verif.Spec.Value
import Verif.Lemmas.Adjset
import Verif.Lemmas.Adjset2
import Verif.Lemmas.Adjset3
import Verif.Lemmas.Adjset4
import Verif.Lemmas.Adjset5
import Verif.Lemmas.AdjsetBase
import Verif.Lemmas.Array
import Verif.Lemmas.Base64
import Verif.Lemmas.Base64Json
import Verif.Lemmas.Bcast
import Verif.Lemmas.Bcast2
import Verif.Lemmas.Combine
import Verif.Lemmas.Combine2
import Verif.Lemmas.Combine3
import Verif.Lemmas.Combine4
import Verif.Lemmas.Combine5
import Verif.Lemmas.CommSchema
import Verif.Lemmas.Contiguous
import Verif.Lemmas.Csv
import Verif.Lemmas.Csv2
import Verif.Lemmas.Csv3
import Verif.Lemmas.Csv4
import Verif.Lemmas.Csv5
import Verif.Lemmas.Csv6
import Verif.Lemmas.Csv7
import Verif.Lemmas.Csv8
import Verif.Lemmas.Diff
import Verif.Lemmas.DiffTotal
import Verif.Lemmas.DiffTree
import Verif.Lemmas.Extract
import Verif.Lemmas.Extract2
import Verif.Lemmas.Extract3
import Verif.Lemmas.Extract4
import Verif.Lemmas.ExtractBox
import Verif.Lemmas.ExtractBox2
import Verif.Lemmas.ExtractBox3
import Verif.Lemmas.Float
import Verif.Lemmas.Gather
import Verif.Lemmas.GenFill
import Verif.Lemmas.GenNode
import Verif.Lemmas.GenNull
import Verif.Lemmas.Hilbert
import Verif.Lemmas.Irecv
import Verif.Lemmas.Isend
import Verif.Lemmas.JsonParse
import Verif.Lemmas.KdTree
import Verif.Lemmas.KdTree2
import Verif.Lemmas.Leak
import Verif.Lemmas.ListOf
import Verif.Lemmas.MapBack
import Verif.Lemmas.MapBack2
import Verif.Lemmas.MapBack3
import Verif.Lemmas.MapBack4
import Verif.Lemmas.MapBack5
import Verif.Lemmas.MapBack6
import Verif.Lemmas.Matset
import Verif.Lemmas.Matset2
import Verif.Lemmas.Matset3
import Verif.Lemmas.Matset4
import Verif.Lemmas.McarrayConv
import Verif.Lemmas.McarrayConv2
import Verif.Lemmas.Mem
import Verif.Lemmas.Merge
import Verif.Lemmas.MeshBuilder
import Verif.Lemmas.MeshCoords
import Verif.Lemmas.MeshFiles
import Verif.Lemmas.MeshFiles2
import Verif.Lemmas.MeshFiles3
import Verif.Lemmas.MeshFiles4
import Verif.Lemmas.MeshFiles5
import Verif.Lemmas.MeshIO
import Verif.Lemmas.MeshIO10
import Verif.Lemmas.MeshIO11
import Verif.Lemmas.MeshIO2
import Verif.Lemmas.MeshIO3
import Verif.Lemmas.MeshIO4
import Verif.Lemmas.MeshIO5
import Verif.Lemmas.MeshIO6
import Verif.Lemmas.MeshIO7
import Verif.Lemmas.MeshIO8
import Verif.Lemmas.MeshIO9
import Verif.Lemmas.MeshIndex
import Verif.Lemmas.MeshIndex2
import Verif.Lemmas.MeshIndex3
import Verif.Lemmas.MeshIndex4
import Verif.Lemmas.MeshIndex5
import Verif.Lemmas.MeshIndex6
import Verif.Lemmas.MeshIndex7
import Verif.Lemmas.MeshLegacy
import Verif.Lemmas.MeshLegacy2
import Verif.Lemmas.MeshLoop
import Verif.Lemmas.MeshMain
import Verif.Lemmas.MeshPoints
import Verif.Lemmas.MeshRead
import Verif.Lemmas.MeshReorder
import Verif.Lemmas.MeshReorder2
import Verif.Lemmas.MeshTopo
import Verif.Lemmas.MeshTree
import Verif.Lemmas.MeshVerify
import Verif.Lemmas.MeshVerify2
import Verif.Lemmas.MeshVerify3
import Verif.Lemmas.MeshVerify4
import Verif.Lemmas.MeshVerify5
import Verif.Lemmas.MeshVerify6
import Verif.Lemmas.Node
import Verif.Lemmas.NodeEndian
import Verif.Lemmas.NodeIO
import Verif.Lemmas.NodeJson
import Verif.Lemmas.NodeJson2
import Verif.Lemmas.NodeJson3
import Verif.Lemmas.NodeSet
import Verif.Lemmas.NodeSync
import Verif.Lemmas.NodeSync10
import Verif.Lemmas.NodeSync11
import Verif.Lemmas.NodeSync12
import Verif.Lemmas.NodeSync13
import Verif.Lemmas.NodeSync2
import Verif.Lemmas.NodeSync3
import Verif.Lemmas.NodeSync4
import Verif.Lemmas.NodeSync5
import Verif.Lemmas.NodeSync6
import Verif.Lemmas.NodeSync7
import Verif.Lemmas.NodeSync8
import Verif.Lemmas.NodeSync9
import Verif.Lemmas.NodeUpdate
import Verif.Lemmas.NodeUpdate2
import Verif.Lemmas.O2M
import Verif.Lemmas.O2MCompact
import Verif.Lemmas.Partition
import Verif.Lemmas.Partition2
import Verif.Lemmas.Partition3
import Verif.Lemmas.Partition4
import Verif.Lemmas.Partition5
import Verif.Lemmas.Partition6
import Verif.Lemmas.Partition7
import Verif.Lemmas.Partition8
import Verif.Lemmas.Plain
import Verif.Lemmas.PlainMsg
import Verif.Lemmas.PlainMsg2
import Verif.Lemmas.PointMerge
import Verif.Lemmas.PointMerge2
import Verif.Lemmas.PointMerge3
import Verif.Lemmas.PureJson
import Verif.Lemmas.PureJson2
import Verif.Lemmas.Reduce
import Verif.Lemmas.Relay
import Verif.Lemmas.ResMonad
import Verif.Lemmas.SaneText
import Verif.Lemmas.Sanitize
import Verif.Lemmas.SchemaCompare
import Verif.Lemmas.SchemaJson
import Verif.Lemmas.SchemaJson2
import Verif.Lemmas.SchemaLayout
import Verif.Lemmas.SchemaPath
import Verif.Lemmas.SchemaRaw
import Verif.Lemmas.SchemaRefine
import Verif.Lemmas.SetSchema
import Verif.Lemmas.Silo
import Verif.Lemmas.Silo2
import Verif.Lemmas.Silo3
import Verif.Lemmas.Silo4
import Verif.Lemmas.Specset
import Verif.Lemmas.Str
import Verif.Lemmas.TopoMeta
import Verif.Lemmas.TopoMeta2
import Verif.Lemmas.TopoMeta3
import Verif.Lemmas.TopoMeta4
import Verif.Lemmas.TopoPoly
import Verif.Lemmas.TreeDec
import Verif.Lemmas.Update
import Verif.Lemmas.UpdateCompact
import Verif.Lemmas.UpdateCompatible
import Verif.Props.Adjset
import Verif.Props.Array
import Verif.Props.Base64
import Verif.Props.Base64Json
import Verif.Props.Bcast
import Verif.Props.Combine
import Verif.Props.CombineEx
import Verif.Props.CommSchema
import Verif.Props.Contiguous
import Verif.Props.Csv
import Verif.Props.DataType
import Verif.Props.Diff
import Verif.Props.Extract
import Verif.Props.ExtractBox
import Verif.Props.ExtractBoxEx
import Verif.Props.ExtractEx
import Verif.Props.Gather
import Verif.Props.GenNode
import Verif.Props.Hilbert
import Verif.Props.Irecv
import Verif.Props.Isend
import Verif.Props.KdTree
import Verif.Props.KdTree2
import Verif.Props.Leak
import Verif.Props.LeakMpi
import Verif.Props.ListOf
import Verif.Props.Log
import Verif.Props.MapBack
import Verif.Props.MapBackEx
import Verif.Props.Matset
import Verif.Props.Mcarray
import Verif.Props.McarrayConv
import Verif.Props.Mesh
import Verif.Props.MeshBuilder
import Verif.Props.MeshFiles
import Verif.Props.MeshIO
import Verif.Props.MeshIndex
import Verif.Props.MeshLegacy
import Verif.Props.MeshPoints
import Verif.Props.MeshReorder
import Verif.Props.MeshVerify
import Verif.Props.MpiTag
import Verif.Props.NDIndex
import Verif.Props.NodeCopy
import Verif.Props.NodeEndian
import Verif.Props.NodeExternal
import Verif.Props.NodeIO
import Verif.Props.NodeJson
import Verif.Props.NodeSet
import Verif.Props.NodeSync
import Verif.Props.NodeUpdate
import Verif.Props.O2M
import Verif.Props.Partition
import Verif.Props.PlainMsg
import Verif.Props.PointMerge
import Verif.Props.PointMergeEx
import Verif.Props.PureJson
import Verif.Props.Reduce
import Verif.Props.Relay
import Verif.Props.SaneText
import Verif.Props.Schema
import Verif.Props.SchemaCompare
import Verif.Props.SchemaJson
import Verif.Props.SchemaLayout
import Verif.Props.SetSchema
import Verif.Props.Silo
import Verif.Props.Specset
import Verif.Props.Str
import Verif.Props.Summary
import Verif.Props.TopoMeta
import Verif.Props.TopoPoly
import Verif.Props.Utils
