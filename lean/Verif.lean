import Verif.Py.Str
import Verif.Py.Num
import Verif.Py.Strptime
import Verif.Py.Dict
import Verif.Py.Sort
import Verif.Model.Tokens
import Verif.Model.DateTime
import Verif.Model.Xid
import Verif.Model.Attr
import Verif.Model.Log
import Verif.Model.Classify
import Verif.Model.Info
import Verif.Lemmas.Str
import Verif.Lemmas.Num
import Verif.Lemmas.IntText
import Verif.Lemmas.Strptime
import Verif.Lemmas.Order
import Verif.Lemmas.DateTime
import Verif.Lemmas.Dict
import Verif.Lemmas.Sort
import Verif.Props.Tokens
import Verif.Props.DateTime
import Verif.Props.Xid
import Verif.Props.Attr
import Verif.Props.Trace
import Verif.Props.Classify
import Verif.Props.EventClasses
import Verif.Props.Info
import Verif.Props.LogInfo
import Verif.Props.Clone
import Verif.Model.Heap
import Verif.Model.Files
import Verif.Model.Util
import Verif.Props.Files
import Verif.Props.Util
import Verif.Lemmas.Heap
import Verif.Model.Xes
import Verif.Lemmas.Xes
import Verif.Props.XesRead
import Verif.Props.XesTrip
import Verif.Model.Ext
import Verif.Props.ExtMgr
import Verif.Props.Ext
import Verif.Props.ExtNested
import Verif.Model.Mxml
import Verif.Props.MxmlRead
import Verif.Props.MxmlTrip
import Verif.Props.MxmlAttr
import Verif.Model.ExtParse
import Verif.Props.ExtParse
import Verif.Props.ExtCache
import Verif.Model.Alpha
import Verif.Props.Alpha
import Verif.Model.Examples
import Verif.Props.Examples
import Verif.Props.Examples2
import Verif.Props.Csv
import Verif.Model.Misc
import Verif.Props.Misc
import Verif.Model.XmlText
import Verif.Lemmas.XmlText
import Verif.Props.XmlTree
import Verif.Props.XmlText
import Verif.Props.MxmlFile
import Verif.Props.XmlCut
import Verif.Props.XesMeaning
import Verif.Props.MxmlMeaning
import Verif.Props.Bytes
import Verif.Props.Universal
import Verif.Props.DateText
import Verif.Model.TraceDict
import Verif.Props.TraceDict
import Verif.Model.Extended
import Verif.Props.Extended
import Verif.Props.NewExt
import Verif.Props.Reads
import Verif.Props.XmlForm
import Verif.Props.XmlNest
import Verif.Props.MxmlStamp
import Verif.Model.ClassOps
import Verif.Props.ClassOps
import Verif.Props.Resave
import Verif.Props.Convert
import Verif.Model.HeapExt
import Verif.Lemmas.Foot
import Verif.Props.Alias
import Verif.Props.AliasNested
import Verif.Props.Analyse
import Verif.Props.Exact
import Verif.Props.Fresh
import Verif.Props.AlphaRun
import Verif.Props.Scripts
import Verif.Props.Refuse
import Verif.Props.MxmlRefuse
import Verif.Props.MxmlSave
import Verif.Model.ExtFile
import Verif.Lemmas.Decl
import Verif.Lemmas.Binary
import Verif.Props.ExtFile
import Verif.Model.AlphaSave
import Verif.Props.AlphaSave
import Verif.Props.Derived
import Verif.Props.Suite
import Verif.Model.Api
import Verif.Props.Api
import Verif.Model.ClassDict
import Verif.Props.ClassDict
import Verif.Props.AlphaTree
import Verif.Props.MxmlAnalyse
import Verif.Props.RefuseDate
import Verif.Props.NameMaps
import Verif.Props.XidObj
import Verif.Props.InfoSteps
import Verif.Props.BoundsText
import Verif.Props.ReadBack
import Verif.Props.Nones
import Verif.Model.HeapSave
import Verif.Model.HeapInfo
import Verif.Props.HeapSave
import Verif.Props.InfoExact
import Verif.Model.MxmlHeap
import Verif.Lemmas.MxmlHeap
import Verif.Lemmas.MxmlSim
import Verif.Props.MxmlHeap
import Verif.Props.MxmlNone
import Verif.Props.HeapInfo
import Verif.Props.HeapMxml
import Verif.Props.HeapNested
import Verif.Props.Unshared
import Verif.Props.HeapCopy
import Verif.Props.AlphaShort
import Verif.Props.IntLimit
import Verif.Props.ExtNames
import Verif.Props.MxmlUnshared
import Verif.Props.Encoding
import Verif.Props.XmlOnly
import Verif.Model.Stamp
import Verif.Props.Stamp
import Verif.Props.SortedTrip
import Verif.Props.CloneSave
import Verif.Props.InfoSum
import Verif.Props.ExtOrder
