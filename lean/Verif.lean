import Verif.Model.Access
import Verif.Model.Assemble
import Verif.Model.Clone
import Verif.Model.CloneArgs
import Verif.Model.Codec
import Verif.Model.Construct
import Verif.Model.Csv
import Verif.Model.Describe
import Verif.Model.DescribeWith
import Verif.Model.Doc
import Verif.Model.Edit
import Verif.Model.Element
import Verif.Model.ElementIO
import Verif.Model.ErrText
import Verif.Model.Errors
import Verif.Model.Extract
import Verif.Model.Field
import Verif.Model.FieldCsv
import Verif.Model.FieldFormat
import Verif.Model.FieldMeta
import Verif.Model.Files
import Verif.Model.Filter
import Verif.Model.Format
import Verif.Model.Formatter
import Verif.Model.Heap
import Verif.Model.HeapClone
import Verif.Model.HeapDescribe
import Verif.Model.HeapEdit
import Verif.Model.HeapElement
import Verif.Model.HeapExtract
import Verif.Model.HeapReconstruct
import Verif.Model.HeapUtil
import Verif.Model.Import
import Verif.Model.Init
import Verif.Model.Interpolate
import Verif.Model.Json
import Verif.Model.Process
import Verif.Model.Re
import Verif.Model.Repr
import Verif.Model.Str
import Verif.Model.StructuredText
import Verif.Model.Surrogate
import Verif.Model.Timezone
import Verif.Model.Undefined
import Verif.Model.UrlEncoded
import Verif.Model.Util
import Verif.Model.Val
import Verif.Model.Visit
import Verif.Model.Xml
import Verif.Model.Yaml
import Verif.Spec.Alternatives
import Verif.Spec.Asked
import Verif.Spec.Assemble
import Verif.Spec.Base64
import Verif.Spec.Calls
import Verif.Spec.Causes
import Verif.Spec.Chars
import Verif.Spec.CloneParams
import Verif.Spec.Composed
import Verif.Spec.Conforms
import Verif.Spec.Construct
import Verif.Spec.Csv
import Verif.Spec.CsvText
import Verif.Spec.Cycle
import Verif.Spec.DateText
import Verif.Spec.DecRead
import Verif.Spec.DecText
import Verif.Spec.Declare
import Verif.Spec.Describe
import Verif.Spec.DescribeWith
import Verif.Spec.Doc
import Verif.Spec.DocText
import Verif.Spec.Element
import Verif.Spec.ElementIO
import Verif.Spec.ErrText
import Verif.Spec.ErrTree
import Verif.Spec.Examples
import Verif.Spec.Exchange
import Verif.Spec.Extract
import Verif.Spec.Faithful
import Verif.Spec.FieldMeta
import Verif.Spec.Filter
import Verif.Spec.FilterTwice
import Verif.Spec.FloatOrder
import Verif.Spec.Format
import Verif.Spec.Formatter
import Verif.Spec.HeapClone
import Verif.Spec.HeapDescribe
import Verif.Spec.HeapEdit
import Verif.Spec.HeapElement
import Verif.Spec.HeapReconstruct
import Verif.Spec.HeapUtil
import Verif.Spec.Import
import Verif.Spec.Instantiate
import Verif.Spec.IntText
import Verif.Spec.Interpolate
import Verif.Spec.Json
import Verif.Spec.JsonReady
import Verif.Spec.JsonText
import Verif.Spec.Leaf
import Verif.Spec.Lenient
import Verif.Spec.Local
import Verif.Spec.Located
import Verif.Spec.Members
import Verif.Spec.Moved
import Verif.Spec.PassOn
import Verif.Spec.Python
import Verif.Spec.Query
import Verif.Spec.Relax
import Verif.Spec.Reorder
import Verif.Spec.Reordered
import Verif.Spec.ReorderedExtract
import Verif.Spec.Repr
import Verif.Spec.Schema
import Verif.Spec.Screen
import Verif.Spec.Sendable
import Verif.Spec.Settled
import Verif.Spec.Sharing
import Verif.Spec.StructuredText
import Verif.Spec.Surrogate
import Verif.Spec.Tag
import Verif.Spec.Telling
import Verif.Spec.Text
import Verif.Spec.TextReady
import Verif.Spec.Tidy
import Verif.Spec.Timezone
import Verif.Spec.Transform
import Verif.Spec.Traverse
import Verif.Spec.Trim
import Verif.Spec.Types
import Verif.Spec.Util
import Verif.Spec.Visit
import Verif.Spec.Wire
import Verif.Spec.WireJson
import Verif.Spec.Xml
import Verif.Spec.Yaml
import Verif.Lemmas.Accept
import Verif.Lemmas.Assemble
import Verif.Lemmas.Basic
import Verif.Lemmas.Blame
import Verif.Lemmas.Calendar
import Verif.Lemmas.Chars
import Verif.Lemmas.DateTime
import Verif.Lemmas.Decimal
import Verif.Lemmas.Describe
import Verif.Lemmas.DictGet
import Verif.Lemmas.DictSet
import Verif.Lemmas.Errs
import Verif.Lemmas.Fuel
import Verif.Lemmas.Heap
import Verif.Lemmas.HeapClone
import Verif.Lemmas.HeapDescribe
import Verif.Lemmas.HeapElement
import Verif.Lemmas.HeapElementFresh
import Verif.Lemmas.HeapExtract
import Verif.Lemmas.HeapInst
import Verif.Lemmas.HeapInterpolate
import Verif.Lemmas.HeapLoops
import Verif.Lemmas.HeapMerge
import Verif.Lemmas.HeapOwn
import Verif.Lemmas.HeapProcess
import Verif.Lemmas.HeapQuiet
import Verif.Lemmas.HeapReconstruct
import Verif.Lemmas.HeapTraverse
import Verif.Lemmas.Leaf
import Verif.Lemmas.Local
import Verif.Lemmas.Loops
import Verif.Lemmas.MapLoop
import Verif.Lemmas.Members
import Verif.Lemmas.Null
import Verif.Lemmas.PyEq
import Verif.Lemmas.Re
import Verif.Lemmas.Rejects
import Verif.Lemmas.Same
import Verif.Lemmas.Seq
import Verif.Lemmas.Str
import Verif.Lemmas.Struct
import Verif.Lemmas.StructBody
import Verif.Lemmas.StructuredText
import Verif.Lemmas.Tag
import Verif.Lemmas.Yaml
import Verif.Props.Access
import Verif.Props.Alternatives
import Verif.Props.Asked
import Verif.Props.Assemble
import Verif.Props.Binary
import Verif.Props.Clone
import Verif.Props.CloneParams
import Verif.Props.Composed
import Verif.Props.Conformance
import Verif.Props.Construct
import Verif.Props.Consume
import Verif.Props.Csv
import Verif.Props.CsvForeign
import Verif.Props.Cycle
import Verif.Props.DateTime
import Verif.Props.Decimal
import Verif.Props.DecimalRead
import Verif.Props.Declare
import Verif.Props.DeclareMore
import Verif.Props.Describe
import Verif.Props.DescribeWith
import Verif.Props.Described
import Verif.Props.Doc
import Verif.Props.DocText
import Verif.Props.Documented
import Verif.Props.Edit
import Verif.Props.Element
import Verif.Props.ElementIO
import Verif.Props.Email
import Verif.Props.Enumeration
import Verif.Props.ErrText
import Verif.Props.Errors
import Verif.Props.Exceptions
import Verif.Props.Exchange
import Verif.Props.Extract
import Verif.Props.FieldFormat
import Verif.Props.FieldMeta
import Verif.Props.FieldText
import Verif.Props.Files
import Verif.Props.Filter
import Verif.Props.FilterTwice
import Verif.Props.Format
import Verif.Props.FormatText
import Verif.Props.Formatter
import Verif.Props.HeapClone
import Verif.Props.HeapDescribe
import Verif.Props.HeapEdit
import Verif.Props.HeapElement
import Verif.Props.Idempotence
import Verif.Props.Import
import Verif.Props.Instantiate
import Verif.Props.Integer
import Verif.Props.Interpolate
import Verif.Props.Json
import Verif.Props.JsonRead
import Verif.Props.Lenient
import Verif.Props.Local
import Verif.Props.Locality
import Verif.Props.Locations
import Verif.Props.Map
import Verif.Props.Merge
import Verif.Props.MergeShare
import Verif.Props.Narrowed
import Verif.Props.Null
import Verif.Props.PassOn
import Verif.Props.Poly
import Verif.Props.Preprocess
import Verif.Props.Python
import Verif.Props.Recursion
import Verif.Props.Relax
import Verif.Props.Reorder
import Verif.Props.Reordered
import Verif.Props.ReorderedExtract
import Verif.Props.Repr
import Verif.Props.ReprText
import Verif.Props.RoundTrip
import Verif.Props.Screen
import Verif.Props.ScreenFilter
import Verif.Props.Sendable
import Verif.Props.Sequence
import Verif.Props.Sharing
import Verif.Props.SimpleFields
import Verif.Props.Strings
import Verif.Props.Structure
import Verif.Props.StructuredText
import Verif.Props.Surrogate
import Verif.Props.Telling
import Verif.Props.Text
import Verif.Props.Timezone
import Verif.Props.Transform
import Verif.Props.Traverse
import Verif.Props.Trim
import Verif.Props.Tuple
import Verif.Props.Undefined
import Verif.Props.Union
import Verif.Props.UrlEncoded
import Verif.Props.UrlQuery
import Verif.Props.Visit
import Verif.Props.Wire
import Verif.Props.WireBy
import Verif.Props.WireJson
import Verif.Props.Xml
import Verif.Props.XmlEmpty
import Verif.Props.Yaml
import Verif.Props.YamlLayout
