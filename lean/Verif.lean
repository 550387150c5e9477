import Verif.Model.Basic
import Verif.Model.Text
import Verif.Spec.Text
import Verif.Lemmas.Chars
import Verif.Lemmas.Text
import Verif.Lemmas.Find
import Verif.Lemmas.Range
import Verif.Lemmas.RefName
import Verif.Props.Text
import Verif.Props.Units
import Verif.Props.Versions
import Verif.Props.IntBounds
import Verif.Props.IntRanges
import Verif.Props.IntField
import Verif.Props.EnumField
import Verif.Props.SetField
import Verif.Props.Length
import Verif.Props.Cond
import Verif.Model.FieldParse
import Verif.Model.Value
import Verif.Model.Message
import Verif.Model.Frame
import Verif.Model.Protocol
import Verif.Lemmas.FieldParse
import Verif.Lemmas.FieldBody
import Verif.Lemmas.FieldInv
import Verif.Lemmas.FieldObj
import Verif.Lemmas.Sample
import Verif.Spec.Field
import Verif.Spec.Ser
import Verif.Props.FieldLength
import Verif.Props.FieldSer
import Verif.Lemmas.Members
import Verif.Spec.Path
import Verif.Props.FieldMembers
import Verif.Props.FieldChecks
import Verif.Props.FieldVersions
import Verif.Model.GenText
import Verif.Spec.GenText
import Verif.Props.GenText
import Verif.Props.GenNum
import Verif.Props.GenLines
import Verif.Props.GenTidy
import Verif.Props.GenTemplate
import Verif.Props.IntDeclared
import Verif.Spec.Message
import Verif.Lemmas.Message
import Verif.Lemmas.SampleMsg
import Verif.Props.MessageFields
import Verif.Props.MessageAliases
import Verif.Spec.Platform
import Verif.Lemmas.StrOrder
import Verif.Props.Platforms
import Verif.Spec.Frame
import Verif.Props.Frame
import Verif.Spec.Protocol
import Verif.Lemmas.Protocol
import Verif.Props.Protocol
import Verif.Props.ProtocolCalls
import Verif.Model.GenScope
import Verif.Spec.GenScope
import Verif.Props.GenScope
import Verif.Props.GenTypes
import Verif.Model.GenSchema
import Verif.Spec.GenSchema
import Verif.Lemmas.GenSchema
import Verif.Props.GenSchema
import Verif.Model.GenValid
import Verif.Spec.GenValid
import Verif.Props.GenValid
import Verif.Props.GenEnum
import Verif.Props.GenEnumNames
import Verif.Model.GenSet
import Verif.Spec.GenSet
import Verif.Props.GenSet
import Verif.Props.GenSetNames
import Verif.Spec.CondRef
import Verif.Lemmas.CondRef
import Verif.Props.CondRef
import Verif.Props.FieldSem
import Verif.Spec.Seq
import Verif.Props.FieldSeq
import Verif.Props.FieldDepth
import Verif.Model.FloatField
import Verif.Spec.FloatField
import Verif.Lemmas.FloatField
import Verif.Props.FloatField
import Verif.Spec.Xml
import Verif.Spec.Value
import Verif.Lemmas.PropsCongr
import Verif.Lemmas.Collect
import Verif.Props.Xml
import Verif.Props.Value
import Verif.Model.GenMsgs
import Verif.Spec.GenMsgs
import Verif.Lemmas.GenMsgs
import Verif.Lemmas.GenMsgId
import Verif.Props.GenMsgs
import Verif.Props.GenMsgNames
import Verif.Props.GenMsgId
import Verif.Model.GenCond
import Verif.Spec.GenCond
import Verif.Lemmas.GenCond
import Verif.Lemmas.GenCondEval
import Verif.Props.GenCond
import Verif.Props.GenCondSample
import Verif.Model.GenFloat
import Verif.Model.GenVersion
import Verif.Spec.GenFloat
import Verif.Spec.GenVersion
import Verif.Props.GenFloat
import Verif.Props.GenSpecial
import Verif.Props.GenVersion
import Verif.Props.GenClassNames
import Verif.Props.GenScopeFields
import Verif.Model.GenNames
import Verif.Props.GenNames
import Verif.Model.GenWire
import Verif.Model.GenRead
import Verif.Spec.Wire
import Verif.Spec.GenRead
import Verif.Props.GenWire
import Verif.Props.GenRead
import Verif.Model.GenVariant
import Verif.Spec.GenVariant
import Verif.Props.GenVariant
import Verif.Spec.Sort
import Verif.Lemmas.Sorting
import Verif.Props.Sorting
import Verif.Props.GenMsgFiles
import Verif.Model.GenOptions
import Verif.Spec.GenOptions
import Verif.Props.GenOptions
import Verif.Props.GenFrame
import Verif.Model.GenCustom
import Verif.Spec.GenCustom
import Verif.Props.GenCustom
import Verif.Props.Reuse
import Verif.Props.GenLength
import Verif.Model.Latex
import Verif.Spec.Latex
import Verif.Props.Latex
import Verif.Props.LatexLabel
import Verif.Props.LatexSet
import Verif.Props.LatexValues
import Verif.Model.GenDetached
import Verif.Spec.GenDetached
import Verif.Props.GenDetached
import Verif.Props.GenSeq
import Verif.Props.GenInst
import Verif.Props.GenUse
import Verif.Props.GenSwig
import Verif.Model.GenIface
import Verif.Spec.GenIface
import Verif.Lemmas.GenIface
import Verif.Lemmas.GenIfacePut
import Verif.Props.GenIface
import Verif.Props.GenIfaceSample
import Verif.Model.GenSuitable
import Verif.Spec.GenSuitable
import Verif.Props.GenSuitable
import Verif.Model.GenHandler
import Verif.Props.GenHandler
import Verif.Model.GenRun
import Verif.Spec.GenRun
import Verif.Props.GenRun
import Verif.Model.GenC
import Verif.Spec.GenC
import Verif.Props.GenC
import Verif.Model.GenCMsg
import Verif.Props.GenCMsg
import Verif.Model.GenCEnum
import Verif.Props.GenCEnum
import Verif.Model.GenCIds
import Verif.Props.GenCIds
import Verif.Model.GenCNames
import Verif.Props.GenCNames
