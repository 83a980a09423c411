import Verif.Basic
import Verif.Model.Utf8
import Verif.Spec.Utf8
import Verif.Proof.Utf8
import Verif.Proof.Utf8Decode
import Verif.Proof.Utf8Seq
import Verif.Props.Utf8
import Verif.Model.Utf16
import Verif.Spec.Utf16
import Verif.Proof.Utf16
import Verif.Props.Utf16
import Verif.Model.CaseTables
import Verif.Model.CharClass
import Verif.Spec.CharClass
import Verif.Proof.CharClass
import Verif.Props.CharClass
import Verif.Model.ErrNum
import Verif.Props.ErrNum
import Verif.Model.Ptr
import Verif.Props.Ptr
import Verif.Props.RefCount
import Verif.Model.Array
import Verif.Spec.Array
import Verif.Proof.ArrayBody
import Verif.Proof.Array
import Verif.Proof.ArrayOps
import Verif.Props.Array
import Verif.Model.CowMap
import Verif.Spec.CowMap
import Verif.Proof.CowMap
import Verif.Props.CowMap
import Verif.Model.StrBody
import Verif.Model.StrVal
import Verif.Spec.StrVal
import Verif.Spec.StrHistory
import Verif.Proof.StrBody
import Verif.Proof.StrOwn
import Verif.Proof.StrTransform
import Verif.Proof.StrFrame
import Verif.Proof.StrVal
import Verif.Proof.StrOps
import Verif.Proof.StrCase
import Verif.Proof.StrFind
import Verif.Proof.StrHistory
import Verif.Props.StrVal
import Verif.Props.StrInt
import Verif.Props.StrJson
import Verif.Props.Variant
import Verif.Props.Format
import Verif.Props.Pegexp
import Verif.Props.Peg
import Verif.Props.PegAst
import Verif.Props.Latch
import Verif.Props.Thread
import Verif.Props.Rx
import Verif.Props.RxResult
import Verif.Props.RxTotal
import Verif.Props.RxFeature
import Verif.Props.RxCount
import Verif.Props.RxStack
import Verif.Props.Error
import Verif.Props.VarMem
import Verif.Props.ArrPar
import Verif.Props.StrPar
import Verif.Props.LatchMake
import Verif.Props.Utf8Exact
import Verif.Props.Utf16Exact
import Verif.Props.PtrExact
import Verif.Props.ArraySearch
import Verif.Props.ArrayBsearch
import Verif.Props.StrIntExact
import Verif.Props.StrExact
import Verif.Props.ArrayExact
import Verif.Props.CowMapFam
import Verif.Props.JsonExact
import Verif.Props.VariantExact
import Verif.Props.FormatExact
import Verif.Props.MapPar
import Verif.Props.TextPar
import Verif.Props.NestPar
import Verif.Props.DigitExact
import Verif.Props.ErrNumExact
import Verif.Props.SubstrExact
import Verif.Props.CaptureExact
import Verif.Props.WaitExact
import Verif.Props.VarMemLeak
import Verif.Props.RxDump
import Verif.Props.Source
import Verif.Props.RawStr
import Verif.Props.AnyText
import Verif.Props.StrSlice
import Verif.Props.StrKeys
import Verif.Props.ArrCost
import Verif.Props.StrCost
import Verif.Props.ArrDelete
import Verif.Props.StrAppend
import Verif.Props.StrText
import Verif.Props.StrBorrow
