import Verif.C.Basic
import Verif.C.Float32
import Verif.C.Ieee
import Verif.C.State
import Verif.Conform.Base
import Verif.Conform.Buf
import Verif.Conform.Num
import Verif.Conform.View
import Verif.Lemmas.Accessory
import Verif.Lemmas.Aes
import Verif.Lemmas.AesField
import Verif.Lemmas.AesInverse
import Verif.Lemmas.Alias
import Verif.Lemmas.BufAlloc
import Verif.Lemmas.BufCat
import Verif.Lemmas.BufCore
import Verif.Lemmas.BufExamples
import Verif.Lemmas.BufHist
import Verif.Lemmas.BufLife
import Verif.Lemmas.BufLog
import Verif.Lemmas.BufOp
import Verif.Lemmas.BufOps
import Verif.Lemmas.BufText
import Verif.Lemmas.Bytes
import Verif.Lemmas.Cleanup
import Verif.Lemmas.Crypt
import Verif.Lemmas.CryptMem
import Verif.Lemmas.CryptProp
import Verif.Lemmas.Escape
import Verif.Lemmas.EscapeOps
import Verif.Lemmas.Examples
import Verif.Lemmas.Fail
import Verif.Lemmas.FailIO
import Verif.Lemmas.Filter
import Verif.Lemmas.Float
import Verif.Lemmas.FloatIeee
import Verif.Lemmas.FloatOver
import Verif.Lemmas.FloatRat
import Verif.Lemmas.FloatVal
import Verif.Lemmas.Flt
import Verif.Lemmas.FltErr
import Verif.Lemmas.Grep
import Verif.Lemmas.GrepStep
import Verif.Lemmas.HeldViews
import Verif.Lemmas.Ieee
import Verif.Lemmas.Instances
import Verif.Lemmas.IntCode
import Verif.Lemmas.IntText
import Verif.Lemmas.Io
import Verif.Lemmas.Mem
import Verif.Lemmas.Observe
import Verif.Lemmas.Pack
import Verif.Lemmas.Print
import Verif.Lemmas.PrnfConv
import Verif.Lemmas.PrnfDest
import Verif.Lemmas.PrnfDigits
import Verif.Lemmas.PrnfEdge
import Verif.Lemmas.PrnfFloat
import Verif.Lemmas.PrnfForm
import Verif.Lemmas.PrnfLoop
import Verif.Lemmas.PrnfOut
import Verif.Lemmas.PrnfParse
import Verif.Lemmas.PrnfPrint
import Verif.Lemmas.Sealed
import Verif.Lemmas.Stdlib
import Verif.Lemmas.Strnum
import Verif.Lemmas.Strview
import Verif.Lemmas.Tasks
import Verif.Lemmas.Uri
import Verif.Lemmas.Using
import Verif.Lemmas.Write
import Verif.Model.Aes
import Verif.Model.Crypt
import Verif.Model.Examples
import Verif.Model.Io
import Verif.Model.Macros
import Verif.Model.Pack
import Verif.Model.Print
import Verif.Model.Prnf
import Verif.Model.Stdlib
import Verif.Model.Strbuf
import Verif.Model.StrbufPrnf
import Verif.Model.Strnum
import Verif.Model.Strview
import Verif.Model.Testnum
import Verif.Model.Uri
import Verif.Model.Using
import Verif.Props.Aes
import Verif.Props.Agree
import Verif.Props.AgreeBuf
import Verif.Props.Alias
import Verif.Props.BufCat
import Verif.Props.BufHist
import Verif.Props.BufInsert
import Verif.Props.BufLife
import Verif.Props.BufLog
import Verif.Props.BufOp
import Verif.Props.BufSize
import Verif.Props.BufStay
import Verif.Props.BufText
import Verif.Props.Cleanup
import Verif.Props.Combine
import Verif.Props.Compare
import Verif.Props.Count
import Verif.Props.Crypt
import Verif.Props.Escape
import Verif.Props.Examples
import Verif.Props.Fail
import Verif.Props.FailIO
import Verif.Props.Filter
import Verif.Props.Find
import Verif.Props.Float
import Verif.Props.FloatIeee
import Verif.Props.FloatReadBack
import Verif.Props.FloatValue
import Verif.Props.Frames
import Verif.Props.FramesAny
import Verif.Props.Grep
import Verif.Props.Group
import Verif.Props.HeldViews
import Verif.Props.Hex
import Verif.Props.Independent
import Verif.Props.Int
import Verif.Props.Io
import Verif.Props.Line
import Verif.Props.LineExact
import Verif.Props.Macros
import Verif.Props.Misc
import Verif.Props.More
import Verif.Props.Observe
import Verif.Props.Pack
import Verif.Props.Path
import Verif.Props.Print
import Verif.Props.Prnf
import Verif.Props.PrnfEdge
import Verif.Props.PrnfFloat
import Verif.Props.PrnfForm
import Verif.Props.Replace
import Verif.Props.Reverse
import Verif.Props.Sealed
import Verif.Props.Settings
import Verif.Props.Split
import Verif.Props.SplitQuotes
import Verif.Props.Stdlib
import Verif.Props.SubTrim
import Verif.Props.Tasks
import Verif.Props.Testnum
import Verif.Props.Threads
import Verif.Props.Uri
import Verif.Props.Using
import Verif.Props.ViewHist
import Verif.Spec.Aes
import Verif.Spec.Alias
import Verif.Spec.Buf
import Verif.Spec.BufCall
import Verif.Spec.BufHist
import Verif.Spec.BufLog
import Verif.Spec.BufOp
import Verif.Spec.Cleanup
import Verif.Spec.Combine
import Verif.Spec.Count
import Verif.Spec.Crypt
import Verif.Spec.Escape
import Verif.Spec.Fail
import Verif.Spec.Filter
import Verif.Spec.Float
import Verif.Spec.FloatIeee
import Verif.Spec.FloatValue
import Verif.Spec.Frames
import Verif.Spec.Grep
import Verif.Spec.Group
import Verif.Spec.HeldViews
import Verif.Spec.Hex
import Verif.Spec.Instances
import Verif.Spec.Io
import Verif.Spec.LineExact
import Verif.Spec.Lines
import Verif.Spec.Macros
import Verif.Spec.Num
import Verif.Spec.Observe
import Verif.Spec.Pack
import Verif.Spec.Path
import Verif.Spec.Prnf
import Verif.Spec.PrnfEdge
import Verif.Spec.PrnfForm
import Verif.Spec.Replace
import Verif.Spec.Reverse
import Verif.Spec.Sealed
import Verif.Spec.Settings
import Verif.Spec.Stdlib
import Verif.Spec.StripOwn
import Verif.Spec.Tasks
import Verif.Spec.Testnum
import Verif.Spec.Text
import Verif.Spec.Threads
import Verif.Spec.Uri
import Verif.Spec.Using
import Verif.Spec.View
import Verif.Spec.ViewHist
