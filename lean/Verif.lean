import Verif.Base
import Verif.Intern.Props
import Verif.Ast.Props
import Verif.IfMask.Props
import Verif.EvalConst.Props
import Verif.Lit.Props
import Verif.Num.Props
import Verif.Str.Props
import Verif.ShStr.Props
import Verif.Parse.Props
import Verif.Arith.Props
import Verif.X86.Props
import Verif.Code.Total
import Verif.Layout.Props
import Verif.Layout.InitProps
import Verif.Gen.PtrProps
import Verif.Env.Props
import Verif.Elf.Props
import Verif.Enum.Props
import Verif.Libc.Props
import Verif.Stdio.Props
import Verif.Text.LinesProps
import Verif.Stmt.Props
import Verif.Frame.Props
import Verif.Names.Props
import Verif.ShHeap.Props
import Verif.ShIO.Props
import Verif.ShPrintf.Props
import Verif.Cg.Examples
import Verif.Rt.Props
import Verif.Lex.Lines
import Verif.Macro.Term
import Verif.Macro.Mono
import Verif.Macro.Props
import Verif.Inc.Props
import Verif.Hoist.Examples
import Verif.Cli.Props
import Verif.Decl.Props
import Verif.PStmt.Props
import Verif.Sys.Props
import Verif.Sys.Props2
import Verif.Sys.Examples
import Verif.ShTop.Model
import Verif.ShTop.Spec
import Verif.ShTop.Runtime
import Verif.ShTop.Library
import Verif.ShTop.Proofs
import Verif.ShTop.Decls
import Verif.ShTop.Whole
import Verif.ShTop.Readonly
import Verif.ShTop.Props
import Verif.ShTop.Examples
import Verif.ShGlob.Model
import Verif.ShGlob.Spec
import Verif.ShGlob.Proofs
import Verif.ShGlob.Argv
import Verif.ShGlob.Exec
import Verif.ShGlob.Run
import Verif.ShGlob.Texts
import Verif.ShGlob.Struct
import Verif.ShGlob.Props
import Verif.ShGlob.Examples
import Verif.RtPrintf.Layout
import Verif.RtPrintf.Spec
import Verif.RtPrintf.Model
import Verif.RtPrintf.Supp
import Verif.RtPrintf.Proofs
import Verif.RtPrintf.Run
import Verif.RtPrintf.Main
import Verif.RtPrintf.Props
import Verif.MachO.Model
import Verif.MachO.Spec
import Verif.MachO.Props
import Verif.Sys.Examples2
import Verif.Sys.IniModel
import Verif.Sys.IniSpec
import Verif.Sys.IniProofs
import Verif.Sys.Props4
import Verif.Sys.Examples3
import Verif.Sys.Examples4
import Verif.Img.Model
import Verif.Img.Spec
import Verif.Img.Proofs
import Verif.Img.Proofs2
import Verif.Img.Proofs3
import Verif.Img.Enc
import Verif.Img.Enc2
import Verif.Img.Props
import Verif.Img.Examples
import Verif.Reach.Props
import Verif.Reach.Examples
import Verif.ShProg.Props
import Verif.Front.Props
import Verif.Dump.Props
import Verif.Cont.Props
import Verif.FrontD.Props
import Verif.Crt.Props
import Verif.ArrLen.Props
import Verif.ShInc.Props
import Verif.Goto.Props
import Verif.Storage.Props
import Verif.StInit.Examples
