import Verif.HashMap.Props
import Verif.Util.Props
import Verif.Unicode.Props
import Verif.Source.Props
import Verif.Source.ReadProps
import Verif.Lex.Props
import Verif.Lex.LitProps
import Verif.Lex.NumProps
import Verif.Report.Props
import Verif.Types.Arith
import Verif.Types.Compat
import Verif.Types.Declspec
import Verif.Layout.Props
import Verif.Cg.Props
import Verif.Stm.Props
import Verif.Stm.FileProps
import Verif.Pp.CondProps
import Verif.Pp.Incl
import Verif.Pp.Hide
import Verif.Pp.JoinProps
import Verif.Pp.TermProps
import Verif.Fold.Props
import Verif.Parse.Props
import Verif.Parse.Accept
import Verif.Scope.Props
import Verif.Globals.ScanProps
import Verif.Globals.LiveProps
import Verif.Frame.LayProps
import Verif.Frame.CallProps
import Verif.Low.Props
import Verif.Fn.ImmProps
import Verif.Cg.AllocaProps
import Verif.Driver.MainProps
import Verif.Driver.DepsProps
import Verif.Driver.OutProps
import Verif.Loc.Props
import Verif.Lex.PrintSrc
import Verif.Ld.Props
import Verif.Init.GlobalProps
import Verif.Init.LocalProps
import Verif.Whole.Props
import Verif.Decl.Props
import Verif.Ip.Props
import Verif.Ip.FlexProps
import Verif.Stx.Props
import Verif.Fold.Const
import Verif.Ip.Member
import Verif.Src.Props
import Verif.Src.TextProps
import Verif.Ip.Excess
import Verif.Src.Calls
import Verif.Src.Untouched
import Verif.Src.UntouchedC
import Verif.Src.ProgProps
import Verif.Src.ProgEx
import Verif.Src.UnitProps
import Verif.Src.UnitEx
import Verif.Src.CharsProps
import Verif.Src.CharsEx
import Verif.Src.MacSpec
import Verif.Src.Names
import Verif.Src.MacRun
import Verif.Src.MacCall
import Verif.Src.MacLine
import Verif.Src.MacProps
import Verif.Src.IfProps
import Verif.Generic.Props
import Verif.Src.EnumProps
import Verif.Src.PreSpec
import Verif.Src.PreScan
import Verif.Src.PreGrp
import Verif.Src.PreLine
import Verif.Src.PreProof
import Verif.Src.PreIncl
import Verif.Src.PreMain
import Verif.Src.PreProps
import Verif.Src.PreEx
import Verif.Fp.Machine
import Verif.Fp.Ieee
import Verif.Fp.Model
import Verif.Fp.Spec
import Verif.Fp.Sim
import Verif.Fp.Proof
import Verif.Fp.Proof2
import Verif.Fp.Proof3
import Verif.Fp.Props
import Verif.Vla.Model
import Verif.Vla.Spec
import Verif.Vla.Proof
import Verif.Vla.Decl
import Verif.Vla.Props
import Verif.FoldD.Model
import Verif.FoldD.Proof
import Verif.FoldD.Sane
import Verif.FoldD.Props
import Verif.Atomic.Props
import Verif.Atomic.Wrong
import Verif.Atomic.Ops
import Verif.Atomic.OpsProof
import Verif.Atomic.OpsCas
import Verif.Atomic.OpsProps
import Verif.Atomic.Solo
import Verif.Addr.Model
import Verif.Addr.Spec
import Verif.Addr.Proof
import Verif.Addr.Props
import Verif.Pp.GlueSpec
import Verif.Pp.GlueProof
import Verif.Pp.GlueRun
import Verif.Pp.GlueProps
import Verif.Pp.OptProps
import Verif.Pp.DynSpec
import Verif.Pp.DynProof
import Verif.Pp.DynProps
import Verif.Asm.Props
import Verif.Ety.Props
import Verif.Sdecl.Props
import Verif.Call.Props
import Verif.Abi.Model
import Verif.Abi.Spec
import Verif.Abi.Props
import Verif.Stex.Model
import Verif.Stex.Spec
import Verif.Stex.Proof
import Verif.Stex.Main
import Verif.Stex.Props
