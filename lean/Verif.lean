import Verif.Map.Props
import Verif.Sort.Props
import Verif.Heap.Props
import Verif.Arith.Props
import Verif.Compare.Props
import Verif.DynArr.Props
import Verif.Str.Props
import Verif.Lexer.Props
import Verif.Layout.Props
import Verif.Control.Props
import Verif.Peephole.Props
import Verif.RefCnt.Props
import Verif.Frame.Props
import Verif.Scope.Props
import Verif.Release.Props
import Verif.Types.Props
import Verif.Paths.Props
import Verif.Link.Props
import Verif.Imports.Props
import Verif.Lib.Props
import Verif.Enum.Props
import Verif.Api.Props
import Verif.Printf.Props
import Verif.MapHeap.Props
import Verif.ForIn.Props
import Verif.ListAsg.Props
import Verif.Iface.Props
import Verif.Scanf.Props
import Verif.Expr.Props
import Verif.Call.Props
import Verif.Desig.Props
import Verif.TypeDecl.Props
import Verif.Conv.Props
import Verif.ResultCopy.Props
import Verif.Static.Props
import Verif.Trace.Props
import Verif.Syntax.Props
import Verif.Files.Props
import Verif.Convert.Props
import Verif.Warn.Props
import Verif.Asm.Props
import Verif.GetFunc.Props
import Verif.Spell.Props
import Verif.Hooks.Props
import Verif.Cmd.Props
import Verif.ArrRef.Props
import Verif.Builtin.Props
import Verif.Shutdown.Props
import Verif.Geom.Props
import Verif.Self.Props
import Verif.HostArgs.Props
import Verif.TypeQuery.Props
import Verif.HostStr.Props
import Verif.HostArr.Props
