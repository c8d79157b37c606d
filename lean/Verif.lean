import Verif.Common
import Verif.Map.Props
import Verif.Set.Props
import Verif.Sort.Props
import Verif.Bits.Props
import Verif.Base64.Props
import Verif.Vector.Props
import Verif.Ring.Props
import Verif.DSet.Props
import Verif.Flat.Props
import Verif.Chunk.Props
import Verif.Capped.Props
import Verif.Span.Props
import Verif.Flags.Props
import Verif.BitSet.Props
import Verif.FList.Props
import Verif.Sha1.Props
import Verif.Arr.Props
import Verif.Hash.Props
import Verif.Opt.Props
import Verif.Variant.Props
import Verif.Own.Props
import Verif.Mpmc.Props
import Verif.Spin.Props
import Verif.LPool.Props
import Verif.Radix.Props
import Verif.LPool.Iter
import Verif.APool.Props
import Verif.Alloc.LinearProps
import Verif.Alloc.StackProps
import Verif.Alloc.AtomicLinearProps
import Verif.Alloc.VLinearProps
import Verif.Alloc.VStackProps
import Verif.TPool.Props
import Verif.Tlsf.MapProps
import Verif.Tlsf.HeapProps
import Verif.Tlsf.CheckProps
import Verif.StrView.SplitProps
import Verif.Str.Props
import Verif.Num.Props
import Verif.Fmt.StrProps
import Verif.Fmt.IntProps
import Verif.Format.Props
import Verif.AVec.Props
import Verif.AArr.Props
import Verif.Result.Props
import Verif.CBox.Props
import Verif.SysAlloc.Props
import Verif.AHelp.Props
import Verif.SStream.Props
import Verif.FArr.Props
import Verif.VBox.Props
import Verif.IRange.Props
import Verif.Algo.Props
import Verif.Call.Props
import Verif.ErrMsg.Props
import Verif.Watch.Props
import Verif.Xxh3.Props
import Verif.CArr.Props
import Verif.Synced.Props
import Verif.Synced.Backings
import Verif.WChar.Props
import Verif.Rsqrt.Props
import Verif.Cpu.Props
import Verif.Assert.Props
import Verif.Xxh64.Props
import Verif.Flt.Props
import Verif.Atom.Props
import Verif.Sort.CostProps
import Verif.Vector.GrowthProps
import Verif.Str.GrowthProps
import Verif.SStream.Growth
import Verif.Map.GrowthProps
import Verif.Set.GrowthProps
import Verif.Print.Props
import Verif.Defer.Props
import Verif.Tuple.Props
import Verif.Disp.Props
import Verif.Flags.TextProps
import Verif.Tlsf.ScanProps
import Verif.Cursor.Props
import Verif.Reint.Props
import Verif.Coll.Props
import Verif.Mixed.Props
import Verif.Macro.Props
import Verif.NMem.Props
import Verif.CConv.Props
import Verif.Xxh128.Props
import Verif.Text.Props
import Verif.Room.Props
import Verif.Str.FormsProps
import Verif.Watch.StopProps
import Verif.Mpmc.SizeProps
import Verif.SeqEq.Props
import Verif.Own.KeyProps
import Verif.Set.RefProps
import Verif.Map.StatProps
import Verif.Life.VirtualProps
import Verif.Life.TlsfProps
import Verif.Walk.MapProps
import Verif.Walk.SetProps
import Verif.Vector.RefProps
import Verif.Vector.LoopProps
import Verif.Chunk.MemProps
import Verif.FList.RefProps
import Verif.Ring.RefProps
import Verif.Sort.AnyProps
import Verif.Sort.SelfProps
import Verif.Sort.SelfTypes
import Verif.AVec.RefProps
import Verif.Str.CompareProps
import Verif.Str.ViewProps
import Verif.Str.LoopProps
import Verif.AVec.LoopProps
import Verif.Capped.LoopProps
