import Verif.Perm.Props
import Verif.PermCor.Props
import Verif.Util.Props
import Verif.Table.Props
import Verif.Sort.PlainProps
import Verif.Table.JoinProps
import Verif.Table.AvgProps
import Verif.AggTree.ShuffleProps
import Verif.GMW.Props
import Verif.AggTree.SecureProps
import Verif.Sort.RadixProps
import Verif.Join.OmProps
import Verif.Join.OmGmwProps
import Verif.Join.OmCirProps
import Verif.Join.OmRemoveProps
import Verif.Join.EndToEndProps
import Verif.Prf.Mod3Props
import Verif.Prf.SampleProps
import Verif.Prf.SampleSimdProps
import Verif.Checks.SampleSimd
import Verif.Prf.ProtoProps
import Verif.Prf.F2Props
import Verif.Prf.F3Props
import Verif.Prf.AltModProps
import Verif.Cor.RequestProps
import Verif.Prf.KeyProps
import Verif.Cor.StartProps
import Verif.Cor.BaseProps
import Verif.Cor.LoopProps
import Verif.Cor.F4Props
import Verif.Cor.F4VoleProps
import Verif.Cor.F4VoleDebug
import Verif.Cor.CompressProps
import Verif.Cor.OtProps
import Verif.Cor.SimdProps
import Verif.PermCor.PrfGenProps
import Verif.Prf.LowMCGates
import Verif.PermCor.LowGmw
import Verif.PermCor.LowGmwProps
import Verif.TableOps.WhereParserProps
import Verif.TableOps.WhereParserOnce
import Verif.GMW.InlineProps
import Verif.GMW.OleProps
import Verif.GMW.WiresProps
import Verif.GMW.Api
import Verif.GMW.ApiProps
import Verif.Prf.GenProps
import Verif.TableOps.WhereProps
import Verif.TableOps.WhereRemoveProps
import Verif.TableOps.ExtractProps
import Verif.TableOps.GroupByProps
import Verif.TableOps.GroupByGmwProps
import Verif.Prf.LowMCCircuitProps
import Verif.Prf.LowMCCipherProps
import Verif.Checks.Compress
import Verif.Checks.Perm
import Verif.Checks.Gmw
import Verif.Checks.AggTree
import Verif.Checks.Sort
import Verif.Checks.LowMC
import Verif.Checks.Where
import Verif.Checks.Prf
import Verif.Checks.PrfAlt
import Verif.Checks.PrfGen
import Verif.Checks.Cor
import Verif.Checks.Wires
import Verif.Checks.Api
import Verif.Checks.LowGmw
import Verif.Checks.F4Vole
import Verif.Checks.GroupBy
import Verif.Checks.JoinGmw
import Verif.Checks.EndToEnd
import Verif.Table.RevealNetProps
import Verif.Checks.RevealNet
import Verif.Sort.PreproProps
import Verif.Sort.DebugProps
import Verif.Checks.DebugSort
import Verif.Checks.Prepro
import Verif.Cor.ReqCheckProps
import Verif.Cor.LiveProps
import Verif.Checks.ReqCheck
import Verif.GMW.Call
import Verif.GMW.CallProps
import Verif.Sort.RadixGmw
import Verif.Sort.RadixGmwLemmas
import Verif.Sort.RadixCir
import Verif.Sort.RadixGmwProps
import Verif.TableOps.WhereGmw
import Verif.TableOps.WhereGmwProps
import Verif.Checks.Call
import Verif.GMW.Map
import Verif.GMW.MapProps
import Verif.GMW.AnyCir
import Verif.AggTree.Share
import Verif.AggTree.ShareLemmas
import Verif.AggTree.ShareEval
import Verif.AggTree.ShareLoop
import Verif.AggTree.ShareTree
import Verif.AggTree.ShareProps
import Verif.Checks.Share
import Verif.TableOps.GroupEnd
import Verif.TableOps.GroupEndSpec
import Verif.TableOps.GroupEndLemmas
import Verif.TableOps.GroupEndProps
import Verif.TableOps.Chain
import Verif.TableOps.ChainSpec
import Verif.TableOps.ChainLemmas
import Verif.TableOps.ChainOps
import Verif.TableOps.ChainProps
import Verif.Checks.GroupEnd
import Verif.Checks.Chain
import Verif.Hiding.Gmw
import Verif.Hiding.GmwLemmas
import Verif.Hiding.GmwProps
import Verif.Hiding.ShareProps
import Verif.Hiding.Perm
import Verif.Hiding.PermProps
import Verif.Hiding.MsgProps
import Verif.Hiding.Ot
import Verif.Hiding.OtLemmas
import Verif.Hiding.OtProps
import Verif.Hiding.Prf
import Verif.Hiding.PrfLemmas
import Verif.Hiding.PrfProps
import Verif.Checks.Hiding
import Verif.Checks.HidingOt
import Verif.Checks.HidingPrf
import Verif.Checks.OmCir
import Verif.Checks.Basics
