import Verif.Rbt.Props
import Verif.Mm.Props
import Verif.LHeap.Props
import Verif.Sched.Props
import Verif.OvisHeap.Props
import Verif.Idx.Props
import Verif.Htbl.Props
import Verif.JsonDict.Props
import Verif.Ref.Props
import Verif.Credit.Props
import Verif.RailConn.Props
import Verif.StreamFrag.Props
import Verif.Evw.Props
import Verif.StreamSub.Props
import Verif.MsgBuf.Props
import Verif.ReqAttr.Props
import Verif.NameTab.Props
import Verif.CfgArgs.Props
import Verif.Digest.Props
import Verif.Timestamp.Props
import Verif.Access.Props
import Verif.Cred.Props
import Verif.JoinBuf.Props
import Verif.MemSize.Props
import Verif.LList.Props
import Verif.SetInfo.Props
import Verif.Txn.Props
import Verif.RingUpd.Props
import Verif.Av.Props
import Verif.ThrStat.Props
import Verif.IoPool.Props
import Verif.CfgObj.Props
import Verif.Task.Props
import Verif.Lifecycle.Props
import Verif.Schema.Props
import Verif.Layout.Props
import Verif.SetDir.Props
import Verif.Rrbt.Props
import Verif.Rrbt.Tree
import Verif.ZapRdma.Props
import Verif.ZapFrame.Props
import Verif.ZapIo.Props
import Verif.ZapEp.Props
import Verif.XprtAuth.Props
import Verif.Pipeline.Props
import Verif.LockOrder.Props
import Verif.Failover.Props
import Verif.Decomp.Props
import Verif.RowJson.Props
import Verif.JsonText.Props
import Verif.Dir.Props
import Verif.Lookup.Props
import Verif.Push.Props
import Verif.Csv.Props
import Verif.CsvFile.Props
import Verif.CfgFile.Props
import Verif.ReqTab.Props
import Verif.Mval.Props
import Verif.UpdSel.Props
import Verif.Log.Props
import Verif.SetDel.Props
import Verif.JobLabel.Props
import Verif.SetGroup.Props
import Verif.SetOwner.Props
import Verif.Strgp.Props
import Verif.Dump.Props
import Verif.Dump.AnyFile
import Verif.PeerCfg.Props
import Verif.Secret.Props
import Verif.ProcSamp.Cases
import Verif.Dstr.Props
import Verif.LabelSet.Props
import Verif.StreamStat.Props
import Verif.BlobFile.Props
import Verif.DStream.Props
import Verif.FlatFile.Props
import Verif.PlugAttr.Props
import Verif.PlugAttr.File
import Verif.PlugAttr.Canon
import Verif.PlugAttr.Num
import Verif.OvisMap.Props
