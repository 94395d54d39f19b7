import Verif.Model.Bytes
import Verif.Model.Crc
import Verif.Model.Layout
import Verif.Model.Store
import Verif.Model.Commands
import Verif.Lemmas.Bytes
import Verif.Lemmas.Crc
import Verif.Lemmas.Layout
import Verif.Lemmas.SeqSearch
import Verif.Props.Search
import Verif.Props.Crc
import Verif.Props.Codec
import Verif.Lemmas.Log
import Verif.Lemmas.Branch
import Verif.Lemmas.Core
import Verif.Spec.UserMap
import Verif.Lemmas.UserInv
import Verif.Lemmas.UserOps
import Verif.Lemmas.UserCmd
import Verif.Model.Loader
import Verif.Lemmas.Loader
import Verif.Lemmas.UserLoad
import Verif.Model.Scan
import Verif.Model.Engine
import Verif.Spec.Bounds
import Verif.Spec.Example
import Verif.Spec.UserTrace
import Verif.Lemmas.Growth
import Verif.Lemmas.DataExt
import Verif.Lemmas.Fresh
import Verif.Lemmas.UserRun
import Verif.Lemmas.UserSpec
import Verif.Props.UserMap
import Verif.Props.Check
import Verif.Spec.SeqMap
import Verif.Lemmas.SeqInv
import Verif.Lemmas.SeqOps
import Verif.Spec.SeqTrace
import Verif.Lemmas.SeqCmd
import Verif.Lemmas.SeqLoad
import Verif.Lemmas.SeqRun
import Verif.Lemmas.SeqSpec
import Verif.Spec.SeqExample
import Verif.Props.Seq
import Verif.Props.SeqCheck
import Verif.Lemmas.LogStep
import Verif.Lemmas.ScanWalk
import Verif.Lemmas.ScanUp
import Verif.Lemmas.ScanDown
import Verif.Spec.Session
import Verif.Lemmas.ScanSession
import Verif.Lemmas.ScanFixed
import Verif.Spec.History
import Verif.Lemmas.UserCursor
import Verif.Lemmas.History
import Verif.Lemmas.ScanSpec
import Verif.Props.Scan
import Verif.Props.SeqScan
import Verif.Model.Node
import Verif.Lemmas.Tags
import Verif.Lemmas.TagsUsed
import Verif.Lemmas.NodeBase
import Verif.Lemmas.NodeEff
import Verif.Lemmas.NodeBoot
import Verif.Lemmas.Desc
import Verif.Lemmas.NodeInv
import Verif.Lemmas.NodeStep
import Verif.Spec.NodeView
import Verif.Lemmas.NodeSeg
import Verif.Lemmas.NodeLife
import Verif.Spec.NodeExample
import Verif.Spec.NodeFacts
import Verif.Lemmas.NodeReq
import Verif.Lemmas.NodeClient
import Verif.Lemmas.Refusal
import Verif.Spec.Rights
import Verif.Props.Namespaces
import Verif.Props.Access
import Verif.Lemmas.NodeAuth
import Verif.Props.Auth
import Verif.Props.Dispatch
import Verif.Lemmas.Isolate
import Verif.Props.Isolation
import Verif.Lemmas.Settings
import Verif.Props.Settings
import Verif.Props.Descriptor
import Verif.Spec.Waiting
import Verif.Lemmas.Waiting
import Verif.Props.Wait
import Verif.Model.Resp
import Verif.Spec.Resp
import Verif.Lemmas.RespBase
import Verif.Lemmas.Resp
import Verif.Lemmas.RespAny
import Verif.Props.Resp
import Verif.Props.RespAny
import Verif.Model.Reply
import Verif.Spec.Reply
import Verif.Lemmas.Reply
import Verif.Props.Reply
import Verif.Model.Crash
import Verif.Spec.Crash
import Verif.Lemmas.Crash
import Verif.Props.Crash
import Verif.Props.Protect
import Verif.Lemmas.SeqCrash
import Verif.Props.SeqCrash
import Verif.Spec.Fault
import Verif.Lemmas.Fault
import Verif.Props.Fault
import Verif.Spec.Dirty
import Verif.Lemmas.Dirty
import Verif.Props.Dirty
import Verif.Model.Hook
import Verif.Spec.Hook
import Verif.Lemmas.Hook
import Verif.Props.Hook
import Verif.Model.Api
import Verif.Spec.Api
import Verif.Props.Api
import Verif.Model.Rebuild
import Verif.Spec.Rebuild
import Verif.Lemmas.Rebuild
import Verif.Lemmas.RebuildPass
import Verif.Props.Rebuild
import Verif.Props.RebuildTime
import Verif.Props.SeqRebuild
import Verif.Spec.DataLog
import Verif.Lemmas.WithData
import Verif.Lemmas.DataRaw
import Verif.Lemmas.SeqData
import Verif.Props.DataLog
import Verif.Model.Sha1
import Verif.Spec.Sha1
import Verif.Lemmas.Sha1
import Verif.Lemmas.Sha1Stream
import Verif.Props.Sha1
import Verif.Model.Integrity
import Verif.Spec.Integrity
import Verif.Lemmas.Integrity
import Verif.Props.Integrity
import Verif.Lemmas.FilesKept
import Verif.Lemmas.NodeFiles
import Verif.Props.Files
import Verif.Lemmas.Overrun
import Verif.Spec.SeqNodeExample
import Verif.Props.FarIds
import Verif.Props.SeqJumps
import Verif.Props.BigFile
import Verif.Lemmas.Twin
import Verif.Props.Restart
import Verif.Model.Paths
import Verif.Lemmas.Paths
import Verif.Lemmas.Locks
import Verif.Lemmas.PathTree
import Verif.Props.Paths
import Verif.Model.Wire
import Verif.Spec.Wire
import Verif.Lemmas.Wire
import Verif.Lemmas.WireFine
import Verif.Model.Server
import Verif.Spec.Server
import Verif.Lemmas.RespRet
import Verif.Lemmas.Server
import Verif.Props.Server
import Verif.Spec.Answers
import Verif.Lemmas.Answers
import Verif.Props.Answers
import Verif.Props.Dismissed
import Verif.Model.Sync
import Verif.Spec.Sync
import Verif.Lemmas.Sync
import Verif.Lemmas.SyncUser
import Verif.Lemmas.SyncLoad
import Verif.Lemmas.SyncRun
import Verif.Lemmas.SyncTime
import Verif.Props.Sync
import Verif.Spec.EndToEnd
import Verif.Lemmas.EndToEnd
import Verif.Props.EndToEnd
import Verif.Model.Editor
import Verif.Spec.Editor
import Verif.Lemmas.Editor
import Verif.Props.Editor
import Verif.Model.IndexDump
import Verif.Spec.IndexDump
import Verif.Lemmas.IndexDump
import Verif.Props.IndexDump
import Verif.Model.Table
import Verif.Spec.Table
import Verif.Lemmas.Table
import Verif.Lemmas.TableOps
import Verif.Props.Table
import Verif.Model.Loss
import Verif.Spec.Loss
import Verif.Lemmas.LossGhost
import Verif.Lemmas.Loss
import Verif.Props.Loss
import Verif.Model.Fds
import Verif.Spec.Fds
import Verif.Lemmas.Fds
import Verif.Lemmas.FdsHands
import Verif.Lemmas.FdsServer
import Verif.Lemmas.FdsSim
import Verif.Props.Fds
import Verif.Model.Heap
import Verif.Spec.Heap
import Verif.Lemmas.Heap
import Verif.Lemmas.HeapCmd
import Verif.Lemmas.HeapScan
import Verif.Lemmas.HeapSpace
import Verif.Lemmas.HeapServer
import Verif.Lemmas.HeapSim
import Verif.Props.Heap
import Verif.Model.ApiHeap
import Verif.Spec.ApiHeap
import Verif.Lemmas.ApiHeap
import Verif.Props.ApiHeap
import Verif.Model.HookHeap
import Verif.Spec.HookHeap
import Verif.Props.HookHeap
import Verif.Model.Daemon
import Verif.Props.Daemon
import Verif.Spec.DataRaw
import Verif.Props.DataRaw
import Verif.Model.Text
import Verif.Lemmas.Text
import Verif.Props.Text
import Verif.Model.Backup
import Verif.Spec.Backup
import Verif.Lemmas.Backup
import Verif.Props.Backup
import Verif.Model.Missing
import Verif.Spec.Missing
import Verif.Lemmas.Missing
import Verif.Lemmas.ReplyEq
import Verif.Props.Missing
import Verif.Model.Options
import Verif.Spec.Options
import Verif.Lemmas.Options
import Verif.Props.Options
import Verif.Model.EditorWords
import Verif.Spec.EditorWords
import Verif.Props.EditorWords
import Verif.Lemmas.Infix
import Verif.Model.Stop
import Verif.Lemmas.Stop
import Verif.Props.Stop
import Verif.Model.NsDump
import Verif.Spec.NsDump
import Verif.Lemmas.NsDump
import Verif.Props.NsDump
import Verif.Lemmas.SyncMid
import Verif.Props.SyncMid
import Verif.Model.Clean
import Verif.Props.Clean
import Verif.Spec.SyncSeq
import Verif.Lemmas.SyncSeq
import Verif.Props.SyncSeq
import Verif.Lemmas.StopSeq
import Verif.Props.StopSeq
import Verif.Model.Compact
import Verif.Spec.Compact
import Verif.Lemmas.Compact
import Verif.Props.Compact
import Verif.Props.Owner
import Verif.Props.Refused
import Verif.Props.CompactSeq
import Verif.Props.LossSeq
import Verif.Props.FaultSeq
import Verif.Props.LossEmpty
import Verif.Lemmas.SecureTime
import Verif.Lemmas.SecureSeq
import Verif.Props.SyncSecure
import Verif.Props.SecureSeq
import Verif.Lemmas.SyncRestart
import Verif.Lemmas.SeqRestart
import Verif.Props.SyncRestart
import Verif.Props.SeqRestart
import Verif.Spec.LossSeq
import Verif.Lemmas.LossSeq
import Verif.Props.LossSeqRun
import Verif.Props.HistorySafe
import Verif.Props.EditorBad
import Verif.Spec.AdminSet
import Verif.Props.AdminSet
import Verif.Props.CrashDel
import Verif.Props.BackupSeq
import Verif.Spec.Secret
import Verif.Lemmas.Secret
import Verif.Props.Secret
import Verif.Props.SecretSet
import Verif.Spec.Admin
import Verif.Props.Admin
import Verif.Props.AdminWire
