import Verif.Basic.Res
import Verif.Basic.Bytes
import Verif.Proofs.Bytes
import Verif.Basic.CStr
import Verif.Model.Index
import Verif.Spec.Index
import Verif.Proofs.Hex
import Verif.Proofs.IndexScan
import Verif.Proofs.IndexMerge
import Verif.Proofs.IndexLookup
import Verif.Proofs.IndexExact
import Verif.Proofs.IndexState
import Verif.Props.Index
import Verif.Props.ValidId
import Verif.Model.Header
import Verif.Proofs.Header
import Verif.Props.Header
import Verif.Props.HeaderParse
import Verif.Props.GetHeaders
import Verif.Props.Silo
import Verif.Props.MkParent
import Verif.Props.Mksilo
import Verif.Props.Vlu
import Verif.Props.Proto
import Verif.Props.Vsb
import Verif.Props.Config
import Verif.Props.TestBytes
import Verif.Props.Vnum
import Verif.Props.Gzip
import Verif.Props.Rsilo
import Verif.Props.Hk
import Verif.Props.Commit
import Verif.Model.Segjob
import Verif.Proofs.HeaderLen
import Verif.Props.Ident
import Verif.Props.Getjob
import Verif.Proofs.Stored
import Verif.Proofs.Wsilo
import Verif.Proofs.SegHdr
import Verif.Spec.Example
import Verif.Props.Wsilo
import Verif.Spec.Zlib
import Verif.Proofs.Segjob
import Verif.Proofs.ExampleZ
import Verif.Props.Segjob
import Verif.Spec.Env
import Verif.Proofs.Clean
import Verif.Proofs.Archive
import Verif.Proofs.Store
import Verif.Props.Store
import Verif.Props.StoreExample
import Verif.Model.Audit
import Verif.Props.Audit
import Verif.Props.AuditExample
import Verif.Props.Dense
import Verif.Props.Append
import Verif.Props.DenseExample
import Verif.Model.Reindex
import Verif.Proofs.Reindex
import Verif.Props.Reindex
import Verif.Proofs.ReindexArch
import Verif.Props.ReindexArch
import Verif.Props.ReindexExample
import Verif.Props.AuditObjects
import Verif.Props.AuditArch
import Verif.Model.Filter
import Verif.Proofs.Filter
import Verif.Props.Filter
import Verif.Props.FilterExample
import Verif.Model.Stow
import Verif.Proofs.Stow
import Verif.Props.Stow
import Verif.Props.StowLive
import Verif.Model.Aardwarc
import Verif.Props.Aardwarc
import Verif.Model.MainStore
import Verif.Props.MainStore
import Verif.Props.MainStoreExample
import Verif.Props.MainGet
import Verif.Props.Refs
import Verif.Model.StowData
import Verif.Proofs.StowData
import Verif.Proofs.StowDataInv
import Verif.Proofs.StowDataStep
import Verif.Proofs.StowDataRun
import Verif.Props.StowData
import Verif.Props.StowDataExample
import Verif.Proofs.StowDataLive
import Verif.Proofs.StowDataWork
import Verif.Props.StowDataLive
import Verif.Model.Mtree
import Verif.Spec.Mtree
import Verif.Proofs.Mtree
import Verif.Props.Mtree
import Verif.Props.MtreeExample
import Verif.Proofs.Sound
import Verif.Props.Sound
import Verif.Model.MainCgi
import Verif.Spec.Cgi
import Verif.Props.MainCgi
import Verif.Props.MainCgiExample
import Verif.Model.MainByid
import Verif.Proofs.Listing
import Verif.Props.MainByid
import Verif.Props.MainByidExample
import Verif.Model.Rebuild
import Verif.Spec.Refill
import Verif.Proofs.ExampleR
import Verif.Proofs.Rebuild
import Verif.Proofs.RebuildRun
import Verif.Props.Rebuild
import Verif.Props.RebuildArch
import Verif.Props.RebuildExample
import Verif.Spec.Live
import Verif.Proofs.ExampleL
import Verif.Proofs.FeedTotal
import Verif.Proofs.CommitTotal
import Verif.Props.StoreTotal
import Verif.Props.StoreTotalExample
import Verif.Model.Evloop
import Verif.Proofs.Evloop
import Verif.Props.Evloop
import Verif.Model.StowPipe
import Verif.Props.StowPipe
import Verif.Props.StowPipeRoom
import Verif.Model.Crash
import Verif.Proofs.Crash
import Verif.Props.Crash
import Verif.Props.CrashExample
import Verif.Proofs.Recover
import Verif.Proofs.RecoverIndex
import Verif.Props.Recover
import Verif.Props.RecoverExample
import Verif.Model.TornIndex
import Verif.Proofs.TornIndex
import Verif.Props.TornIndex
import Verif.Props.Torn
import Verif.Props.TornExample
import Verif.Model.StowArch
import Verif.Proofs.StowArch
import Verif.Proofs.StowArchSim
import Verif.Props.StowArch
import Verif.Props.StowArchExample
import Verif.Model.Backup
import Verif.Model.BackupRun
import Verif.Proofs.Backup
import Verif.Props.Backup
import Verif.Props.BackupPlan
import Verif.Props.BackupExample
import Verif.Props.BackupRun
import Verif.Model.Main
import Verif.Props.Main
import Verif.Props.MainExample
import Verif.Model.VsbQuote
import Verif.Props.VsbQuote
import Verif.Model.Vqueue
import Verif.Props.Vqueue
import Verif.Props.ReindexAgain
import Verif.Model.Unvis
import Verif.Spec.Vis
import Verif.Props.Unvis
import Verif.Props.Solo
import Verif.Props.Stevedore
import Verif.Props.StowMain
import Verif.Props.StowAny
import Verif.Props.Concurrent
import Verif.Model.HkErr
import Verif.Props.HkErr
import Verif.Model.GetWhile
import Verif.Props.GetWhile
import Verif.Model.AuditArgs
import Verif.Props.AuditOpt
import Verif.Spec.Json
import Verif.Model.Info
import Verif.Props.Json
import Verif.Model.StoreErr
import Verif.Proofs.StoreErr
import Verif.Props.StoreErr
import Verif.Props.StoreFine
import Verif.Model.StevJobs
import Verif.Props.StevJobs
import Verif.Model.ReindexArgs
import Verif.Proofs.ReindexSome
import Verif.Props.ReindexArgs
import Verif.Model.ReindexKill
import Verif.Props.ReindexKill
import Verif.Props.StoreCache
import Verif.Model.Stdio
import Verif.Props.Stdio
import Verif.Props.ReindexRuns
import Verif.Model.StevRead
import Verif.Props.StevRead
import Verif.Model.ProtoCut
import Verif.Props.ProtoCut
import Verif.Props.JsonAny
import Verif.Model.Print
import Verif.Props.Print
import Verif.Model.StowTmp
import Verif.Props.StowTmp
import Verif.Model.IndexErr
import Verif.Props.IndexErr
import Verif.Model.GetErr
import Verif.Props.GetErr
import Verif.Model.SiloErr
import Verif.Props.SiloErr
import Verif.Model.FilterErr
import Verif.Props.FilterErr
import Verif.Model.GetRead
import Verif.Props.GetRead
