import Verif.Model.Accepted
import Verif.Model.Api
import Verif.Model.ApiServer
import Verif.Model.Backend
import Verif.Model.Background
import Verif.Model.Backup
import Verif.Model.Base
import Verif.Model.Beside
import Verif.Model.Callback
import Verif.Model.CallbackRun
import Verif.Model.Chunked
import Verif.Model.ChunkedOps
import Verif.Model.Cli
import Verif.Model.Commands
import Verif.Model.Conc
import Verif.Model.Config
import Verif.Model.Consul
import Verif.Model.Daemon
import Verif.Model.Defaults
import Verif.Model.Device
import Verif.Model.Dict
import Verif.Model.Diff
import Verif.Model.FileSource
import Verif.Model.Files
import Verif.Model.Float
import Verif.Model.Fs
import Verif.Model.FsConc
import Verif.Model.FullDisk
import Verif.Model.FullOps
import Verif.Model.JobDir
import Verif.Model.Life
import Verif.Model.Listing
import Verif.Model.Locks
import Verif.Model.Logging
import Verif.Model.Mapping
import Verif.Model.Migrate
import Verif.Model.Moved
import Verif.Model.Overlap
import Verif.Model.PeersConf
import Verif.Model.Pool
import Verif.Model.Purge
import Verif.Model.PushStop
import Verif.Model.Queried
import Verif.Model.Rbd
import Verif.Model.RbdCmd
import Verif.Model.Reload
import Verif.Model.Repo
import Verif.Model.Report
import Verif.Model.Requests
import Verif.Model.RevMeta
import Verif.Model.RevSpec
import Verif.Model.Rotate
import Verif.Model.Said
import Verif.Model.Schedule
import Verif.Model.Show
import Verif.Model.Slots
import Verif.Model.Sort
import Verif.Model.SourceArgs
import Verif.Model.Spread
import Verif.Model.Status
import Verif.Model.Sync
import Verif.Model.Tags
import Verif.Model.TaskId
import Verif.Model.TimeOut
import Verif.Model.Timeline
import Verif.Proofs.BackupAll
import Verif.Proofs.BackupData
import Verif.Proofs.BackupFiles
import Verif.Proofs.BackupOk
import Verif.Proofs.BackupRun
import Verif.Proofs.Beside
import Verif.Proofs.ChunkedInv
import Verif.Proofs.ChunkedLog
import Verif.Proofs.ChunkedOpen
import Verif.Proofs.ChunkedReadOnly
import Verif.Proofs.ChunkedRefine
import Verif.Proofs.ChunkedStep
import Verif.Proofs.Damage
import Verif.Proofs.DiffApply
import Verif.Proofs.DiffCut
import Verif.Proofs.DiffDecode
import Verif.Proofs.Expire
import Verif.Proofs.Files
import Verif.Proofs.Fits
import Verif.Proofs.Float
import Verif.Proofs.FullDisk
import Verif.Proofs.Gc
import Verif.Proofs.History
import Verif.Proofs.Ideal
import Verif.Proofs.ListLemmas
import Verif.Proofs.Overlap
import Verif.Proofs.Parent
import Verif.Proofs.ReadOnlyWorld
import Verif.Proofs.RepoAll
import Verif.Proofs.RepoScan
import Verif.Proofs.RevExpr
import Verif.Proofs.RevRange
import Verif.Proofs.RevResults
import Verif.Proofs.RevText
import Verif.Proofs.TagBlind
import Verif.Proofs.Tokenize
import Verif.Props.Accepted
import Verif.Props.Api
import Verif.Props.ApiServer
import Verif.Props.Backend
import Verif.Props.Background
import Verif.Props.Backup
import Verif.Props.BackupRuns
import Verif.Props.Beside
import Verif.Props.Bounded
import Verif.Props.Callback
import Verif.Props.CallbackRun
import Verif.Props.Chunked
import Verif.Props.ChunkedReadOnly
import Verif.Props.Cli
import Verif.Props.Clock
import Verif.Props.Commands
import Verif.Props.Compared
import Verif.Props.Conc
import Verif.Props.Config
import Verif.Props.Consul
import Verif.Props.Crash
import Verif.Props.Daemon
import Verif.Props.Damage
import Verif.Props.Decay
import Verif.Props.Dedup
import Verif.Props.Defaults
import Verif.Props.Device
import Verif.Props.Diff
import Verif.Props.ExitCodes
import Verif.Props.Expiry
import Verif.Props.FailedRestore
import Verif.Props.Failing
import Verif.Props.FileSource
import Verif.Props.Files
import Verif.Props.Find
import Verif.Props.Foreground
import Verif.Props.Frequency
import Verif.Props.FsConc
import Verif.Props.FullDisk
import Verif.Props.FullOps
import Verif.Props.FullTags
import Verif.Props.Gc
import Verif.Props.Growth
import Verif.Props.Healed
import Verif.Props.JobDir
import Verif.Props.Killed
import Verif.Props.Lasting
import Verif.Props.Leftover
import Verif.Props.Life
import Verif.Props.Listing
import Verif.Props.Locks
import Verif.Props.Logging
import Verif.Props.Mapping
import Verif.Props.Memory
import Verif.Props.Migrate
import Verif.Props.Moved
import Verif.Props.Outage
import Verif.Props.Outcome
import Verif.Props.Overlap
import Verif.Props.Passes
import Verif.Props.Peers
import Verif.Props.PeersConf
import Verif.Props.Pool
import Verif.Props.ProgramCodes
import Verif.Props.Pull
import Verif.Props.Purge
import Verif.Props.PurgeJob
import Verif.Props.Push
import Verif.Props.PushStop
import Verif.Props.Queried
import Verif.Props.RbdCmd
import Verif.Props.Record
import Verif.Props.Recovery
import Verif.Props.Reload
import Verif.Props.RepoScan
import Verif.Props.Report
import Verif.Props.Requests
import Verif.Props.Restorable
import Verif.Props.Retention
import Verif.Props.Retries
import Verif.Props.RevExpr
import Verif.Props.RevMeta
import Verif.Props.Rotate
import Verif.Props.Said
import Verif.Props.Schedule
import Verif.Props.ScheduleChange
import Verif.Props.Shared
import Verif.Props.Sharing
import Verif.Props.Show
import Verif.Props.Slots
import Verif.Props.SourceArgs
import Verif.Props.Spread
import Verif.Props.Status
import Verif.Props.Tags
import Verif.Props.TaskId
import Verif.Props.TimeOut
import Verif.Props.Timeline
import Verif.Props.TimelinePeers
import Verif.Props.Undone
import Verif.Props.Verify
import Verif.Spec.Beside
import Verif.Spec.Config
import Verif.Spec.Crash
import Verif.Spec.Daemon
import Verif.Spec.Damage
import Verif.Spec.Diff
import Verif.Spec.Expiry
import Verif.Spec.Failing
import Verif.Spec.Flat
import Verif.Spec.History
import Verif.Spec.Image
import Verif.Spec.JobDir
import Verif.Spec.Lasting
import Verif.Spec.Locks
import Verif.Spec.Logging
import Verif.Spec.Mapping
import Verif.Spec.Migrate
import Verif.Spec.Moved
import Verif.Spec.Outage
import Verif.Spec.RbdCmd
import Verif.Spec.Recovery
import Verif.Spec.Retries
import Verif.Spec.RevExpr
import Verif.Spec.Status
import Verif.Spec.Tags
import Verif.Spec.TestEnv
import Verif.Spec.Timeline
import Verif.Spec.TimelinePeers
