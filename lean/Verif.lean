import Verif.Props.Codec
import Verif.Props.MaxSim
import Verif.Props.Index
import Verif.Props.Search
import Verif.Props.Db
import Verif.Props.Store
import Verif.Props.Text
import Verif.Props.Fusion
import Verif.Props.Calendar
import Verif.Props.Npy
import Verif.Props.Merge
import Verif.Props.Atomic
import Verif.Props.Convert
import Verif.Props.Outliers
import Verif.Props.Condition
import Verif.Props.Batch
import Verif.Props.Server
import Verif.Props.Progress
import Verif.Props.Locks
import Verif.Props.Slots
import Verif.Props.Json
import Verif.Props.Colgrep
import Verif.Props.Globs
import Verif.Props.Include
import Verif.Props.Filters
import Verif.Props.Results
import Verif.Props.Ranking
import Verif.Props.Encode
import Verif.Props.Pipeline
import Verif.Props.Prepare
import Verif.Props.Hierarchy
import Verif.Props.EncodePool
import Verif.Props.Rerank
import Verif.Props.Units
import Verif.Props.SearchApi
import Verif.Props.Display
import Verif.Props.TextFilter
import Verif.Props.Install
import Verif.Props.Places
import Verif.Props.Train
import Verif.Props.MetaApi
import Verif.Props.Worktree
import Verif.Props.JsonText
import Verif.Props.Settings
import Verif.Props.Enhance
import Verif.Props.DbConn
import Verif.Props.Scan
import Verif.Props.Legacy
import Verif.Props.EmbedText
import Verif.Props.Linkage
import Verif.Props.ProcLock
import Verif.Props.SearchBatch
import Verif.Props.ArrayFile
import Verif.Props.Catalogue
import Verif.Props.Abort
import Verif.Props.Accepted
import Verif.Props.Shown
import Verif.Props.Stream
import Verif.Props.Where
import Verif.Props.Sdk
import Verif.Props.Qml
import Verif.Props.Words
import Verif.Props.Facts
import Verif.Props.Imports
import Verif.Props.Docs
import Verif.Props.Gpu
import Verif.Props.Runtime
import Verif.Props.Interrupt
import Verif.Props.Device
import Verif.Props.Retry
import Verif.Props.Padding
import Verif.Props.Stderr
import Verif.Props.Stats
import Verif.Props.Uninstall
import Verif.Props.Specific
import Verif.Props.SelfUpdate
import Verif.Props.Surface
import Verif.Props.Shutdown
import Verif.Props.Plugin
import Verif.Props.Distinct
import Verif.Props.Centroids
import Verif.Props.Hub
import Verif.Props.Trace
import Verif.Props.CopyTree
import Verif.Props.Nearby
import Verif.Props.Registry
import Verif.Props.Pending
