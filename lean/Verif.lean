import Verif.Props.Streams
import Verif.Props.Tamper
import Verif.Props.Limits
import Verif.Props.Crash
import Verif.Props.Encoding
import Verif.Props.Siv
import Verif.Props.Btree
import Verif.Props.Names
import Verif.Props.LiteFs
import Verif.Props.FileTable
import Verif.Props.FileAttr
import Verif.Props.FullFs
import Verif.Props.ThreadLocal
import Verif.Props.Timer
import Verif.Props.RepoLock
import Verif.Props.PairLock
import Verif.Props.Migrate
import Verif.Props.Config
import Verif.Props.ConfigWrite
import Verif.Props.Suffix
import Verif.Props.SimpleDir
import Verif.Props.FullXattr
import Verif.Props.GetPath
import Verif.Props.Adapter
import Verif.Props.Shutdown
import Verif.Props.FullFsExact
import Verif.Props.FullFsData
import Verif.Props.Commands
import Verif.Props.Mount
import Verif.Props.FileObj
import Verif.Props.Fsync
import Verif.Spec.Posix
import Verif.Spec.LiteVolume
import Verif.Model.LiteVolume
import Verif.Proofs.PosixCorr
import Verif.Proofs.LiteVolume
import Verif.Proofs.LiteVolumeMove
import Verif.Proofs.LiteVolumeFiles
import Verif.Proofs.LiteVolumeNames
import Verif.Proofs.LiteVolumeTables
import Verif.Proofs.LiteVolumeRun
import Verif.Props.LiteVolume
import Verif.Model.WriteCache
import Verif.Props.WriteCache
import Verif.Model.FileStore
import Verif.Spec.FileStore
import Verif.Proofs.FileStore
import Verif.Proofs.FileStoreInv
import Verif.Proofs.FileStoreRun
import Verif.Props.FileStore
import Verif.Model.DirFile
import Verif.Spec.DirFile
import Verif.Proofs.DirFileSim
import Verif.Proofs.DirFileRun
import Verif.Proofs.DirFileBloat
import Verif.Props.DirFile
import Verif.Model.FullVolume
import Verif.Spec.FullVolume
import Verif.Model.FullMix
import Verif.Spec.FullMix
import Verif.Proofs.FullVolumeObj
import Verif.Proofs.FullVolumeSim
import Verif.Proofs.FullVolumeRun
import Verif.Proofs.FullVolumeEvents
import Verif.Props.FullVolume
import Verif.Proofs.FullMix
import Verif.Props.FullMix
import Verif.Spec.Frail
import Verif.Model.Faults
import Verif.Proofs.Faults
import Verif.Proofs.FaultsLite
import Verif.Proofs.FaultsFull
import Verif.Proofs.FaultsLive
import Verif.Proofs.FaultsInit
import Verif.Props.Faults
import Verif.Spec.AtomicFile
import Verif.Model.LiteThreads
import Verif.Proofs.LiteThreadsProg
import Verif.Proofs.LiteThreadsLock
import Verif.Proofs.LiteThreadsSim
import Verif.Proofs.LiteThreadsBase
import Verif.Proofs.LiteThreadsLive
import Verif.Props.LiteThreads
import Verif.Spec.Win
import Verif.Model.WinOs
import Verif.Proofs.Win
import Verif.Proofs.WinPath
import Verif.Props.Win
import Verif.Model.LongTab
import Verif.Spec.LongTab
import Verif.Proofs.LongTab
import Verif.Proofs.LongTabSim
import Verif.Proofs.LongTabRun
import Verif.Proofs.LongTabLive
import Verif.Props.LongTab
import Verif.Spec.Sealed
import Verif.Proofs.Sealed
import Verif.Proofs.SealedLite
import Verif.Proofs.SealedLiteRun
import Verif.Proofs.SealedLiteIv
import Verif.Proofs.SealedFull
import Verif.Proofs.SealedFullIv
import Verif.Proofs.SealedFullRun
import Verif.Props.Sealed
import Verif.Model.BtreeFaults
import Verif.Spec.BtreeFaults
import Verif.Proofs.BtreeFaults
import Verif.Props.BtreeFaults
import Verif.Props.BtreeRoom
import Verif.Model.Walk
import Verif.Spec.Walk
import Verif.Proofs.Walk
import Verif.Props.Walk
import Verif.Model.TableFaults
import Verif.Proofs.TableFaults
import Verif.Props.TableFaults
import Verif.Spec.Storage
import Verif.Model.Storage
import Verif.Proofs.Storage
import Verif.Props.Storage
import Verif.Spec.Moments
import Verif.Proofs.Moments
import Verif.Proofs.MomentsOps
import Verif.Props.Moments
import Verif.Spec.KeyCheck
import Verif.Model.KeyCheck
import Verif.Proofs.KeyCheck
import Verif.Props.KeyCheck
import Verif.Spec.GetPathTable
import Verif.Model.GetPathTable
import Verif.Proofs.GetPathTable
import Verif.Props.GetPathTable
import Verif.Props.FullLocks
import Verif.Props.DataMoments
import Verif.Props.VolThreads
import Verif.Props.VolSerial
import Verif.Props.Tight
import Verif.Props.AttrMoments
import Verif.Props.VolMoments
import Verif.Props.CutSerial
import Verif.Props.Doc
import Verif.Props.LiteLocks
import Verif.Props.Tight2
import Verif.Props.Tight3
import Verif.Props.PosixPath
import Verif.Props.Times
import Verif.Props.LegalNames
import Verif.Props.Inodes
import Verif.Props.Spelling
import Verif.Spec.Layout
import Verif.Proofs.Layout
import Verif.Props.Layout
import Verif.Model.Sqlite
import Verif.Spec.Sqlite
import Verif.Proofs.Sqlite
import Verif.Proofs.SqliteRows
import Verif.Props.Sqlite
import Verif.Model.Guards
import Verif.Spec.Guards
import Verif.Props.Guards
import Verif.Model.Terminal
import Verif.Spec.Terminal
import Verif.Props.Terminal
import Verif.Model.Descriptors
import Verif.Spec.Descriptors
import Verif.Props.Descriptors
import Verif.Model.Wipe
import Verif.Spec.Wipe
import Verif.Props.Wipe
import Verif.Model.Pod
import Verif.Spec.Pod
import Verif.Props.Pod
