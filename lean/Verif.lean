import Verif.Props.Seek
import Verif.Props.Decompress
import Verif.Props.Counting
import Verif.Props.Copier
import Verif.Props.Zip
import Verif.Props.ZipRuns
import Verif.Props.ZipFaults
import Verif.Props.ZipAlignment
import Verif.Props.Dest
import Verif.Props.FolderLife
import Verif.Props.Contain
import Verif.Props.TarCases
import Verif.Props.Results
import Verif.Props.Checker
import Verif.Props.Semirandom
import Verif.Props.FolderExtract
import Verif.Props.FolderFaults
import Verif.Props.TarFaults
import Verif.Props.Failures
import Verif.Props.Extraction
import Verif.Props.Power
import Verif.CheckPath
import Verif.CheckZip
import Verif.CheckTar
import Verif.Props.Oracle
import Verif.Props.Alike
import Verif.Props.Harness
import Verif.Props.SourceTest
import Verif.Members
import Verif.Props.Members
import Verif.FolderModes
import Verif.Opened
import Verif.ModeRuns
import Verif.Conduits
import Verif.AnyModes
import Verif.ModeChains
import Verif.Props.Modes
import Verif.MakeArchive
import Verif.Ustar
import Verif.Props.Make
import Verif.Handles
import Verif.Props.Handles
import Verif.Inflate
import Verif.InflateLemmas
import Verif.Gzip
import Verif.Props.Real
import Verif.Win
import Verif.Spec.Win
import Verif.WinLemmas
import Verif.WinOps
import Verif.WinSteps
import Verif.WinDisk
import Verif.Props.Win
import Verif.Spec.Shared
import Verif.Shared
import Verif.Props.Shared
import Verif.FileSource
import Verif.Props.FileSource
import Verif.GzipEnc
import Verif.Formats
import Verif.Spec.Ready
import Verif.Ready
import Verif.ReadyOps
import Verif.Stopped
import Verif.Props.Ready
import Verif.Props.GzipDamage
import Verif.RepoTests
import Verif.ZipHeld
import Verif.Props.Retry
import Verif.Props.TarRetry
import Verif.Gob
import Verif.Spec.Gob
import Verif.GobLemmas
import Verif.ZipKept
import Verif.Props.Gob
import Verif.Props.Loop
import Verif.Props.Where
import Verif.Props.Progress
import Verif.Spec.Float
import Verif.Float
import Verif.Props.Float
import Verif.Reuse
import Verif.Props.Reuse
import Verif.Props.Special
import Verif.Props.Spacing
import Verif.Props.Torn
import Verif.Props.Close
import Verif.Props.Bystander
import Verif.Props.Makes
import Verif.Props.Exact
import Verif.Props.Again
import Verif.Props.Overlay
import Verif.Props.Update
import Verif.Props.WinExact
import Verif.Props.WinBystander
import Verif.Props.WinOverlay
import Verif.Props.WinUpdate
