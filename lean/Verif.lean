import Verif.Go.Binary
import Verif.Go.Cmd
import Verif.Go.Core
import Verif.Go.HostFS
import Verif.Go.OpenFlags
import Verif.Go.Path
import Verif.Go.Tabwriter
import Verif.Go.Threads
import Verif.Model.Base
import Verif.Model.Bucket
import Verif.Model.Commands
import Verif.Model.Concurrent
import Verif.Model.Dump
import Verif.Model.Entropy
import Verif.Model.ExtentFile
import Verif.Model.Identify
import Verif.Model.IndexDB
import Verif.Model.IndexRead
import Verif.Model.KeyFormat
import Verif.Model.Leaf
import Verif.Model.Ls
import Verif.Model.MountSession
import Verif.Model.NameHash
import Verif.Model.Output
import Verif.Model.Path
import Verif.Model.Physical
import Verif.Model.Program
import Verif.Model.Recon
import Verif.Model.ReconFault
import Verif.Model.Recover
import Verif.Model.RecoverSay
import Verif.Model.RescueNode
import Verif.Model.Structs
import Verif.Model.ToString
import Verif.Model.TopNodes
import Verif.Model.Uuid
import Verif.Proof.Access
import Verif.Proof.Again
import Verif.Proof.Bounds
import Verif.Proof.Clobber
import Verif.Proof.ClobberRun
import Verif.Proof.Codec
import Verif.Proof.Concrete
import Verif.Proof.Contain
import Verif.Proof.Down
import Verif.Proof.ExtentFile
import Verif.Proof.FileCrash
import Verif.Proof.Find
import Verif.Proof.GoPath
import Verif.Proof.HardLinks
import Verif.Proof.History
import Verif.Proof.HostFS
import Verif.Proof.Identify
import Verif.Proof.Key
import Verif.Proof.Leaf
import Verif.Proof.Lookup
import Verif.Proof.LsRecover
import Verif.Proof.LsShown
import Verif.Proof.MkdirDone
import Verif.Proof.More
import Verif.Proof.MountCrash
import Verif.Proof.Named
import Verif.Proof.NoExit
import Verif.Proof.NoHang
import Verif.Proof.Open
import Verif.Proof.ParentPath
import Verif.Proof.Path
import Verif.Proof.Physical
import Verif.Proof.PhysicalRun
import Verif.Proof.Piece
import Verif.Proof.Pwrite
import Verif.Proof.PwriteLast
import Verif.Proof.QuietRun
import Verif.Proof.Range
import Verif.Proof.RangeAll
import Verif.Proof.RangeRun
import Verif.Proof.RangeStart
import Verif.Proof.RecEnd
import Verif.Proof.RecFile
import Verif.Proof.RecInv
import Verif.Proof.RecRun
import Verif.Proof.RecWent
import Verif.Proof.Recon
import Verif.Proof.ReconFault
import Verif.Proof.RecoverCrash
import Verif.Proof.RecoverSay
import Verif.Proof.RecoverTold
import Verif.Proof.RecoverToldDir
import Verif.Proof.RescueNode
import Verif.Proof.SameItems
import Verif.Proof.SameSeen
import Verif.Proof.SameTree
import Verif.Proof.Seen
import Verif.Proof.SeenTree
import Verif.Proof.Session
import Verif.Proof.Store
import Verif.Proof.Tabwriter
import Verif.Proof.ToString
import Verif.Proof.TrueBytes
import Verif.Proof.TruePieces
import Verif.Proof.TrueRun
import Verif.Proof.Undamaged
import Verif.Proof.Whole
import Verif.Proof.WholeRun
import Verif.Proof.Wp
import Verif.Proof.WpE
import Verif.Props.Again
import Verif.Props.AgreeExact
import Verif.Props.Checksum
import Verif.Props.Concurrent
import Verif.Props.ContentExact
import Verif.Props.ContentTrue
import Verif.Props.Derived
import Verif.Props.Dump
import Verif.Props.DumpImage
import Verif.Props.EndToEnd
import Verif.Props.EndToEndEx
import Verif.Props.EndToEndSeen
import Verif.Props.Entropy
import Verif.Props.EntropyFloat
import Verif.Props.Exact
import Verif.Props.Exit
import Verif.Props.FileCrash
import Verif.Props.Finders
import Verif.Props.HardLinks
import Verif.Props.Identify
import Verif.Props.IdentifyExact
import Verif.Props.IdentifyOut
import Verif.Props.IdentifyRecon
import Verif.Props.Images
import Verif.Props.IndexDB
import Verif.Props.IndexLookup
import Verif.Props.Items
import Verif.Props.Keys
import Verif.Props.Layout
import Verif.Props.LayoutBounds
import Verif.Props.Leaf
import Verif.Props.Ls
import Verif.Props.LsCrash
import Verif.Props.LsExact
import Verif.Props.LsHang
import Verif.Props.LsLoop
import Verif.Props.LsOut
import Verif.Props.LsPath
import Verif.Props.LsPathExact
import Verif.Props.LsRecover
import Verif.Props.LsRecoverEx
import Verif.Props.LsRecoverImage
import Verif.Props.LsShown
import Verif.Props.LsStuck
import Verif.Props.LsTree
import Verif.Props.More
import Verif.Props.MoreImage
import Verif.Props.MoreMount
import Verif.Props.Mount
import Verif.Props.MountContent
import Verif.Props.MountCrash
import Verif.Props.MountExact
import Verif.Props.MountHang
import Verif.Props.MountImage
import Verif.Props.MountRead
import Verif.Props.MountSession
import Verif.Props.NameHash
import Verif.Props.OpenExact
import Verif.Props.OpenOutcome
import Verif.Props.Path
import Verif.Props.PathCrash
import Verif.Props.PathExact
import Verif.Props.PathHang
import Verif.Props.PathSame
import Verif.Props.PathSameEx
import Verif.Props.PathStuck
import Verif.Props.Physical
import Verif.Props.PhysicalExact
import Verif.Props.PieceEx
import Verif.Props.PieceExact
import Verif.Props.Program
import Verif.Props.ProgramOut
import Verif.Props.Raid
import Verif.Props.RaidMount
import Verif.Props.RaidWrong
import Verif.Props.RangeExact
import Verif.Props.Ranges
import Verif.Props.ReadExact
import Verif.Props.Readers
import Verif.Props.Recon
import Verif.Props.ReconFault
import Verif.Props.ReconMore
import Verif.Props.RecoverAll
import Verif.Props.RecoverAllEx
import Verif.Props.RecoverContain
import Verif.Props.RecoverContent
import Verif.Props.RecoverCrash
import Verif.Props.RecoverEnd
import Verif.Props.RecoverFile
import Verif.Props.RecoverHang
import Verif.Props.RecoverInline
import Verif.Props.RecoverInside
import Verif.Props.RecoverKeep
import Verif.Props.RecoverLink
import Verif.Props.RecoverLinkExtent
import Verif.Props.RecoverLost
import Verif.Props.RecoverNames
import Verif.Props.RecoverReach
import Verif.Props.RecoverSeen
import Verif.Props.RecoverSeenEx
import Verif.Props.RecoverTold
import Verif.Props.RecoverToldEx
import Verif.Props.RecoverTrue
import Verif.Props.RecoverWhole
import Verif.Props.RecoverWholeEx
import Verif.Props.RecoverWrong
import Verif.Props.Refuted
import Verif.Props.Repair
import Verif.Props.RepairSeen
import Verif.Props.RepoTests
import Verif.Props.RescueFile
import Verif.Props.RescueNode
import Verif.Props.RescueOpen
import Verif.Props.Resume
import Verif.Props.SameBytes
import Verif.Props.SameBytesEx
import Verif.Props.SameTree
import Verif.Props.SameTreeImage
import Verif.Props.SearchKeys
import Verif.Props.ToString
import Verif.Props.TopNodes
import Verif.Props.Uuid
import Verif.Props.Verbose
import Verif.Spec.Checksum
import Verif.Spec.ContentExact
import Verif.Spec.Crc
import Verif.Spec.Decimal
import Verif.Spec.Dump
import Verif.Spec.Exit
import Verif.Spec.ExtentFile
import Verif.Spec.FileCrash
import Verif.Spec.Float64
import Verif.Spec.HardLinks
import Verif.Spec.History
import Verif.Spec.Identify
import Verif.Spec.Image
import Verif.Spec.Images
import Verif.Spec.InFlight
import Verif.Spec.Layout
import Verif.Spec.Leaf
import Verif.Spec.Ls
import Verif.Spec.LsCrash
import Verif.Spec.LsShown
import Verif.Spec.LsTree
import Verif.Spec.More
import Verif.Spec.Mount
import Verif.Spec.MountCrash
import Verif.Spec.MountHang
import Verif.Spec.MountOpen
import Verif.Spec.MountSession
import Verif.Spec.Names
import Verif.Spec.Order
import Verif.Spec.Path
import Verif.Spec.PathCrash
import Verif.Spec.PathExact
import Verif.Spec.PathHang
import Verif.Spec.PathSame
import Verif.Spec.Physical
import Verif.Spec.Pieces
import Verif.Spec.Program
import Verif.Spec.Raid
import Verif.Spec.Range
import Verif.Spec.Recon
import Verif.Spec.Recover
import Verif.Spec.RecoverAll
import Verif.Spec.RecoverCrash
import Verif.Spec.RecoverFile
import Verif.Spec.RecoverHang
import Verif.Spec.RecoverReach
import Verif.Spec.RecoverSeen
import Verif.Spec.RecoverTold
import Verif.Spec.RecoverWhole
import Verif.Spec.Repair
import Verif.Spec.RescueNode
import Verif.Spec.SameTree
import Verif.Spec.Seen
import Verif.Spec.Session
import Verif.Spec.ShortRead
import Verif.Spec.Store
import Verif.Spec.Table
import Verif.Spec.Uuid
