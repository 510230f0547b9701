import Verif.FileData.Props
import Verif.FileData.ConcProps
import Verif.System.Props
import Verif.Expire.Props
import Verif.Local.Props
import Verif.Codec.Props
import Verif.Codec.GsMeta
import Verif.Cache.Props
import Verif.Cache.Copy
import Verif.Sync.MultiLock
import Verif.Sync.LinkedDictProps
import Verif.Inode.Props
import Verif.Sync.DropLimits
import Verif.Sync.Commit
import Verif.Backend.Retry
import Verif.Backend.Store
import Verif.Backend.Rate
import Verif.Backend.Body
import Verif.Backend.Listing
import Verif.Backend.Pool
import Verif.Backend.CaseDict
import Verif.Backend.DeleteMulti
import Verif.Fs.Props2
import Verif.Fs.Cases
import Verif.Fs.Cases2
import Verif.Fs.Cases3
import Verif.Fs.Cases5
import Verif.Fs.TreeMix2
import Verif.Fs.Frame
import Verif.Fs.TreeMix3
import Verif.Fs.TreeMix4
import Verif.Fs.TreeMix5
import Verif.Fs.TreeMix6
import Verif.Fs.TreeMix7
import Verif.Cache.Entry
import Verif.Backend.ExchangeProps
import Verif.Fs.Cases4
import Verif.Comprenc.Props2
import Verif.Meta.ProtoCases
import Verif.Fsck.Keep
import Verif.Fsck.Place
import Verif.Fsck.Named
import Verif.Sync.Pipeline
import Verif.Tools.Verify
import Verif.Local.Write
import Verif.Tools.MasterKey
import Verif.Tools.Url
import Verif.Tools.Authinfo
import Verif.Sync.Batch
import Verif.Fs.ShapeProps
import Verif.Fs.Depth
import Verif.Fsck.FromFsCases
import Verif.Backend.Sign
import Verif.Backend.SignText
import Verif.Tools.Cmd
import Verif.Tools.CmdWalk
import Verif.Tools.CmdProps
import Verif.Tools.Downgrade
import Verif.System.KeepProps
import Verif.Fsck.Crash
import Verif.System.Crash
import Verif.System.Extent
import Verif.System.Unmount
import Verif.Tools.Umount
import Verif.Tools.Stat
import Verif.Backend.Auth
import Verif.Backend.Token
import Verif.Contrib.Pcp
import Verif.Cache.Evict
import Verif.Tools.MountOpts
import Verif.Meta.Backup
import Verif.Fsck.NewInode
import Verif.Tools.MountEnd
import Verif.Tools.Upgrade
import Verif.Tools.Guard
import Verif.Fs.Lock3
import Verif.Fsck.Rows
import Verif.System.Crashes
import Verif.Backend.Answer
import Verif.Tools.Control
import Verif.Tools.ControlProps
import Verif.Backend.Endpoint
import Verif.Backend.EndpointProps
import Verif.Fsck.Command
import Verif.Fsck.CommandProps
import Verif.Expire.Crash
import Verif.Inode.Sync
import Verif.System.Fsync
import Verif.Backend.SwiftBulk
import Verif.Tools.Messages
import Verif.Tools.Size
import Verif.Tools.MountStart
import Verif.Meta.Verify
import Verif.Contrib.BackupScript
import Verif.Backend.Options
import Verif.Contrib.RemoveObjects
