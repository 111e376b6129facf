import Verif.Props.Bitfield
import Verif.Props.PeerWire
import Verif.Props.BencodeDecode
import Verif.Props.BencodeEncode
import Verif.Props.BencodeTyped
import Verif.Props.BencodeFatal
import Verif.Props.Metainfo
import Verif.Props.Storage
import Verif.Props.StorageAvailable
import Verif.Props.Tracker
import Verif.Props.Magnet
import Verif.Props.Future
import Verif.Props.Response
import Verif.Props.Multitracker
import Verif.Props.Announce
import Verif.Props.Counter
import Verif.Props.Resume
import Verif.Props.Names
import Verif.Props.ReadPanic
import Verif.Props.P2PDeadly
import Verif.Props.MultitrackerConc
import Verif.Props.Pex
import Verif.Props.PexFirst
import Verif.Props.PexAlways
import Verif.Props.RequestPiece
import Verif.Props.Paths
import Verif.Props.P2PMessages
import Verif.Props.P2PConnect
import Verif.Props.P2PDownload
import Verif.Props.P2PFlags
import Verif.Props.P2POnce
import Verif.Props.BlockFuture
import Verif.Props.StorageConc
import Verif.Props.P2PStorage
import Verif.Props.P2PSilent
import Verif.Props.P2PSafe
import Verif.Props.P2PQueue
import Verif.Props.Lifecycle
import Verif.Props.StorageAgain
import Verif.Props.StorageChecksum
import Verif.Props.LazyReader
import Verif.Props.P2PSeeding
import Verif.Props.P2PKnown
import Verif.Props.BencodeConflict
import Verif.Props.TorrentFile
import Verif.Props.TorrentWrite
import Verif.Props.ResponseRead
import Verif.Props.ResponseWrite
import Verif.Props.BencodeNames
import Verif.Props.BencodePass
import Verif.Props.BencodeDepth
import Verif.Props.BencodeAgain
import Verif.Props.BencodeAgainStruct
import Verif.Props.Stall
import Verif.Props.P2PFair
import Verif.Props.P2PWhole
import Verif.Props.P2PExchange
import Verif.Props.PeerCodec
import Verif.Tests.Bitfield
import Verif.Tests.Bencode
import Verif.Tests.Api
import Verif.Tests.Storage
import Verif.Axioms
import Verif.Props.ReadCost
import Verif.Props.P2PMemory
import Verif.Props.P2PGiveBack
import Verif.Props.Refusal
import Verif.Props.Swarm
import Verif.Props.TempFiles
import Verif.Props.BencodeWriter
import Verif.Props.BencodeReader
import Verif.Props.P2PLost
import Verif.Props.P2PUnblocked
