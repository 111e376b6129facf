import Verif.Model.PeerWire
import Verif.Model.Magnet
import Verif.Model.MetainfoCodec
import Verif.Model.Tracker
import Verif.Model.KernelRfl
/-
The tables of the tests of /repo/api, evaluated in the model: peer_test.go, magnet_test.go, metainfo_test.go,
tracker_test.go. `MarshalBinary` and `UnmarshalBinary` (peer.go:60-66, 338-345) are `Encode` into a buffer and `Decode`
from a reader over the given bytes. The SHA-1 values are arbitrary 20 bytes here.
-/

namespace Drip.Tests.Peer
open Drip Drip.PeerWire

/-! ### api/peer/peer_test.go -/

/-- peer_test.go:12-17. -/
def hs : Handshake := { infoHash := b!"SHA1-HASH-abcdefghij", peerID := b!"-DR1000-123456789012" }
def hsBytes : Bytes :=
  [19] ++ b!"BitTorrent protocol" ++ [0, 0, 0, 0, 0, 0, 0, 0] ++ b!"SHA1-HASH-abcdefghij" ++ b!"-DR1000-123456789012"

example : hs.encode = hsBytes := by kernel_rfl
example : Handshake.decode { chunks := [hsBytes] } = .ok (hs, { chunks := [] }) := by kernel_rfl

/-- peer_test.go:99-205 and 228-335: messages and their bytes. -/
def table : List (Message × Bytes) :=
  [ ({ typ := KEEPALIVE }, [0, 0, 0, 0]),
    ({ typ := CHOKE }, [0, 0, 0, 1, 0]),
    ({ typ := UNCHOKE }, [0, 0, 0, 1, 1]),
    ({ typ := INTERESTED }, [0, 0, 0, 1, 2]),
    ({ typ := NOT_INTERESTED }, [0, 0, 0, 1, 3]),
    ({ typ := HAVE, index := 0x01020304 }, [0, 0, 0, 5, 4, 0x01, 0x02, 0x03, 0x04]),
    ({ typ := BITFIELD, bitfield := [0b01010101, 0b11001100] }, [0, 0, 0, 3, 5, 0b01010101, 0b11001100]),
    ({ typ := REQUEST, index := 0x01020304, begin := 0x11223344, length := 0x55667788 },
      [0, 0, 0, 13, 6, 0x01, 0x02, 0x03, 0x04, 0x11, 0x22, 0x33, 0x44, 0x55, 0x66, 0x77, 0x88]),
    ({ typ := PIECE, index := 0x01020304, begin := 0x11223344, piece := [1, 2, 3, 4, 5, 6, 7, 8, 9] },
      [0, 0, 0, 18, 7, 0x01, 0x02, 0x03, 0x04, 0x11, 0x22, 0x33, 0x44, 1, 2, 3, 4, 5, 6, 7, 8, 9]),
    ({ typ := CANCEL, index := 0x01020304, begin := 0x11223344, length := 0x55667788 },
      [0, 0, 0, 13, 8, 0x01, 0x02, 0x03, 0x04, 0x11, 0x22, 0x33, 0x44, 0x55, 0x66, 0x77, 0x88]) ]

example : table.map (fun x => x.1.encode) = table.map (·.2) := by kernel_rfl
example : table.map (fun x => Message.decode { chunks := [x.2] }) = table.map fun x => .ok (x.1, { chunks := [] }) := by
  kernel_rfl

end Drip.Tests.Peer

namespace Drip.Tests.Magnet
open Drip Drip.Magnet

/-! ### api/magnet/magnet_test.go -/

example : parseMagnet b!"xt=urn:btih:aaaaaaaabbbbbbbbccccccccddddddddeeeeeeee&dn=torrent_name&xl=123456&tr=udp%3A%2F%2Ftracker.example.com%3A1337&tr=udp%3A%2F%2Ftracker2.example.com%3A1337&ws=http%3A%2F%2Fws.example.com&x.pe=1.2.3.4%3A6688" =
    .ok { exactTopic := b!"urn:btih:aaaaaaaabbbbbbbbccccccccddddddddeeeeeeee"
          name := b!"torrent_name"
          length := 123456
          trackers := [b!"udp://tracker.example.com:1337", b!"udp://tracker2.example.com:1337"]
          webSeed := b!"http://ws.example.com"
          peers := [b!"1.2.3.4:6688"] } := by kernel_rfl

end Drip.Tests.Magnet

namespace Drip.Tests.Metainfo
open Drip Drip.Metainfo Drip.Bencode

/-! ### api/metainfo/metainfo_test.go -/

def abc : Bytes := b!"abcabcabcabcabcabcab"
def def_ : Bytes := b!"defdefdefdefdefdefde"

example : timeMarshal (.int 1717651912) = .ok b!"i1717651912e" := by kernel_rfl
example : timeUnmarshal b!"i1717651912e" (.int 0) = .ok (.int 1717651912) := by kernel_rfl

/-- metainfo_test.go:66-79; the reversal stands for SHA-1, so that the whole raw text shows. -/
def infoText : Bytes := b!"d6:lengthi2048e4:name8:file.txt12:piece lengthi1024e6:pieces40:" ++ abc ++ def_ ++ b!"ee"

example : infoUnmarshal List.reverse infoText (zero infoStruct) =
    .ok (.struct [hashVal infoText.reverse, .int 1024, piecesVal [abc, def_], .int 0, .str b!"file.txt", .int 2048, .str [],
      .nilSlice]) := by kernel_rfl
example : piecesMarshal (piecesVal [abc, def_]) = .ok (b!"40:" ++ abc ++ def_) := by kernel_rfl
example : piecesUnmarshal (b!"40:" ++ abc ++ def_) .nilSlice = .ok (piecesVal [abc, def_]) := by kernel_rfl

end Drip.Tests.Metainfo

namespace Drip.Tests.Tracker
open Drip Drip.Tracker

/-! ### api/tracker/tracker_test.go -/

def req : Request :=
  { infoHash := [0, 1, 2, 3, 4, 5, 6, 7, 8, 9, 0, 1, 2, 3, 4, 5, 6, 7, 8, 9], peerID := b!"-peer-id-11111111111"
    ip := b!"1.2.3.4", port := 6888, uploaded := 1, downloaded := 2, left := 3, event := b!"started", compact := true }

/-- tracker_test.go:36-46 with the escapes of `url.QueryEscape` written out. -/
def reqText : Bytes :=
  b!"compact=1&downloaded=2&event=started&info_hash=%00%01%02%03%04%05%06%07%08%09%00%01%02%03%04%05%06%07%08%09&ip=1.2.3.4&left=3&peer_id=-peer-id-11111111111&port=6888&uploaded=1"

example : req.encode = reqText := by kernel_rfl
example : Request.zero.decode reqText = .ok req := by kernel_rfl

def two : List Peer := [⟨b!"abc", b!"1.2.3.4", 5678⟩, ⟨b!"def", b!"2.3.4.1", 6785⟩]
def compactText : Bytes := b!"12:" ++ [1, 2, 3, 4, 0x16, 0x2e, 2, 3, 4, 1, 0x1a, 0x81]
def listText : Bytes := b!"ld2:ip7:1.2.3.47:peer id3:abc4:porti5678eed2:ip7:2.3.4.17:peer id3:def4:porti6785eee"

example : peersMarshal ⟨true, some two⟩ = .ok compactText := by kernel_rfl
example : peersMarshal ⟨false, some two⟩ = .ok listText := by kernel_rfl
example : peersUnmarshal compactText ⟨false, none⟩ =
    .ok ⟨true, some [⟨[], b!"1.2.3.4", 5678⟩, ⟨[], b!"2.3.4.1", 6785⟩]⟩ := by kernel_rfl
example : peersUnmarshal listText ⟨false, none⟩ = .ok ⟨false, some two⟩ := by kernel_rfl

end Drip.Tests.Tracker
