#!/usr/bin/env python3
"""Writes /verif/properties.jsonl. One entry per property: (id, title, statement, quantifier, why, anchors)."""
import json, os
P = []
def p(id, title, statement, quantifier, why, *anchors):
    P.append(dict(id=id, title=title, statement=statement, quantifier=quantifier,
                  why_tests_cant=why, anchors=list(anchors)))

# ---------------------------------------------------------------- bitfield
p("C01", "A bitfield is the set of the indices added to it",
  "After bitfield.New(n) and any sequence of Add calls with indices in 0..n-1, no call panics and Has(i) is true exactly for the indices i that were added.",
  "every n, every sequence of in-range Add calls, every queried index in range",
  "The state space is every subset of every range; table tests check two bytes.",
  "bitfield/bitfield.go:New", "bitfield/bitfield.go:Bitfield.Has", "bitfield/bitfield.go:Bitfield.Add")
p("C02", "Items lists exactly the members, in strictly increasing order",
  "For every bitfield b, Items(b) contains i iff Has(i) is true, has no duplicates and is strictly increasing.",
  "every byte string used as a bitfield", "2^(8n) bitfields for every n.",
  "bitfield/bitfield.go:Bitfield.Items")
p("C03", "Difference is set difference for any two lengths",
  "Difference(b,a) has the length of b, and its members are exactly the members of b that are not members of a, also when a is shorter or longer than b.",
  "every pair of bitfields of any lengths", "Unbounded pairs of byte strings.",
  "bitfield/bitfield.go:Bitfield.Difference")
p("C04", "Index bounds of Has and Add",
  "Has(i) and Add(i) panic exactly when i <= -8 or i >= 8*len(b) (or b is empty); for -7 <= i <= -1 on a non-empty bitfield Has is false and Add does nothing; for a bitfield from New(n) every 0<=i<n is in bounds, and Add never changes the length.",
  "every bitfield and every integer index", "The integer index is remote-controlled (HAVE messages) and unbounded.",
  "bitfield/bitfield.go:Bitfield.Has", "bitfield/bitfield.go:Bitfield.Add", "p2p/peer.go:HandleHave")

# ---------------------------------------------------------------- api/peer
p("C05", "Peer messages survive the wire and are self-delimiting",
  "For every message built by the constructors whose integer fields fit in 32 bits and whose payload fits the 32-bit length, decoding its encoding followed by any further bytes yields the same message and leaves exactly those further bytes unread.",
  "every message, every continuation of the stream", "All field values and payloads; tests check ten literals.",
  "api/peer/peer.go:Message.Encode", "api/peer/peer.go:Message.Decode")
p("C06", "A stream of messages decodes to the same sequence",
  "Writing any list of messages one after the other and reading the stream with repeated ReadMessage yields the same list and then end of file; distinct message lists have distinct byte streams.",
  "every finite sequence of messages", "Unbounded sequences.",
  "api/peer/peer.go:ReadMessage", "api/peer/peer.go:Write")
p("C07", "ReadMessage on arbitrary bytes: exact panic set",
  "On every byte stream ReadMessage returns an error exactly when the stream ends before the announced frame; it panics exactly when the complete frame carries a type byte 4, 6, 7 or 8 with a body shorter than 4, 12, 8, 12 bytes; otherwise it returns a message and consumes exactly 4+length bytes.",
  "every byte stream a remote peer can send", "The remote peer controls all bytes.",
  "api/peer/peer.go:Message.Decode")
p("C08", "Handshake round trip and strict acceptance",
  "Handshake.Encode writes exactly 68 bytes; Decode accepts a stream iff it starts with byte 19, 'BitTorrent protocol' and 48 more bytes, and then returns bytes 28..47 as InfoHash and 48..67 as PeerID whatever the 8 reserved bytes are; decoding an encoded handshake gives it back.",
  "every handshake and every byte stream", "All 2^320 hash/id pairs and all malformed streams.",
  "api/peer/peer.go:Handshake.Encode", "api/peer/peer.go:Handshake.Decode")
p("C09", "Fragmentation of the TCP stream does not matter",
  "ReadMessage and ReadHandshake give the same result, and leave the same unread bytes, for every way the same byte stream is split into (non-empty) network reads.",
  "every byte stream and every segmentation of it into reads", "Segmentation is chosen by the network; exponentially many splits.",
  "api/peer/peer.go:Message.Decode", "api/peer/peer.go:Handshake.Decode")

# ---------------------------------------------------------------- bencode
p("C10", "Marshal produces canonical bencoding",
  "Whenever Marshal succeeds on a value without nil elements inside lists and maps, its output is the canonical bencoding of the value: minimal decimal integers and lengths, and dictionaries whose keys are strictly increasing as raw bytes.",
  "every supported Go value (any nesting of strings, byte slices, ints, uints, slices, arrays, maps, structs, pointers, interfaces) without nil elements in lists and map values",
  "Unbounded nesting and key sets.",
  "bencode/encode.go:Marshal", "bencode/encode.go:encode", "bencode/encode.go:encodeMap", "bencode/encode.go:encodeStruct")
p("C11", "Marshal does not depend on map iteration order",
  "Two iteration orders of the same map give byte-identical output.",
  "every map value and every permutation of its entries", "Go randomises iteration; n! orders.",
  "bencode/encode.go:encodeMap")
p("C12", "Untyped round trip",
  "For every bencode value whose integers fit in int64, whose dictionaries have strictly increasing non-empty keys, Unmarshal of its canonical encoding into a nil any yields the corresponding int/string/[]any/map[string]any tree.",
  "every such bencode value, any nesting", "Unbounded trees.",
  "bencode/decode.go:decodeInterface", "bencode/decode.go:decodeSlice", "bencode/decode.go:decodeMap")
p("C13", "Typed round trip",
  "Unmarshal(Marshal(v)) into a fresh variable of v's type gives v back, for every value of a round-trippable type: strings, non-nil byte slices, ints and uints of every width, non-nil slices, arrays, non-nil maps without empty keys, and structs with plainly named fields.",
  "every round-trippable type and value", "Unbounded types and values.",
  "bencode/encode.go:encode", "bencode/decode.go:decode")
p("C14", "Custom unmarshalers receive the exact source bytes",
  "When Unmarshal hands a sub-value to an Unmarshaler, the bytes handed over are exactly the bytes of the input occupied by that sub-value, not a re-encoding.",
  "every input and every position of the sub-value", "The info hash depends on every byte of arbitrary nested input.",
  "bencode/decode.go:decodeUnmarshaler", "bencode/decode.go:consume")
p("C15", "Dictionaries with unsorted or duplicate keys are rejected everywhere",
  "If Unmarshal into any target succeeds, then in every dictionary it walked, at any depth, including skipped and raw ones, the keys are strictly increasing (so also unique and non-empty).",
  "every input, every target type, every nesting depth", "Unbounded inputs.",
  "bencode/decode.go:consumeDictionary", "bencode/decode.go:decodeMap", "bencode/decode.go:decodeStruct")
p("C16", "A decoder stops exactly at the end of the value",
  "A successful Decode consumes a prefix of the stream; its result does not depend on what follows that prefix, so back-to-back values on one Decoder decode one after the other.",
  "every input, every continuation, every target", "Unbounded continuations.",
  "bencode/decode.go:Decoder.Decode")
p("C17", "Unknown dictionary keys are skipped without effect",
  "Decoding a dictionary into a struct gives the same struct whether or not well-formed entries with keys unknown to the struct are present between the known ones.",
  "every struct type, every set of inserted unknown entries", "Unbounded insertions.",
  "bencode/decode.go:decodeStruct", "bencode/decode.go:consume")
p("C18", "Integers are parsed exactly or rejected",
  "Decoding into an int64 target succeeds with value n iff the text between i and e is an optionally signed decimal numeral of n without leading zeros (a plus sign is tolerated) and n fits in int64; for narrower targets the stored value is n wrapped to the target's width.",
  "every byte string between i and e and every target width", "Unbounded digit strings around the 2^63 boundaries.",
  "bencode/decode.go:decodeInt", "bencode/decode.go:decodeUint", "bencode/decode.go:leadingZero")
p("C19", "Unmarshal never panics on untrusted input",
  "For every byte string Unmarshal into a nil any returns a value or an error and does not panic.",
  "every byte string", "The input comes from remote trackers and torrent files.",
  "bencode/decode.go:consumeString", "bencode/decode.go:decodeString")
p("C20", "Marshal's nesting limit",
  "Marshal of a value succeeds or fails with the depth error according to whether its container nesting is at most 1000; it never emits output deeper than 1000.",
  "every value of every nesting depth", "Unbounded depth.",
  "bencode/encode.go:encodeSlice", "bencode/encode.go:encodeMap", "bencode/encode.go:encodeStruct")
p("C21", "Truncated input is never accepted",
  "If Unmarshal accepts an input consuming all of it, it accepts no proper prefix of that input.",
  "every input, every truncation point, every target", "Every crash/truncation point.",
  "bencode/decode.go:Unmarshal")
p("C22", "Unmarshal terminates on every input",
  "Decoding any byte string into any (finite) target type reaches a result; recursion depth is bounded linearly in the input length and type depth.",
  "every input and target", "Non-termination cannot be observed by a test.",
  "bencode/decode.go:decode", "bencode/decode.go:consume")
p("C23", "Reported offsets are byte positions",
  "After every successful Decode the decoder's offset, used in all its error messages, has advanced by exactly the number of bytes consumed.",
  "every input and target", "Unbounded inputs.",
  "bencode/decode.go:Decoder", "bencode/decode.go:newSyntaxError")
p("C24", "Struct field resolution is well defined",
  "For every struct type, with any embedding, each dictionary key resolves to at most one field; Marshal emits each key at most once in strictly increasing order; the resolved field is at minimal embedding depth among the candidates for the key.",
  "every struct type with arbitrary embedding depth", "Unbounded type trees.",
  "bencode/encode.go:getFieldsForStruct")
p("C25", "Marshal always emits well-formed bencoding",
  "Whenever Marshal returns without error, the output is exactly one well-formed bencode value.",
  "every value that Marshal accepts", "Unbounded values, including nil interfaces inside containers.",
  "bencode/encode.go:encode")
p("C26", "An Encoder can be reused",
  "After a successful Encode the encoder is as good as new: a later Encode on it succeeds with the same bytes as on a fresh encoder. The same is wanted after a failed Encode.",
  "every sequence of Encode calls", "Unbounded call histories.",
  "bencode/encode.go:Encoder.Encode")
p("C27", "The canonical encoding is injective and prefix-free",
  "Two different bencode values never have the same canonical encoding, and no canonical encoding is a proper prefix of another.",
  "every pair of bencode values", "Unbounded pairs.",
  "bencode/encode.go:Marshal")

# ---------------------------------------------------------------- metainfo
p("C28", "The info hash is the SHA-1 of the raw info bytes",
  "When a metainfo file is decoded, Info.SHA1 is SHA-1 of exactly the bytes of the info dictionary as they appear in the file, wherever the info key occurs and whatever unknown keys it contains.",
  "every metainfo byte string that decodes", "Any content and any position.",
  "api/metainfo/metainfo.go:Info.UnmarshalBencoding", "bencode/decode.go:consume")
p("C29", "Pieces string round trip",
  "Pieces marshals to one string of 20*n bytes; unmarshalling accepts a string iff its length is a multiple of 20 and returns its consecutive 20-byte chunks; the two are inverse.",
  "every list of hashes and every byte string", "Unbounded lists.",
  "api/metainfo/metainfo.go:Pieces.MarshalBencoding", "api/metainfo/metainfo.go:Pieces.UnmarshalBencoding")
p("C30", "Piece lengths tile the torrent",
  "For an info whose piece count is ceil(total/pieceLength), every GetPieceLength(i) is between 1 and PieceLength, all but the last equal PieceLength, and they add up to GetLength().",
  "every total, piece length and file list", "Unbounded integers and file lists.",
  "api/metainfo/metainfo.go:GetLength", "api/metainfo/metainfo.go:GetPieceLength")
p("C31", "Multi-file metainfo can be decoded",
  "Unmarshalling a well-formed multi-file info dictionary (non-empty files list) yields an Info with those files.",
  "every well-formed multi-file info dictionary", "Unbounded file lists.",
  "api/metainfo/metainfo.go:Info", "bencode/decode.go:decodeSlice")
p("C32", "Single-file metainfo round trip",
  "Marshal of a single-file metainfo followed by Unmarshal gives back the same metainfo, with SHA1 set to the hash of the marshalled info.",
  "every single-file metainfo", "Unbounded fields.",
  "api/metainfo/metainfo.go:Metainfo", "api/metainfo/metainfo.go:Info")

# ---------------------------------------------------------------- tracker api, magnet
p("C33", "Tracker request round trip through the URL query",
  "Request.Decode(Request.Encode(r)) into a zero Request gives r back, for arbitrary bytes in InfoHash, PeerID, IP and Event.",
  "every request", "All byte values must survive percent-escaping.",
  "api/tracker/tracker.go:Request.Encode", "api/tracker/tracker.go:Request.Decode")
p("C34", "Compact peer list round trip",
  "A list of IPv4 peers with ports below 65536 survives compact marshalling and unmarshalling (ids are dropped); a compact string is accepted iff its length is a multiple of 6.",
  "every list of IPv4 peers, every byte string", "Unbounded lists.",
  "api/tracker/tracker.go:compactPeers", "api/tracker/tracker.go:parseCompactPeers")
p("C35", "A malformed tracker peer list yields an error, not a crash",
  "Unmarshalling any byte string as a peer list returns a list or an error and never panics.",
  "every byte string from a tracker", "Remote-controlled input.",
  "api/tracker/tracker.go:Peers.UnmarshalBencoding", "api/tracker/tracker.go:parsePeers")
p("C36", "A non-compact peer list survives the response",
  "Marshalling a non-compact Peers value and unmarshalling it gives the same peers.",
  "every list of peers", "Unbounded lists including the empty one.",
  "api/tracker/tracker.go:Peers.MarshalBencoding", "api/tracker/tracker.go:parsePeers")
p("C37", "Magnet links: parameters are taken verbatim",
  "ParseMagnetURL on magnet:?query returns the first xt, dn, ws, all tr and x.pe values in order, percent-decoded, and fails iff xl is present, non-empty and not an int.",
  "every list of parameters", "All byte values and parameter orders.",
  "api/magnet/magnet.go:ParseMagnetURL")

# ---------------------------------------------------------------- storage
p("C38", "Only verified data is ever marked complete",
  "For a torrent whose name is a file name (not empty, '.' or '..'): in every history of PutBlock/ResetPiece/GetBlock/Load calls, file-system failures and restarts that starts from an empty directory, a piece is reported complete (bitfield, Piece.Wait returning nil, readable by GetBlock) only if data whose SHA-1 is the piece's hash is on disk for it.",
  "every history of operations, every fs failure, every restart", "Unbounded histories.",
  "storage/storage.go:PutBlock", "storage/storage.go:coalesceBlocks", "storage/storage.go:Load")
p("C39", "GetBlock returns the right bytes",
  "Whenever GetBlock(index, begin, length) succeeds, the bytes are the requested slice of verified content: of the piece while the torrent is incomplete, of the concatenation of all pieces once it is complete (multi-file: distinct paths, non-negative lengths and a non-negative offset).",
  "every history and every request", "Unbounded histories and offsets.",
  "storage/storage.go:GetBlock", "storage/storage.go:getBlockFromSingleFile", "storage/storage.go:getBlockFromPiece")
p("C40", "Crash safety of the store",
  "If the process dies at any point of any operation, then after restart Load only ever reports pieces whose file holds data with the right hash, and a finished target is the concatenation of verified pieces.",
  "every history, every crash point inside every operation including in the middle of a write", "Crash points cannot be enumerated by tests.",
  "storage/storage.go:coalesceBlocks", "storage/storage.go:coalescePiecesForSingleFile", "storage/storage.go:Load")
p("C41", "Download completes in any order of blocks",
  "Delivering all blocks of all pieces with correct content, in any order and interleaving, without fs failures, completes the torrent and leaves a target file equal to the original content.",
  "every content, every order of block deliveries", "n! orders.",
  "storage/storage.go:PutBlock", "storage/storage.go:coalescePieces")
p("C42", "Duplicate blocks are harmless",
  "A PutBlock for a block already held, for a complete piece or for a complete torrent returns ErrBlockExists and changes nothing.",
  "every reachable state, every duplicate", "Unbounded histories.",
  "storage/storage.go:PutBlock", "storage/torrent.go:putBlock")
p("C43", "PutBlock rejects everything off the block grid",
  "PutBlock never panics: for every index, begin and data it stores the block, or returns an error when the block is not one of the piece's blocks.",
  "every index, begin and data a remote peer can send", "Remote-controlled integers.",
  "storage/storage.go:checkBlockSize", "storage/torrent.go:putBlock")
p("C44", "Multi-file layout",
  "On completion of a multi-file torrent, file k holds exactly the bytes of the content between the sums of the preceding lengths; GetBlock over the files returns the same bytes as over the concatenated content, for ranges crossing any number of files, including empty ones.",
  "every file list and every range", "Unbounded file lists and ranges.",
  "storage/storage.go:coalescePiecesForMultiFile", "storage/storage.go:getBlockFromMultiFile")
p("C45", "Progress bookkeeping is consistent",
  "In every reachable state the bitfield's members are exactly the complete pieces, their number is the completed-pieces counter, and pieces never become incomplete again without a restart.",
  "every history", "Unbounded histories.",
  "storage/torrent.go:completePiece", "bitfield/bitfield.go:Add")
p("C46", "A corrupt piece can be downloaded again",
  "After a piece failed its checksum, it can be requested again: ResetPiece followed by delivery of correct blocks completes it.",
  "every history containing a checksum failure", "Unbounded histories.",
  "storage/storage.go:PutBlock", "storage/storage.go:ResetPiece", "storage/torrent.go:reset", "future/future.go:Deliver")
p("C47", "Downloaded counts the bytes of verified pieces",
  "Storage.Downloaded() equals the number of bytes of pieces completed since (plus those found by Load).",
  "every history", "Unbounded histories.",
  "storage/storage.go:PutBlock", "storage/storage.go:Load", "storage/storage.go:Downloaded")
p("C48", "Futures: one delivery, all waiters see it",
  "A future that has been delivered once lets every past and future Wait return exactly the delivered value; before delivery Wait blocks; a second Deliver panics.",
  "every interleaving of any number of waiters and deliverers", "Schedules.",
  "future/future.go:Deliver", "future/future.go:Wait")
p("C49", "Storage integrity under concurrency",
  "With any number of goroutines calling PutBlock, GetBlock and ResetPiece concurrently, under every interleaving permitted by the mutexes, the integrity and bookkeeping invariants hold at every step and every GetBlock result is a slice of verified content.",
  "every number of goroutines, every interleaving", "Schedules.",
  "storage/storage.go:GetBlock", "storage/storage.go:PutBlock", "storage/torrent.go")
p("C50", "Storage calls never deadlock",
  "Every concurrent set of PutBlock, GetBlock and ResetPiece calls can always make progress until all have returned.",
  "every interleaving", "Schedules; deadlocks are rare events.",
  "storage/storage.go:GetBlock", "storage/storage.go:PutBlock")
p("C51", "A torrent cannot write outside the target directory",
  "Every file created for a multi-file torrent lies inside the directory TargetDir/Name.",
  "every name and path list in a metainfo file", "Adversarial metainfo.",
  "storage/storage.go:coalescePiecesForMultiFile", "storage/torrent.go:FileName")
p("C52", "Block requests tile the piece and are acceptable to storage",
  "The blocks requestPiece asks for are disjoint, cover the piece exactly, are at most 16 KiB, and each passes PutBlock's size check; conversely every block that passes the check and lies inside the piece is one of them.",
  "every torrent shape and piece", "Unbounded sizes.",
  "p2p/peer.go:requestPiece", "storage/storage.go:checkBlockSize")
p("C53", "Load rejects foreign files",
  "Load never marks a piece complete because of a file that drip did not write: file names other than <index>.piece are ignored and contents are verified.",
  "every directory content", "Arbitrary directory states.",
  "storage/storage.go:Load")

# ---------------------------------------------------------------- p2p: trackers
p("C54", "Multitracker order (BEP 12)",
  "An announce tries the trackers tier by tier in order, stops at the first success, returns its response, and moves it to the front of its tier keeping the order of the others; no tracker is ever lost or duplicated; if all fail the last error is returned.",
  "every tier list, every pattern of failures, every history of announces", "Unbounded histories.",
  "p2p/multitracker.go:Multitracker.get")
p("C55", "Tier shuffling is a permutation",
  "NewMultitracker keeps the tiers in order and each tier is a permutation of the announce list's tier; without an announce list there is one tier holding the announce URL; the metainfo is not modified.",
  "every announce list and every random choice", "All random outcomes.",
  "p2p/multitracker.go:NewMultitracker")
p("C56", "An announce without error yields a usable response",
  "If Multitracker's Start/Announce returns no error, the response is non-nil and has a peer list.",
  "every tier list and tracker behaviour", "Adversarial trackers.",
  "p2p/multitracker.go:get", "p2p/server.go:Start")

# ---------------------------------------------------------------- pex
p("C57", "The tracker lists only live other peers of the same torrent",
  "Every successful announce response lists only peers that announced the same info hash within the last minute, whose last event was not stopped, and never the announcing address itself; and it lists all of those.",
  "every history of announces, clock advances and cleanups", "Unbounded histories and timing.",
  "pex/http.go:ServeHTTP", "pex/http.go:NewHTTP")
p("C58", "The tracker rejects bad announces without changing state",
  "Announces that are undecodable, for an unknown info hash, with an unparsable ip or port 0 get a 400 and leave every torrent's peer table unchanged; announces for one torrent never change another's table.",
  "every request and state", "Unbounded states.",
  "pex/http.go:ServeHTTP")
p("C59", "Every valid announce is answered",
  "A valid announce gets a 200 response whose body unmarshals to the listed peers.",
  "every state and valid request", "Unbounded states (mixed address families, empty swarms).",
  "pex/http.go:ServeHTTP", "api/tracker/tracker.go:compactPeers", "api/tracker/tracker.go:Peers.MarshalBencoding")
p("C60", "Cleanup only removes unlisted peers",
  "The periodic cleanup never changes which peers any later announce response lists (unless the removed peer announces again), and removes every stopped or expired entry.",
  "every state, time and later history", "Unbounded histories.",
  "pex/http.go:NewHTTP")

# ---------------------------------------------------------------- p2p: peer
p("C61", "Block request futures are delivered at most once and reach their waiter",
  "For every sequence of requestBlock calls, PIECE/CHOKE receptions and timeouts, no request future is delivered twice (no panic), a requestBlock returns nil only after a PIECE with the same index, begin and length arrived, and when it returns its entry is gone.",
  "every interleaving of requests, receptions and timeouts", "Schedules.",
  "p2p/peer.go:requestBlock", "p2p/peer.go:completeRequest", "p2p/peer.go:Receive")
p("C62", "No data is uploaded to a choked peer",
  "A PIECE message is sent only in response to a REQUEST for the same block handled while the peer is not choked, and carries the bytes GetBlock returned; an uploaded counter advances by exactly the bytes sent.",
  "every message history", "Unbounded histories.",
  "p2p/peer.go:HandleRequest")
p("C63", "CANCEL suppresses the request it names",
  "After a CANCEL for a block, the corresponding REQUEST is not answered, and later requests are unaffected.",
  "every message history", "Unbounded histories.",
  "p2p/peer.go:HandleCancel", "p2p/peer.go:HandleRequest")
p("C64", "Choke and interest messages alternate",
  "For any sequence of Choke/Unchoke (Interest/NotInterest) calls, the messages sent alternate, starting with unchoke (interested), and the last one sent agrees with the local flag.",
  "every sequence of calls and every interleaving of two callers", "Schedules.",
  "p2p/peer.go:Choke", "p2p/peer.go:Unchoke", "p2p/peer.go:Interest", "p2p/peer.go:NotInterest")
p("C65", "No REQUEST is sent while the remote chokes us",
  "Send refuses REQUEST messages while RemoteChoked is set and otherwise writes exactly the encoded message.",
  "every history", "Unbounded histories.",
  "p2p/peer.go:Send")
p("C66", "Only matching handshakes get connected",
  "A peer becomes active only if its handshake carried our info hash, its id is not ours, and it equals the id announced by the tracker when there was one.",
  "every handshake received", "All 2^320 handshakes.",
  "p2p/peer.go:Handshake", "p2p/server.go:Connect")

# ---------------------------------------------------------------- p2p: server
p("C67", "At most 50 active peers, one per id and ip",
  "In every history of connects and disconnects the number of active peers never exceeds 50 and no id[ip] has two active connections.",
  "every history and interleaving of Connect phases", "Schedules.",
  "p2p/server.go:Connect", "p2p/server.go:disconnect")
p("C68", "A refused connection leaves the server usable",
  "After Connect returns an error the server's lock is free, so other operations proceed, and the refused peer is not registered.",
  "every history", "Needs 50 peers or a race to show up.",
  "p2p/server.go:Connect")
p("C69", "An address is queued for dialling at most once and never after being blocked",
  "Over any history of AddPeer and Block calls each address is put in the dial queue at most once, and a blocked address is never queued nor dialled.",
  "every history", "Unbounded histories.",
  "p2p/server.go:AddPeer", "p2p/server.go:dialPeer", "p2p/server.go:Block")
p("C70", "Piece selection is sound",
  "requestPieceFromPeer starts a download only for a piece that the peer has, that we do not have, and that no other peer is currently downloading; if there is no such piece it starts nothing; it sends not-interested only when the peer has nothing we need.",
  "every state and every random tie-break", "All states and random choices.",
  "p2p/server.go:requestPieceFromPeer")
p("C71", "Rarest piece first",
  "Among the pieces that could be requested, the one held by the fewest peers is chosen.",
  "every state", "All availability distributions.",
  "p2p/server.go:requestPieceFromPeer")
p("C72", "Shutdown terminates",
  "After the context is cancelled, Stop eventually acquires the server lock and returns.",
  "every interleaving of message handling and shutdown", "Schedules.",
  "p2p/server.go:Stop", "p2p/server.go:queuePeer", "p2p/server.go:RequestPieces")
p("C73", "Disconnect removes exactly the given connection",
  "Disconnect(peer) removes that connection from the active set and the index of piece holders, and no other connection.",
  "every history of connects, blocks and disconnects", "Unbounded histories.",
  "p2p/server.go:disconnect", "p2p/server.go:Block")
p("C74", "Messages from a remote peer cannot crash the client",
  "HandleMessage returns nil or an error for every decoded message in every state, never panicking.",
  "every message and state", "Remote-controlled input.",
  "p2p/peer.go:HandleMessage", "p2p/peer.go:HandleHave", "storage/storage.go:PutBlock", "storage/storage.go:GetBlock")

p("C75", "A torrent's name cannot make Load report data that is not there",
  "Whatever the name in the metainfo, a piece reported by Load has verified data on disk, as long as only drip writes to its directories.",
  "every name, every history", "Adversarial metainfo.",
  "storage/storage.go:Load", "storage/torrent.go:FileName")
p("C76", "Blocks of reported pieces can always be read",
  "GetBlock of a range inside a piece reported complete succeeds unless the file system fails during that call.",
  "every history, every range", "Unbounded histories including earlier file-system failures.",
  "storage/storage.go:GetBlock", "storage/storage.go:coalescePiecesForSingleFile")
p("C77", "A struct is decoded field by field",
  "Each field of a decoded struct is the zero value if the dictionary has no entry with its key, and else what unmarshalling that entry's bytes alone gives; the other entries do not influence it.",
  "every struct with plain fields, every dictionary", "Unbounded dictionaries and types.",
  "bencode/decode.go:decodeStruct", "api/metainfo/metainfo.go:Metainfo")
p("C78", "A tracker response survives the trip to the client",
  "Unmarshalling a marshalled response gives the same failure and warning texts, intervals, counts and tracker id, and the same peers in the same order (without ids in the compact form); a missing peer list stays missing.",
  "every response", "Unbounded peer lists and texts.",
  "api/tracker/tracker.go:Response,Peers.MarshalBencoding,Peers.UnmarshalBencoding", "bencode/encode.go:encodeStruct", "bencode/decode.go:decodeStruct")
p("C79", "An announce reports how much is left",
  "The `left` parameter of an announce is the number of bytes of the pieces that are not yet verified.",
  "every torrent, every history of downloads and restarts", "Depends on the whole history and on the torrent's shape.",
  "p2p/multitracker.go:Tracker.get", "storage/storage.go:Downloaded", "api/metainfo/metainfo.go:Info")
p("C80", "An announce identifies the torrent and the client",
  "A tracker that decodes the query of an announce gets the torrent's info hash, the client's id and listening port, its counters, the event and the wish for a compact answer.",
  "every client state and event", "Arbitrary bytes in hashes and ids, arbitrary counters.",
  "p2p/multitracker.go:Tracker.get", "api/tracker/tracker.go:Request.Encode,Request.Decode")
p("C81", "Announces at the same time lose no tracker",
  "While a periodic announce is waiting for a tracker, the server may be stopped, which announces too; whatever the order of the answers, every tracker is afterwards still in its tier, once.",
  "every interleaving of announces", "Needs a particular interleaving of two network requests.",
  "p2p/multitracker.go:Multitracker.get", "p2p/server.go:Server.Announce,Server.Stop")

p("C82", "The tracker lists a peer with its current id",
  "In the non-compact form, a peer is listed with the id it gave in its latest announce.",
  "every history of announces", "Needs a client that restarts within a minute.",
  "pex/http.go:ServeHTTP")
p("C83", "A client learns the swarm from the tracker",
  "In a swarm of IPv4 peers with ports below 65536, a client that announces to this tracker learns exactly the other peers that announced the torrent within the last minute and have not stopped, each once and never itself, and is listed to others afterwards.",
  "every tracker history, every client state", "Unbounded histories, both ends of the protocol together.",
  "pex/http.go:ServeHTTP", "p2p/multitracker.go:Tracker.get", "api/tracker/tracker.go:Request,Response,Peers")

p("C84", "Never two live connections to the same peer",
  "At no time are two connections to the same id and ip being served, also when peers get blocked and come back.",
  "every history of connects, disconnects and blocks", "Needs particular interleavings of three connections and a bad piece.",
  "p2p/server.go:Server.Connect,Server.Block,Server.disconnect", "p2p/peer.go:Peer.serve")

p("C90", "Availability counts",
  "The number of peers counted for a piece when the rarest one is chosen is the number of connected peers that have announced that piece and are still connected.",
  "every history of connections, messages and downloads", "Unbounded histories; the table is changed by several handlers.",
  "p2p/peer.go:HandleHave", "p2p/server.go:disconnect", "p2p/server.go:requestPieceFromPeer")

p("C85", "The bitfield comes first",
  "The first message sent on a connection after the handshake is a BITFIELD, and only the first is one.",
  "every history of connections, messages and downloads", "Unbounded histories; HAVE is sent by other goroutines.",
  "p2p/server.go:Connect", "p2p/server.go:requestPiece", "p2p/peer.go:Send")
p("C86", "Only pieces that are on disk are announced",
  "Every piece announced to a peer, in the BITFIELD or in a HAVE, is on disk with the right SHA-1 and length.",
  "every history of the server on a storage in any reachable state", "Unbounded histories; links the server with the storage.",
  "p2p/server.go:Connect", "p2p/server.go:requestPiece", "storage/storage.go:PutBlock")
p("C87", "Only genuine data is uploaded",
  "The data in every PIECE sent to a peer is what the torrent has at the requested place, according to the SHA-1 hashes of the metainfo.",
  "every history of the server, every request", "Unbounded histories and arbitrary requests.",
  "p2p/peer.go:HandleRequest", "storage/storage.go:GetBlock")
p("C88", "Peers given by a tracker can be connected to",
  "Every peer with a valid address and port that a tracker gives, and that is not blocked, is connected to if it accepts connections.",
  "every address", "All addresses.",
  "p2p/server.go:dialPeer", "p2p/tracker.go")
p("C89", "Connections that are over are closed",
  "When the goroutine that serves a connection has ended, the connection is closed.",
  "every history", "Unbounded histories; all ways in which a connection is refused.",
  "p2p/peer.go:serve", "p2p/server.go:Connect", "p2p/server.go:disconnect")
p("C91", "Peers are told of new pieces",
  "When a piece becomes complete every connected peer is sent a HAVE for it.",
  "every history", "Unbounded histories.",
  "p2p/server.go:requestPiece", "p2p/server.go:requestPieceFromPeer")

p("C92", "Well-formed traffic cannot crash the client",
  "If peers only send messages about pieces and blocks that the torrent has, and the machine does not fail, the client does not crash, whatever data the peers send and in whatever order things happen.",
  "every history of well-formed messages, downloads and connections", "Needs all orders of arrival, timeouts and downloads.",
  "p2p/server.go:requestPieceFromPeer", "p2p/peer.go:requestPiece", "storage/storage.go:ResetPiece", "storage/torrent.go:reset", "future/future.go:Deliver")

p("C93", "An arriving block reaches the request that waits for it",
  "When a PIECE for a requested block, or a CHOKE, has arrived since a request for that block was registered, the request is woken with the result that the first such message decides.",
  "every interleaving of requests, receptions and timeouts", "Schedules.",
  "p2p/peer.go:requestBlock", "p2p/peer.go:completeRequest", "p2p/peer.go:Receive")

p("C94", "One piece at a time from a peer",
  "At any time at most one piece is being downloaded from a peer, and at most one goroutine is looking for a piece to download from it, however often the peer chokes, unchokes and announces pieces.",
  "every history of connections, messages and downloads", "Unbounded histories; the set of queued peers is changed by several goroutines.",
  "p2p/server.go:QueuePeer", "p2p/server.go:queuePeer", "p2p/server.go:RequestPieces", "p2p/server.go:requestPieceFromPeer", "p2p/server.go:requestPiece")
p("C95", "We are interested in peers that have what we lack",
  "As long as a connected peer has announced a piece that we do not have, the last message about interest that it got (unless a write to it failed) is INTERESTED; and INTERESTED is sent only in answer to a message that announces a piece that we do not have.",
  "every history of connections, messages and downloads on a storage in any reachable state", "Unbounded histories; pieces become complete at any time.",
  "p2p/peer.go:HandleHave", "p2p/peer.go:Interest", "p2p/peer.go:NotInterest", "p2p/server.go:requestPieceFromPeer")
p("C96", "What counts as downloaded",
  "The number of bytes reported as downloaded is the number of bytes of the blocks that the storage has accepted, for each connection and in total; blocks that were already there or were refused do not count.",
  "every history of connections, messages and downloads", "Unbounded histories.",
  "p2p/peer.go:HandlePiece", "p2p/server.go:Downloaded", "storage/storage.go:PutBlock")
p("C97", "A block that we already have is harmless",
  "A PIECE with a block of a piece that is complete leaves the connection, the counters and the storage as they were; a block that the storage refuses for another reason ends the connection.",
  "every history, every message", "Unbounded histories.",
  "p2p/peer.go:HandlePiece", "p2p/peer.go:HandleMessage", "storage/storage.go:PutBlock")
p("C98", "Only peers that sent wrong data are blocked",
  "When an address is blocked, a peer connected from it has sent a block that differs from the data of the torrent.",
  "every history of connections, messages and downloads", "Needs histories with several peers that send blocks of one piece.",
  "p2p/server.go:Block", "p2p/server.go:requestPiece", "p2p/peer.go:HandlePiece")
p("C99", "A useful peer is not forgotten",
  "As long as a connected peer does not choke us and has announced a piece that we do not have, there is a goroutine that downloads a piece from it, chooses one, or waits to try again.",
  "every history of connections, messages and downloads before the server is stopped", "Unbounded histories; a peer dropped from the queue at the wrong moment would never be asked again.",
  "p2p/server.go:queuePeer", "p2p/server.go:RequestPieces", "p2p/server.go:requestPieceFromPeer", "p2p/server.go:requestPiece", "p2p/peer.go:HandleMessage")
p("C100", "Only blocks of announced pieces are requested",
  "Every REQUEST sent to a peer is for a block (a multiple of 16 KiB from the start, 16 KiB long or up to the end of the piece) of a piece that this peer has announced.",
  "every history of connections, messages and downloads", "Unbounded histories.",
  "p2p/peer.go:requestPiece", "p2p/server.go:requestPieceFromPeer", "p2p/peer.go:HandleHave")

p("C101", "A client goes on until it is told to stop",
  "After Start, as long as Stop is not called, Start does not return: connections are accepted, peers dialled, pieces requested and the tracker is asked again and again.",
  "every history of answers of trackers, connections and timers", "Unbounded histories; one failure hours after the start is enough.",
  "p2p/server.go:Start", "p2p/server.go:Serve", "p2p/server.go:Announce", "p2p/server.go:every")
p("C102", "No answer of a tracker crashes the client",
  "Whatever a tracker answers, Start and the periodic announces handle it or return an error; the process does not crash.",
  "every history; every answer", "All answers; a tracker is not trusted.",
  "p2p/server.go:Start", "p2p/server.go:Announce", "p2p/server.go:every", "p2p/multitracker.go:get")
p("C103", "What the tracker is told, and when",
  "The tracker is told `started` first and once, then it is asked regularly without an event, it is told `stopped` once, and nothing afterwards.",
  "every history; every interleaving of Start, Stop, timers and answers", "Schedules.",
  "p2p/server.go:Start", "p2p/server.go:Stop", "p2p/server.go:every", "p2p/multitracker.go:get")
p("C104", "The tracker is told when the download is complete",
  "When all pieces have been downloaded the tracker is told `completed`.",
  "every history", "Absence of an event in every history.",
  "p2p/multitracker.go:Complete", "p2p/server.go:Start")
p("C105", "Start and Stop return after Stop",
  "After Stop is called, it returns, Start returns, and the listening socket is closed.",
  "every interleaving of Start, Stop, timers, connections and answers", "Schedules.",
  "p2p/server.go:Stop", "p2p/server.go:Start", "p2p/server.go:every")
p("C106", "A client can be started again",
  "Load, which Start calls first, can be called again in the same process; it reports the pieces that have verified data on disk.",
  "every history of the storage", "Unbounded histories.",
  "storage/storage.go:Load", "storage/torrent.go:completePiece", "p2p/server.go:Start")

p("C107", "How the operating system cuts reads does not matter",
  "When the pieces are put together, the target files contain exactly the pieces' data in order, each file with its length, whatever number of bytes single reads of the pieces' files return; if no call fails and there are enough bytes, putting them together succeeds.",
  "every number and content of pieces; every list of file lengths; every sequence of short reads and failures", "Short reads depend on the operating system and cannot be provoked by a test; all splits of all contents.",
  "storage/lazy_file_reader.go:Read", "storage/lazy_file_reader.go:WriteTo", "storage/storage.go:coalescePiecesForSingleFile", "storage/storage.go:coalescePiecesForMultiFile")
p("C108", "Files of pieces are closed",
  "While pieces are put together at most one of their files is open, however many pieces there are, and afterwards none is.",
  "every number and content of pieces; every list of file lengths; every sequence of short reads and failures", "A leaked file is not visible in the result; all failures at all points.",
  "storage/lazy_file_reader.go:checkOpen", "storage/lazy_file_reader.go:checkClose", "storage/storage.go:coalescePiecesForMultiFile")

p("C109", "A download from seeders can always be completed",
  "When all peers are seeders that answer what they are asked and no download of a piece times out, nothing goes wrong (no panic, no lock left held, no connection closed, nothing wrong in the target), and from every point of the download there is a way on that ends with exactly the content on disk, no working directory, and success reported for every piece and the torrent.",
  "every torrent content and layout; up to 50 seeders that join at any time, dialled or accepted; every interleaving; every failure of our writes", "Unbounded interleavings; a dead end anywhere in the state space would be a hang.",
  "p2p/server.go:requestPieces", "p2p/server.go:requestPiece", "p2p/peer.go:Serve", "p2p/peer.go:Connect", "storage/torrent.go:putBlock", "storage/storage.go:coalesce")

p("C110", "The address of a peer that has left can be used again",
  "A connection is refused before the handshake only if 50 peers are connected or a peer is connected from that address; once a peer's connection has ended, its address no longer counts as in use.",
  "every history of connections, messages, failures and disconnections", "Unbounded histories; entries left behind in a table show only much later.",
  "p2p/server.go:Connect", "p2p/server.go:disconnect", "p2p/peer.go:Connect")
p("C111", "Conflicts between embedded fields are resolved by one rule",
  "Of several fields with the same key, the one nested least deeply is used; among those at the same depth the one with a tag; if that leaves more than one, none. The order in which they are declared does not matter.",
  "every struct type", "Unbounded nesting and numbers of fields.",
  "bencode/encode.go:getFieldsForStruct")

p("C112", "Torrent files are read as BEP 3 lays them out",
  "Unmarshal of a torrent file succeeds exactly if the text begins with a dictionary (keys increasing, unknown keys well-formed) in which each known entry has its type (strings, 64-bit integers, lists of lists of strings, a multiple of 20 bytes of hashes, an info dictionary without files in a list), and each field then holds what is at its BEP 3 key, or its zero value without such an entry.",
  "every text", "All texts, with all combinations of present, absent, unknown and malformed entries.",
  "api/metainfo/metainfo.go:Metainfo", "api/metainfo/metainfo.go:Info", "bencode/decode.go:Unmarshal")
p("C113", "Torrent files are written as BEP 3 lays them out",
  "Marshal of a torrent or of its info dictionary, with one file or many, passed by value or by pointer, writes exactly the BEP 3 dictionary: the keys in order, optional entries left out when empty, pieces as one string, times as Unix seconds, files as dictionaries with length, md5sum and path.",
  "every content of the fields", "All contents; a wrong key survives every round-trip test.",
  "api/metainfo/metainfo.go:Metainfo", "api/metainfo/metainfo.go:Info", "api/metainfo/metainfo.go:File", "bencode/encode.go:Marshal")

p("C114", "Tracker responses are read as BEP 3 and BEP 23 lay them out",
  "Unmarshal of a tracker response succeeds exactly if the text begins with a dictionary (keys increasing, unknown keys well-formed) in which each known entry has its type, and each field then holds what is at its key or its zero value; the peers may be a list of dictionaries with ip, peer id and port, or a string of six bytes per peer, and are read in order either way.",
  "every text", "All texts, with all combinations of present, absent, unknown and malformed entries.",
  "api/tracker/tracker.go:Response", "api/tracker/tracker.go:Peers.UnmarshalBencoding", "bencode/decode.go:Unmarshal")
p("C115", "Tracker responses are written as BEP 3 and BEP 23 lay them out",
  "Marshal of a tracker response writes exactly the dictionary with the keys in order, optional entries left out when empty, and the peers either as a list of dictionaries or, in the compact form, as four bytes of address and two bytes of port for each peer; a compact list with an address that is not IPv4 is refused.",
  "every response", "All contents; a wrong key survives every round-trip test.",
  "api/tracker/tracker.go:Response", "api/tracker/tracker.go:Peers.MarshalBencoding", "bencode/encode.go:Marshal")
p("C116", "A field is stored under the name in its tag",
  "The key of a field of a struct is the name given in its tag, else the name of the field in lower case; fields tagged - and unexported fields are neither read nor written; a field with omitempty is left out when it is empty; the keys used for reading are those used for writing.",
  "every struct type and value", "Unbounded types and names.",
  "bencode/encode.go:getFieldsForStruct", "bencode/encode.go:parseTag", "bencode/decode.go:Unmarshal")

p("C117", "A peer that does not read does not hold up the others",
  "A peer that stops reading what it is sent does not keep the client from handling the messages of other peers, from finishing and continuing downloads from them, or from stopping; goroutines of the client never wait for each other for ever.",
  "every number of connections, every sequence of messages, every interleaving; peers stop reading and read again at any time", "Blocked writes need full socket buffers and unlucky schedules; all interleavings of all goroutines.",
  "p2p/peer.go:Send", "p2p/server.go:Connect", "p2p/server.go:requestPieceFromPeer", "p2p/server.go:requestPiece", "p2p/server.go:Stop")
p("C118", "No shared data is used by two goroutines at once",
  "No map, and no set of pieces, is used by two goroutines of the client at the same time while one of them writes it. (Go ends the whole program when it sees that for a map.)",
  "every number of connections, every sequence of messages, every interleaving", "The race detector sees only the schedules of the run.",
  "p2p/server.go:requestPieceFromPeer", "p2p/server.go:Connect", "p2p/server.go:disconnect", "p2p/peer.go:HandleHave", "p2p/peer.go:requestBlock", "p2p/peer.go:Receive")
p("C119", "A piece fails its checksum only if wrong data was put into it",
  "If PutBlock reports a checksum failure of a piece, or waiting for the piece does, then since the process was started or the piece was last reset a block was put into it whose data is not what the content of the piece has at that place.",
  "every history of calls, failures of the disk, crashes and restarts", "Duplicates, refused blocks, failures of the disk and other pieces, in all orders.",
  "storage/storage.go:PutBlock", "storage/storage.go:coalesceBlocks", "storage/torrent.go:putBlock", "storage/torrent.go:reset")

p("C120", "A download from seeders is completed if nothing is neglected for ever",
  "If all connections are with seeders of the torrent that answer what they are asked, at least one joins, no piece times out, and every goroutine that can go on does so eventually, then from some moment on the file or directory holds the content, and the torrent and each of its pieces are reported as complete.",
  "every infinite execution: all schedules, sizes, orders of answers, failed writes, repeated requests and moments at which seeders join", "It is about infinite executions; a test sees finitely many schedules and cannot tell slow from stuck.",
  "p2p/server.go:requestPieceFromPeer", "p2p/server.go:RequestPieces", "p2p/server.go:requestPiece", "p2p/peer.go:requestPiece", "p2p/peer.go:HandlePiece", "storage/storage.go:PutBlock", "storage/storage.go:coalesceBlocks")

p("C121", "A message or handshake that is decoded into again shows only what was read",
  "Decode and UnmarshalBinary into a Message or Handshake that already has a value succeed exactly when they do for a new one; then the type, all getters and the encoding are those of the message that was read, whatever the value was before; on an error the value is unchanged.",
  "every previous value, every stream of bytes in any portions", "All pairs of message types, and all moments at which reading can fail.",
  "api/peer/peer.go:Decode", "api/peer/peer.go:UnmarshalBinary", "api/peer/peer.go:Index", "api/peer/peer.go:Begin", "api/peer/peer.go:Length", "api/peer/peer.go:Piece", "api/peer/peer.go:Bitfield")
p("C122", "A message is written completely, or the failure is reported",
  "Write of a message or handshake to any writer that keeps the contract of io.Writer returns nil exactly if every call of the writer succeeded, and then exactly the bytes of the protocol were written; otherwise it returns an error and a first part of them was written. It never panics. A message is reported as written only if all of it was taken, also by a writer that breaks the contract. MarshalBinary gives these bytes and UnmarshalBinary reads them back.",
  "every message and handshake, every writer: every number of bytes taken before a failure, at every call", "Failures at every byte of every message.",
  "api/peer/peer.go:Write", "api/peer/peer.go:Encode", "api/peer/peer.go:MarshalBinary", "api/peer/peer.go:UnmarshalBinary")
p("C123", "Reading a message takes no more memory than was sent",
  "The buffers that ReadMessage allocates are together not larger than what the peer has sent, up to a constant.",
  "every stream of bytes", "It is about all streams, also those that are never continued.",
  "api/peer/peer.go:Decode", "api/peer/peer.go:ReadMessage")
p("C124", "A client that has the whole torrent is a seeder",
  "A client that has the whole torrent, because it started with it or because it has downloaded it and its downloads are over, never changes its files and, as long as peers send messages about pieces and blocks that exist, never crashes. On a connection made from then on, on which no write fails and only existing pieces are announced, it sends a BITFIELD with all pieces first and after that only blocks and at most one UNCHOKE: it asks for nothing, announces nothing and never chokes again. To an unchoked peer that asks for a part of a piece, and has not cancelled it, it sends exactly that part of the content.",
  "every history of a client with a complete torrent, with any number of connections and any failures", "All orders of messages, connections and failures.",
  "p2p/peer.go:HandleMessage", "p2p/peer.go:HandleHave", "p2p/peer.go:HandleRequest", "p2p/server.go:Connect", "p2p/server.go:requestPieceFromPeer", "storage/storage.go:GetBlock", "storage/storage.go:PutBlock")
p("C125", "A client downloads the torrent from clients of the same kind",
  "A client that has nothing and is connected only with other clients of this kind that have the whole torrent, having started with it or downloaded it, and have unchoked it gets it: if the connections work, no piece times out, no shutdown is requested and every goroutine of all clients that can go on does so eventually, then from some moment on its file or directory holds the content, and the torrent and each of its pieces are reported as complete. Until then neither side kills the other or breaks the connection: each reads what the other wrote, in that order, and everything that the one that downloads reads is what it asked for.",
  "every number of clients and every infinite execution: all schedules of all clients, all sizes, all moments at which they join, whatever the others do on their other connections", "Two or more processes with many goroutines each, in every interleaving; and it is about what happens eventually.",
  "p2p/server.go:Connect", "p2p/server.go:requestPieceFromPeer", "p2p/server.go:requestPiece", "p2p/peer.go:HandleMessage", "p2p/peer.go:HandleRequest", "p2p/peer.go:HandlePiece", "p2p/peer.go:HandleHave", "p2p/peer.go:HandleBitfield", "storage/storage.go:GetBlock", "storage/storage.go:PutBlock")
p("C126", "A client that has downloaded the torrent from clients passes it on",
  "A client that has nothing and downloads from other clients of this kind ends up as a client that they are: from some moment on it has the whole torrent, none of its downloads is under way, and nothing that it has read can kill it. Therefore everything that is true of clients that have the torrent (they never change their files, answer every request with the right bytes, and clients that are connected with them get the torrent) is true of it with respect to every connection that is made from then on.",
  "every number of clients, every infinite execution in which nothing is neglected for ever, and every continuation", "It is about what happens eventually, and about every later behaviour; tests stop when the download is finished.",
  "p2p/server.go:requestPieceFromPeer", "p2p/server.go:requestPiece", "p2p/server.go:Connect", "p2p/peer.go:HandleMessage", "storage/storage.go:PutBlock", "storage/storage.go:GetBlock")

p("C127", "An interrupted download can always be finished",
  "Whatever earlier processes did to the storage (any blocks, right or wrong, in any order, resets, failures of the disk, death anywhere), a new process can load what is there, and the right blocks of the pieces that it did not find, in any order, any number of times, complete the torrent; the result is made of verified data of all pieces. Only failures of the disk in the new process prevent this.",
  "every history of any number of processes, every failure and every point of death, every order of blocks", "Unbounded histories with failures in every place.",
  "storage/storage.go:Load", "storage/storage.go:PutBlock", "storage/storage.go:coalescePieces")

p("C128", "Reading a block never panics",
  "GetBlock returns data or an error for every index, offset and length, in every state; it never panics.",
  "every history, every index, offset and length", "Remote-controlled input in every state of the storage.",
  "storage/storage.go:GetBlock", "storage/storage.go:getBlockFromPiece")

p("C129", "What was decoded can be encoded again",
  "Whatever Unmarshal reads into a nil any, Marshal can write; the result is the canonical form of the text, the text itself if that was canonical, and is read as the same value.",
  "every text", "Over all texts, of any size and nesting; the two directions have different limits.",
  "bencode/decode.go:Unmarshal", "bencode/encode.go:Marshal")

p("C130", "Nesting in untrusted text is limited",
  "There is a number of nested calls that is enough for Unmarshal, whatever the text (Go ends the process when the stack is used up), as there is for Marshal.",
  "every text", "The worst text depends on the limit; tests use small texts.",
  "bencode/decode.go:decode", "bencode/decode.go:consume", "p2p/multitracker.go:Announce")

p("C131", "A variable can be decoded into again",
  "What Unmarshal leaves in a variable is what the text says, whatever the variable held before.",
  "every text, every type, every value that the variable held", "Two texts, one after the other, each of any size and nesting; unit tests decode into new variables.",
  "bencode/decode.go:Unmarshal", "bencode/decode.go:decode", "bencode/decode.go:decodeSlice", "bencode/decode.go:decodeMap", "bencode/decode.go:decodeStruct", "bencode/decode.go:decodeInterface")

p("C132", "Serving blocks leaves no files open",
  "When GetBlock has returned, every file that it opened is closed, whatever the operating system did.",
  "every torrent, every state, every request, every pattern of failing calls, any number of calls", "Failures of single calls of the operating system at every point; a leak shows only after many.",
  "storage/storage.go:getBlockFromMultiFile", "storage/storage.go:getBlockFromSingleFile", "storage/storage.go:getBlockFromPiece")

p("C133", "Answering a request takes no more memory than a piece",
  "Whatever index, offset and length a peer asks for, GetBlock allocates buffers that are together not larger than a piece.",
  "every torrent, every state, every index, offset and length", "Remote-controlled numbers of 32 bits.",
  "storage/storage.go:GetBlock", "storage/storage.go:getBlockFromMultiFile", "storage/storage.go:getBlockFromSingleFile", "p2p/peer.go:HandleRequest")

p("C134", "What is remembered of a peer's CANCELs is bounded by the torrent",
  "However many CANCELs a peer sends, for whatever blocks, the client remembers at most one per byte of the torrent.",
  "every history of a connection", "Unbounded histories.",
  "p2p/peer.go:HandleCancel", "p2p/peer.go:HandleRequest")
p("C135", "A download that fails gives the piece back",
  "When the request of a piece fails, because the peer does not answer in time or chokes us or the connection is gone, the piece can be requested again from any peer in line that has it, the peer itself is put in line again, and nothing else changes: no connection is closed, no address blocked, no data lost, and the other downloads go on.",
  "every history of the server and every download in it", "Requests fail at any moment of unbounded interleavings.",
  "p2p/server.go:requestPieceFromPeer", "p2p/peer.go:requestPiece", "p2p/peer.go:requestBlock")
p("C136", "A refused announce is told why",
  "An announce that the tracker refuses is answered with a bencoded response whose failure reason says what is wrong with it, nothing changes, and the client that sent the announce gets an error.",
  "every state of the tracker, every request, every client", "Composition of the query parser, the tracker, the encoder, the decoder and the client for unbounded inputs.",
  "pex/http.go:ServeHTTP", "p2p/multitracker.go:Tracker.get", "api/tracker/tracker.go:Request.Decode")

p("C137", "From the tracker to the torrent",
  "A client that starts with nothing and announces to a tracker of this program can get connected with exactly the others that have announced within the last minute and have not stopped, and from any of them that has the torrent it can download all of it.",
  "every history of the tracker with an IPv4 swarm of at most 50 live others, every torrent, every seeder among them", "Composes the tracker's tables, the text of the query and of the response, the address list, dialling, the handshake and the whole download.",
  "pex/http.go:ServeHTTP", "p2p/multitracker.go:get", "p2p/server.go:Start", "p2p/server.go:AddPeer", "p2p/server.go:DialPeers", "p2p/server.go:dialPeer")

p("C138", "Temporary files do not outlive the call",
  "When a call of the storage has returned, or the process that made it has died and another has been started, the temporary files the call created are gone and the files it opened are closed.",
  "every history of calls, every failing system call, every moment at which the process dies", "Failures and deaths at any of an unbounded number of moments.",
  "storage/storage.go:coalesceBlocks", "storage/storage.go:coalescePiecesForSingleFile", "storage/storage.go:coalescePiecesForMultiFile", "storage/storage.go:Load")

p("C139", "An Encoder reports that its writer failed",
  "When the writer of an Encoder returns an error, Encode returns that error without calling the writer again, and the writer has taken a beginning of the text that Marshal would have returned; when it returns none, it has taken all of that text.",
  "every type and value, every encoder, every writer that fails at any call after any number of bytes", "The number of calls of the writer is unbounded, each can fail.",
  "bencode/encode.go:NewEncoder", "bencode/encode.go:Encode", "bencode/encode.go:writeByte", "bencode/encode.go:writeString", "bencode/encode.go:encodeSlice", "bencode/encode.go:encodeStruct")

p("C140", "A Decoder reports that its reader failed",
  "When the reader of a Decoder fails, Decode returns that error if the value was not complete; if a whole value was delivered before, Decode returns it as Unmarshal would. Any other error is one that the whole text would have given, whatever was to follow.",
  "every type, variable and text, every reader that fails after any number of bytes, however its reads are cut", "The text is unbounded and the reader can fail after every byte of it.",
  "bencode/decode.go:NewDecoder", "bencode/decode.go:Decode", "bencode/decode.go:consume", "bencode/decode.go:decodeString", "bencode/decode.go:decodeSlice", "bencode/decode.go:decodeStruct")

if __name__ == "__main__":
    out = os.path.join(os.path.dirname(os.path.abspath(__file__)), "..", "properties.jsonl")
    assert len({q["id"] for q in P}) == len(P)
    with open(out, "w") as f:
        for q in P:
            f.write(json.dumps(q) + "\n")
    print(len(P))
