{"id": "C01", "title": "A bitfield is the set of the indices added to it", "statement": "After bitfield.New(n) and any sequence of Add calls with indices in 0..n-1, no call panics and Has(i) is true exactly for the indices i that were added.", "quantifier": "every n, every sequence of in-range Add calls, every queried index in range", "why_tests_cant": "The state space is every subset of every range; table tests check two bytes.", "anchors": ["bitfield/bitfield.go:New", "bitfield/bitfield.go:Bitfield.Has", "bitfield/bitfield.go:Bitfield.Add"]}
{"id": "C02", "title": "Items lists exactly the members, in strictly increasing order", "statement": "For every bitfield b, Items(b) contains i iff Has(i) is true, has no duplicates and is strictly increasing.", "quantifier": "every byte string used as a bitfield", "why_tests_cant": "2^(8n) bitfields for every n.", "anchors": ["bitfield/bitfield.go:Bitfield.Items"]}
{"id": "C03", "title": "Difference is set difference for any two lengths", "statement": "Difference(b,a) has the length of b, and its members are exactly the members of b that are not members of a, also when a is shorter or longer than b.", "quantifier": "every pair of bitfields of any lengths", "why_tests_cant": "Unbounded pairs of byte strings.", "anchors": ["bitfield/bitfield.go:Bitfield.Difference"]}
{"id": "C04", "title": "Index bounds of Has and Add", "statement": "Has(i) and Add(i) panic exactly when i <= -8 or i >= 8*len(b) (or b is empty); for -7 <= i <= -1 on a non-empty bitfield Has is false and Add does nothing; for a bitfield from New(n) every 0<=i<n is in bounds, and Add never changes the length.", "quantifier": "every bitfield and every integer index", "why_tests_cant": "The integer index is remote-controlled (HAVE messages) and unbounded.", "anchors": ["bitfield/bitfield.go:Bitfield.Has", "bitfield/bitfield.go:Bitfield.Add", "p2p/peer.go:HandleHave"]}
{"id": "C05", "title": "Peer messages survive the wire and are self-delimiting", "statement": "For every message built by the constructors whose integer fields fit in 32 bits and whose payload fits the 32-bit length, decoding its encoding followed by any further bytes yields the same message and leaves exactly those further bytes unread.", "quantifier": "every message, every continuation of the stream", "why_tests_cant": "All field values and payloads; tests check ten literals.", "anchors": ["api/peer/peer.go:Message.Encode", "api/peer/peer.go:Message.Decode"]}
{"id": "C06", "title": "A stream of messages decodes to the same sequence", "statement": "Writing any list of messages one after the other and reading the stream with repeated ReadMessage yields the same list and then end of file; distinct message lists have distinct byte streams.", "quantifier": "every finite sequence of messages", "why_tests_cant": "Unbounded sequences.", "anchors": ["api/peer/peer.go:ReadMessage", "api/peer/peer.go:Write"]}
{"id": "C07", "title": "ReadMessage on arbitrary bytes: exact panic set", "statement": "On every byte stream ReadMessage returns an error exactly when the stream ends before the announced frame; it panics exactly when the complete frame carries a type byte 4, 6, 7 or 8 with a body shorter than 4, 12, 8, 12 bytes; otherwise it returns a message and consumes exactly 4+length bytes.", "quantifier": "every byte stream a remote peer can send", "why_tests_cant": "The remote peer controls all bytes.", "anchors": ["api/peer/peer.go:Message.Decode"]}
{"id": "C08", "title": "Handshake round trip and strict acceptance", "statement": "Handshake.Encode writes exactly 68 bytes; Decode accepts a stream iff it starts with byte 19, 'BitTorrent protocol' and 48 more bytes, and then returns bytes 28..47 as InfoHash and 48..67 as PeerID whatever the 8 reserved bytes are; decoding an encoded handshake gives it back.", "quantifier": "every handshake and every byte stream", "why_tests_cant": "All 2^320 hash/id pairs and all malformed streams.", "anchors": ["api/peer/peer.go:Handshake.Encode", "api/peer/peer.go:Handshake.Decode"]}
{"id": "C09", "title": "Fragmentation of the TCP stream does not matter", "statement": "ReadMessage and ReadHandshake give the same result, and leave the same unread bytes, for every way the same byte stream is split into (non-empty) network reads.", "quantifier": "every byte stream and every segmentation of it into reads", "why_tests_cant": "Segmentation is chosen by the network; exponentially many splits.", "anchors": ["api/peer/peer.go:Message.Decode", "api/peer/peer.go:Handshake.Decode"]}
{"id": "C10", "title": "Marshal produces canonical bencoding", "statement": "Whenever Marshal succeeds on a value without nil elements inside lists and maps, its output is the canonical bencoding of the value: minimal decimal integers and lengths, and dictionaries whose keys are strictly increasing as raw bytes.", "quantifier": "every supported Go value (any nesting of strings, byte slices, ints, uints, slices, arrays, maps, structs, pointers, interfaces) without nil elements in lists and map values", "why_tests_cant": "Unbounded nesting and key sets.", "anchors": ["bencode/encode.go:Marshal", "bencode/encode.go:encode", "bencode/encode.go:encodeMap", "bencode/encode.go:encodeStruct"]}
{"id": "C11", "title": "Marshal does not depend on map iteration order", "statement": "Two iteration orders of the same map give byte-identical output.", "quantifier": "every map value and every permutation of its entries", "why_tests_cant": "Go randomises iteration; n! orders.", "anchors": ["bencode/encode.go:encodeMap"]}
{"id": "C12", "title": "Untyped round trip", "statement": "For every bencode value whose integers fit in int64, whose dictionaries have strictly increasing non-empty keys, Unmarshal of its canonical encoding into a nil any yields the corresponding int/string/[]any/map[string]any tree.", "quantifier": "every such bencode value, any nesting", "why_tests_cant": "Unbounded trees.", "anchors": ["bencode/decode.go:decodeInterface", "bencode/decode.go:decodeSlice", "bencode/decode.go:decodeMap"]}
{"id": "C13", "title": "Typed round trip", "statement": "Unmarshal(Marshal(v)) into a fresh variable of v's type gives v back, for every value of a round-trippable type: strings, non-nil byte slices, ints and uints of every width, non-nil slices, arrays, non-nil maps without empty keys, and structs with plainly named fields.", "quantifier": "every round-trippable type and value", "why_tests_cant": "Unbounded types and values.", "anchors": ["bencode/encode.go:encode", "bencode/decode.go:decode"]}
{"id": "C14", "title": "Custom unmarshalers receive the exact source bytes", "statement": "When Unmarshal hands a sub-value to an Unmarshaler, the bytes handed over are exactly the bytes of the input occupied by that sub-value, not a re-encoding.", "quantifier": "every input and every position of the sub-value", "why_tests_cant": "The info hash depends on every byte of arbitrary nested input.", "anchors": ["bencode/decode.go:decodeUnmarshaler", "bencode/decode.go:consume"]}
{"id": "C15", "title": "Dictionaries with unsorted or duplicate keys are rejected everywhere", "statement": "If Unmarshal into any target succeeds, then in every dictionary it walked, at any depth, including skipped and raw ones, the keys are strictly increasing (so also unique and non-empty).", "quantifier": "every input, every target type, every nesting depth", "why_tests_cant": "Unbounded inputs.", "anchors": ["bencode/decode.go:consumeDictionary", "bencode/decode.go:decodeMap", "bencode/decode.go:decodeStruct"]}
{"id": "C16", "title": "A decoder stops exactly at the end of the value", "statement": "A successful Decode consumes a prefix of the stream; its result does not depend on what follows that prefix, so back-to-back values on one Decoder decode one after the other.", "quantifier": "every input, every continuation, every target", "why_tests_cant": "Unbounded continuations.", "anchors": ["bencode/decode.go:Decoder.Decode"]}
{"id": "C17", "title": "Unknown dictionary keys are skipped without effect", "statement": "Decoding a dictionary into a struct gives the same struct whether or not well-formed entries with keys unknown to the struct are present between the known ones.", "quantifier": "every struct type, every set of inserted unknown entries", "why_tests_cant": "Unbounded insertions.", "anchors": ["bencode/decode.go:decodeStruct", "bencode/decode.go:consume"]}
{"id": "C18", "title": "Integers are parsed exactly or rejected", "statement": "Decoding into an int64 target succeeds with value n iff the text between i and e is an optionally signed decimal numeral of n without leading zeros (a plus sign is tolerated) and n fits in int64; for narrower targets the stored value is n wrapped to the target's width.", "quantifier": "every byte string between i and e and every target width", "why_tests_cant": "Unbounded digit strings around the 2^63 boundaries.", "anchors": ["bencode/decode.go:decodeInt", "bencode/decode.go:decodeUint", "bencode/decode.go:leadingZero"]}
{"id": "C19", "title": "Unmarshal never panics on untrusted input", "statement": "For every byte string Unmarshal into a nil any returns a value or an error and does not panic.", "quantifier": "every byte string", "why_tests_cant": "The input comes from remote trackers and torrent files.", "anchors": ["bencode/decode.go:consumeString", "bencode/decode.go:decodeString"]}
{"id": "C20", "title": "Marshal's nesting limit", "statement": "Marshal of a value succeeds or fails with the depth error according to whether its container nesting is at most 1000; it never emits output deeper than 1000.", "quantifier": "every value of every nesting depth", "why_tests_cant": "Unbounded depth.", "anchors": ["bencode/encode.go:encodeSlice", "bencode/encode.go:encodeMap", "bencode/encode.go:encodeStruct"]}
{"id": "C21", "title": "Truncated input is never accepted", "statement": "If Unmarshal accepts an input consuming all of it, it accepts no proper prefix of that input.", "quantifier": "every input, every truncation point, every target", "why_tests_cant": "Every crash/truncation point.", "anchors": ["bencode/decode.go:Unmarshal"]}
{"id": "C22", "title": "Unmarshal terminates on every input", "statement": "Decoding any byte string into any (finite) target type reaches a result; recursion depth is bounded linearly in the input length and type depth.", "quantifier": "every input and target", "why_tests_cant": "Non-termination cannot be observed by a test.", "anchors": ["bencode/decode.go:decode", "bencode/decode.go:consume"]}
{"id": "C23", "title": "Reported offsets are byte positions", "statement": "After every successful Decode the decoder's offset, used in all its error messages, has advanced by exactly the number of bytes consumed.", "quantifier": "every input and target", "why_tests_cant": "Unbounded inputs.", "anchors": ["bencode/decode.go:Decoder", "bencode/decode.go:newSyntaxError"]}
{"id": "C24", "title": "Struct field resolution is well defined", "statement": "For every struct type, with any embedding, each dictionary key resolves to at most one field; Marshal emits each key at most once in strictly increasing order; the resolved field is at minimal embedding depth among the candidates for the key.", "quantifier": "every struct type with arbitrary embedding depth", "why_tests_cant": "Unbounded type trees.", "anchors": ["bencode/encode.go:getFieldsForStruct"]}
{"id": "C25", "title": "Marshal always emits well-formed bencoding", "statement": "Whenever Marshal returns without error, the output is exactly one well-formed bencode value.", "quantifier": "every value that Marshal accepts", "why_tests_cant": "Unbounded values, including nil interfaces inside containers.", "anchors": ["bencode/encode.go:encode"]}
{"id": "C26", "title": "An Encoder can be reused", "statement": "After a successful Encode the encoder is as good as new: a later Encode on it succeeds with the same bytes as on a fresh encoder. The same is wanted after a failed Encode.", "quantifier": "every sequence of Encode calls", "why_tests_cant": "Unbounded call histories.", "anchors": ["bencode/encode.go:Encoder.Encode"]}
{"id": "C27", "title": "The canonical encoding is injective and prefix-free", "statement": "Two different bencode values never have the same canonical encoding, and no canonical encoding is a proper prefix of another.", "quantifier": "every pair of bencode values", "why_tests_cant": "Unbounded pairs.", "anchors": ["bencode/encode.go:Marshal"]}
{"id": "C28", "title": "The info hash is the SHA-1 of the raw info bytes", "statement": "When a metainfo file is decoded, Info.SHA1 is SHA-1 of exactly the bytes of the info dictionary as they appear in the file, wherever the info key occurs and whatever unknown keys it contains.", "quantifier": "every metainfo byte string that decodes", "why_tests_cant": "Any content and any position.", "anchors": ["api/metainfo/metainfo.go:Info.UnmarshalBencoding", "bencode/decode.go:consume"]}
{"id": "C29", "title": "Pieces string round trip", "statement": "Pieces marshals to one string of 20*n bytes; unmarshalling accepts a string iff its length is a multiple of 20 and returns its consecutive 20-byte chunks; the two are inverse.", "quantifier": "every list of hashes and every byte string", "why_tests_cant": "Unbounded lists.", "anchors": ["api/metainfo/metainfo.go:Pieces.MarshalBencoding", "api/metainfo/metainfo.go:Pieces.UnmarshalBencoding"]}
{"id": "C30", "title": "Piece lengths tile the torrent", "statement": "For an info whose piece count is ceil(total/pieceLength), every GetPieceLength(i) is between 1 and PieceLength, all but the last equal PieceLength, and they add up to GetLength().", "quantifier": "every total, piece length and file list", "why_tests_cant": "Unbounded integers and file lists.", "anchors": ["api/metainfo/metainfo.go:GetLength", "api/metainfo/metainfo.go:GetPieceLength"]}
{"id": "C31", "title": "Multi-file metainfo can be decoded", "statement": "Unmarshalling a well-formed multi-file info dictionary (non-empty files list) yields an Info with those files.", "quantifier": "every well-formed multi-file info dictionary", "why_tests_cant": "Unbounded file lists.", "anchors": ["api/metainfo/metainfo.go:Info", "bencode/decode.go:decodeSlice"]}
{"id": "C32", "title": "Single-file metainfo round trip", "statement": "Marshal of a single-file metainfo followed by Unmarshal gives back the same metainfo, with SHA1 set to the hash of the marshalled info.", "quantifier": "every single-file metainfo", "why_tests_cant": "Unbounded fields.", "anchors": ["api/metainfo/metainfo.go:Metainfo", "api/metainfo/metainfo.go:Info"]}
{"id": "C33", "title": "Tracker request round trip through the URL query", "statement": "Request.Decode(Request.Encode(r)) into a zero Request gives r back, for arbitrary bytes in InfoHash, PeerID, IP and Event.", "quantifier": "every request", "why_tests_cant": "All byte values must survive percent-escaping.", "anchors": ["api/tracker/tracker.go:Request.Encode", "api/tracker/tracker.go:Request.Decode"]}
{"id": "C34", "title": "Compact peer list round trip", "statement": "A list of IPv4 peers with ports below 65536 survives compact marshalling and unmarshalling (ids are dropped); a compact string is accepted iff its length is a multiple of 6.", "quantifier": "every list of IPv4 peers, every byte string", "why_tests_cant": "Unbounded lists.", "anchors": ["api/tracker/tracker.go:compactPeers", "api/tracker/tracker.go:parseCompactPeers"]}
{"id": "C35", "title": "A malformed tracker peer list yields an error, not a crash", "statement": "Unmarshalling any byte string as a peer list returns a list or an error and never panics.", "quantifier": "every byte string from a tracker", "why_tests_cant": "Remote-controlled input.", "anchors": ["api/tracker/tracker.go:Peers.UnmarshalBencoding", "api/tracker/tracker.go:parsePeers"]}
{"id": "C36", "title": "A non-compact peer list survives the response", "statement": "Marshalling a non-compact Peers value and unmarshalling it gives the same peers.", "quantifier": "every list of peers", "why_tests_cant": "Unbounded lists including the empty one.", "anchors": ["api/tracker/tracker.go:Peers.MarshalBencoding", "api/tracker/tracker.go:parsePeers"]}
{"id": "C37", "title": "Magnet links: parameters are taken verbatim", "statement": "ParseMagnetURL on magnet:?query returns the first xt, dn, ws, all tr and x.pe values in order, percent-decoded, and fails iff xl is present, non-empty and not an int.", "quantifier": "every list of parameters", "why_tests_cant": "All byte values and parameter orders.", "anchors": ["api/magnet/magnet.go:ParseMagnetURL"]}
{"id": "C38", "title": "Only verified data is ever marked complete", "statement": "For a torrent whose name is a file name (not empty, '.' or '..'): in every history of PutBlock/ResetPiece/GetBlock/Load calls, file-system failures and restarts that starts from an empty directory, a piece is reported complete (bitfield, Piece.Wait returning nil, readable by GetBlock) only if data whose SHA-1 is the piece's hash is on disk for it.", "quantifier": "every history of operations, every fs failure, every restart", "why_tests_cant": "Unbounded histories.", "anchors": ["storage/storage.go:PutBlock", "storage/storage.go:coalesceBlocks", "storage/storage.go:Load"]}
{"id": "C39", "title": "GetBlock returns the right bytes", "statement": "Whenever GetBlock(index, begin, length) succeeds, the bytes are the requested slice of verified content: of the piece while the torrent is incomplete, of the concatenation of all pieces once it is complete (multi-file: distinct paths, non-negative lengths and a non-negative offset).", "quantifier": "every history and every request", "why_tests_cant": "Unbounded histories and offsets.", "anchors": ["storage/storage.go:GetBlock", "storage/storage.go:getBlockFromSingleFile", "storage/storage.go:getBlockFromPiece"]}
{"id": "C40", "title": "Crash safety of the store", "statement": "If the process dies at any point of any operation, then after restart Load only ever reports pieces whose file holds data with the right hash, and a finished target is the concatenation of verified pieces.", "quantifier": "every history, every crash point inside every operation including in the middle of a write", "why_tests_cant": "Crash points cannot be enumerated by tests.", "anchors": ["storage/storage.go:coalesceBlocks", "storage/storage.go:coalescePiecesForSingleFile", "storage/storage.go:Load"]}
{"id": "C41", "title": "Download completes in any order of blocks", "statement": "Delivering all blocks of all pieces with correct content, in any order and interleaving, without fs failures, completes the torrent and leaves a target file equal to the original content.", "quantifier": "every content, every order of block deliveries", "why_tests_cant": "n! orders.", "anchors": ["storage/storage.go:PutBlock", "storage/storage.go:coalescePieces"]}
{"id": "C42", "title": "Duplicate blocks are harmless", "statement": "A PutBlock for a block already held, for a complete piece or for a complete torrent returns ErrBlockExists and changes nothing.", "quantifier": "every reachable state, every duplicate", "why_tests_cant": "Unbounded histories.", "anchors": ["storage/storage.go:PutBlock", "storage/torrent.go:putBlock"]}
{"id": "C43", "title": "PutBlock rejects everything off the block grid", "statement": "PutBlock never panics: for every index, begin and data it stores the block, or returns an error when the block is not one of the piece's blocks.", "quantifier": "every index, begin and data a remote peer can send", "why_tests_cant": "Remote-controlled integers.", "anchors": ["storage/storage.go:checkBlockSize", "storage/torrent.go:putBlock"]}
{"id": "C44", "title": "Multi-file layout", "statement": "On completion of a multi-file torrent, file k holds exactly the bytes of the content between the sums of the preceding lengths; GetBlock over the files returns the same bytes as over the concatenated content, for ranges crossing any number of files, including empty ones.", "quantifier": "every file list and every range", "why_tests_cant": "Unbounded file lists and ranges.", "anchors": ["storage/storage.go:coalescePiecesForMultiFile", "storage/storage.go:getBlockFromMultiFile"]}
{"id": "C45", "title": "Progress bookkeeping is consistent", "statement": "In every reachable state the bitfield's members are exactly the complete pieces, their number is the completed-pieces counter, and pieces never become incomplete again without a restart.", "quantifier": "every history", "why_tests_cant": "Unbounded histories.", "anchors": ["storage/torrent.go:completePiece", "bitfield/bitfield.go:Add"]}
{"id": "C46", "title": "A corrupt piece can be downloaded again", "statement": "After a piece failed its checksum, it can be requested again: ResetPiece followed by delivery of correct blocks completes it.", "quantifier": "every history containing a checksum failure", "why_tests_cant": "Unbounded histories.", "anchors": ["storage/storage.go:PutBlock", "storage/storage.go:ResetPiece", "storage/torrent.go:reset", "future/future.go:Deliver"]}
{"id": "C47", "title": "Downloaded counts the bytes of verified pieces", "statement": "Storage.Downloaded() equals the number of bytes of pieces completed since (plus those found by Load).", "quantifier": "every history", "why_tests_cant": "Unbounded histories.", "anchors": ["storage/storage.go:PutBlock", "storage/storage.go:Load", "storage/storage.go:Downloaded"]}
{"id": "C48", "title": "Futures: one delivery, all waiters see it", "statement": "A future that has been delivered once lets every past and future Wait return exactly the delivered value; before delivery Wait blocks; a second Deliver panics.", "quantifier": "every interleaving of any number of waiters and deliverers", "why_tests_cant": "Schedules.", "anchors": ["future/future.go:Deliver", "future/future.go:Wait"]}
{"id": "C49", "title": "Storage integrity under concurrency", "statement": "With any number of goroutines calling PutBlock, GetBlock and ResetPiece concurrently, under every interleaving permitted by the mutexes, the integrity and bookkeeping invariants hold at every step and every GetBlock result is a slice of verified content.", "quantifier": "every number of goroutines, every interleaving", "why_tests_cant": "Schedules.", "anchors": ["storage/storage.go:GetBlock", "storage/storage.go:PutBlock", "storage/torrent.go"]}
{"id": "C50", "title": "Storage calls never deadlock", "statement": "Every concurrent set of PutBlock, GetBlock and ResetPiece calls can always make progress until all have returned.", "quantifier": "every interleaving", "why_tests_cant": "Schedules; deadlocks are rare events.", "anchors": ["storage/storage.go:GetBlock", "storage/storage.go:PutBlock"]}
{"id": "C51", "title": "A torrent cannot write outside the target directory", "statement": "Every file created for a multi-file torrent lies inside the directory TargetDir/Name.", "quantifier": "every name and path list in a metainfo file", "why_tests_cant": "Adversarial metainfo.", "anchors": ["storage/storage.go:coalescePiecesForMultiFile", "storage/torrent.go:FileName"]}
{"id": "C52", "title": "Block requests tile the piece and are acceptable to storage", "statement": "The blocks requestPiece asks for are disjoint, cover the piece exactly, are at most 16 KiB, and each passes PutBlock's size check; conversely every block that passes the check and lies inside the piece is one of them.", "quantifier": "every torrent shape and piece", "why_tests_cant": "Unbounded sizes.", "anchors": ["p2p/peer.go:requestPiece", "storage/storage.go:checkBlockSize"]}
{"id": "C53", "title": "Load rejects foreign files", "statement": "Load never marks a piece complete because of a file that drip did not write: file names other than <index>.piece are ignored and contents are verified.", "quantifier": "every directory content", "why_tests_cant": "Arbitrary directory states.", "anchors": ["storage/storage.go:Load"]}
{"id": "C54", "title": "Multitracker order (BEP 12)", "statement": "An announce tries the trackers tier by tier in order, stops at the first success, returns its response, and moves it to the front of its tier keeping the order of the others; no tracker is ever lost or duplicated; if all fail the last error is returned.", "quantifier": "every tier list, every pattern of failures, every history of announces", "why_tests_cant": "Unbounded histories.", "anchors": ["p2p/multitracker.go:Multitracker.get"]}
{"id": "C55", "title": "Tier shuffling is a permutation", "statement": "NewMultitracker keeps the tiers in order and each tier is a permutation of the announce list's tier; without an announce list there is one tier holding the announce URL; the metainfo is not modified.", "quantifier": "every announce list and every random choice", "why_tests_cant": "All random outcomes.", "anchors": ["p2p/multitracker.go:NewMultitracker"]}
{"id": "C56", "title": "An announce without error yields a usable response", "statement": "If Multitracker's Start/Announce returns no error, the response is non-nil and has a peer list.", "quantifier": "every tier list and tracker behaviour", "why_tests_cant": "Adversarial trackers.", "anchors": ["p2p/multitracker.go:get", "p2p/server.go:Start"]}
{"id": "C57", "title": "The tracker lists only live other peers of the same torrent", "statement": "Every successful announce response lists only peers that announced the same info hash within the last minute, whose last event was not stopped, and never the announcing address itself; and it lists all of those.", "quantifier": "every history of announces, clock advances and cleanups", "why_tests_cant": "Unbounded histories and timing.", "anchors": ["pex/http.go:ServeHTTP", "pex/http.go:NewHTTP"]}
{"id": "C58", "title": "The tracker rejects bad announces without changing state", "statement": "Announces that are undecodable, for an unknown info hash, with an unparsable ip or port 0 get a 400 and leave every torrent's peer table unchanged; announces for one torrent never change another's table.", "quantifier": "every request and state", "why_tests_cant": "Unbounded states.", "anchors": ["pex/http.go:ServeHTTP"]}
{"id": "C59", "title": "Every valid announce is answered", "statement": "A valid announce gets a 200 response whose body unmarshals to the listed peers.", "quantifier": "every state and valid request", "why_tests_cant": "Unbounded states (mixed address families, empty swarms).", "anchors": ["pex/http.go:ServeHTTP", "api/tracker/tracker.go:compactPeers", "api/tracker/tracker.go:Peers.MarshalBencoding"]}
{"id": "C60", "title": "Cleanup only removes unlisted peers", "statement": "The periodic cleanup never changes which peers any later announce response lists (unless the removed peer announces again), and removes every stopped or expired entry.", "quantifier": "every state, time and later history", "why_tests_cant": "Unbounded histories.", "anchors": ["pex/http.go:NewHTTP"]}
{"id": "C61", "title": "Block request futures are delivered at most once and reach their waiter", "statement": "For every sequence of requestBlock calls, PIECE/CHOKE receptions and timeouts, no request future is delivered twice (no panic), a requestBlock returns nil only after a PIECE with the same index, begin and length arrived, and when it returns its entry is gone.", "quantifier": "every interleaving of requests, receptions and timeouts", "why_tests_cant": "Schedules.", "anchors": ["p2p/peer.go:requestBlock", "p2p/peer.go:completeRequest", "p2p/peer.go:Receive"]}
{"id": "C62", "title": "No data is uploaded to a choked peer", "statement": "A PIECE message is sent only in response to a REQUEST for the same block handled while the peer is not choked, and carries the bytes GetBlock returned; an uploaded counter advances by exactly the bytes sent.", "quantifier": "every message history", "why_tests_cant": "Unbounded histories.", "anchors": ["p2p/peer.go:HandleRequest"]}
{"id": "C63", "title": "CANCEL suppresses the request it names", "statement": "After a CANCEL for a block, the corresponding REQUEST is not answered, and later requests are unaffected.", "quantifier": "every message history", "why_tests_cant": "Unbounded histories.", "anchors": ["p2p/peer.go:HandleCancel", "p2p/peer.go:HandleRequest"]}
{"id": "C64", "title": "Choke and interest messages alternate", "statement": "For any sequence of Choke/Unchoke (Interest/NotInterest) calls, the messages sent alternate, starting with unchoke (interested), and the last one sent agrees with the local flag.", "quantifier": "every sequence of calls and every interleaving of two callers", "why_tests_cant": "Schedules.", "anchors": ["p2p/peer.go:Choke", "p2p/peer.go:Unchoke", "p2p/peer.go:Interest", "p2p/peer.go:NotInterest"]}
{"id": "C65", "title": "No REQUEST is sent while the remote chokes us", "statement": "Send refuses REQUEST messages while RemoteChoked is set and otherwise writes exactly the encoded message.", "quantifier": "every history", "why_tests_cant": "Unbounded histories.", "anchors": ["p2p/peer.go:Send"]}
{"id": "C66", "title": "Only matching handshakes get connected", "statement": "A peer becomes active only if its handshake carried our info hash, its id is not ours, and it equals the id announced by the tracker when there was one.", "quantifier": "every handshake received", "why_tests_cant": "All 2^320 handshakes.", "anchors": ["p2p/peer.go:Handshake", "p2p/server.go:Connect"]}
{"id": "C67", "title": "At most 50 active peers, one per id and ip", "statement": "In every history of connects and disconnects the number of active peers never exceeds 50 and no id[ip] has two active connections.", "quantifier": "every history and interleaving of Connect phases", "why_tests_cant": "Schedules.", "anchors": ["p2p/server.go:Connect", "p2p/server.go:disconnect"]}
{"id": "C68", "title": "A refused connection leaves the server usable", "statement": "After Connect returns an error the server's lock is free, so other operations proceed, and the refused peer is not registered.", "quantifier": "every history", "why_tests_cant": "Needs 50 peers or a race to show up.", "anchors": ["p2p/server.go:Connect"]}
{"id": "C69", "title": "An address is queued for dialling at most once and never after being blocked", "statement": "Over any history of AddPeer and Block calls each address is put in the dial queue at most once, and a blocked address is never queued nor dialled.", "quantifier": "every history", "why_tests_cant": "Unbounded histories.", "anchors": ["p2p/server.go:AddPeer", "p2p/server.go:dialPeer", "p2p/server.go:Block"]}
{"id": "C70", "title": "Piece selection is sound", "statement": "requestPieceFromPeer starts a download only for a piece that the peer has, that we do not have, and that no other peer is currently downloading; if there is no such piece it starts nothing; it sends not-interested only when the peer has nothing we need.", "quantifier": "every state and every random tie-break", "why_tests_cant": "All states and random choices.", "anchors": ["p2p/server.go:requestPieceFromPeer"]}
{"id": "C71", "title": "Rarest piece first", "statement": "Among the pieces that could be requested, the one held by the fewest peers is chosen.", "quantifier": "every state", "why_tests_cant": "All availability distributions.", "anchors": ["p2p/server.go:requestPieceFromPeer"]}
{"id": "C72", "title": "Shutdown terminates", "statement": "After the context is cancelled, Stop eventually acquires the server lock and returns.", "quantifier": "every interleaving of message handling and shutdown", "why_tests_cant": "Schedules.", "anchors": ["p2p/server.go:Stop", "p2p/server.go:queuePeer", "p2p/server.go:RequestPieces"]}
{"id": "C73", "title": "Disconnect removes exactly the given connection", "statement": "Disconnect(peer) removes that connection from the active set and the index of piece holders, and no other connection.", "quantifier": "every history of connects, blocks and disconnects", "why_tests_cant": "Unbounded histories.", "anchors": ["p2p/server.go:disconnect", "p2p/server.go:Block"]}
{"id": "C74", "title": "Messages from a remote peer cannot crash the client", "statement": "HandleMessage returns nil or an error for every decoded message in every state, never panicking.", "quantifier": "every message and state", "why_tests_cant": "Remote-controlled input.", "anchors": ["p2p/peer.go:HandleMessage", "p2p/peer.go:HandleHave", "storage/storage.go:PutBlock", "storage/storage.go:GetBlock"]}
{"id": "C75", "title": "A torrent's name cannot make Load report data that is not there", "statement": "Whatever the name in the metainfo, a piece reported by Load has verified data on disk, as long as only drip writes to its directories.", "quantifier": "every name, every history", "why_tests_cant": "Adversarial metainfo.", "anchors": ["storage/storage.go:Load", "storage/torrent.go:FileName"]}
{"id": "C76", "title": "Blocks of reported pieces can always be read", "statement": "GetBlock of a range inside a piece reported complete succeeds unless the file system fails during that call.", "quantifier": "every history, every range", "why_tests_cant": "Unbounded histories including earlier file-system failures.", "anchors": ["storage/storage.go:GetBlock", "storage/storage.go:coalescePiecesForSingleFile"]}
{"id": "C77", "title": "A struct is decoded field by field", "statement": "Each field of a decoded struct is the zero value if the dictionary has no entry with its key, and else what unmarshalling that entry's bytes alone gives; the other entries do not influence it.", "quantifier": "every struct with plain fields, every dictionary", "why_tests_cant": "Unbounded dictionaries and types.", "anchors": ["bencode/decode.go:decodeStruct", "api/metainfo/metainfo.go:Metainfo"]}
{"id": "C78", "title": "A tracker response survives the trip to the client", "statement": "Unmarshalling a marshalled response gives the same failure and warning texts, intervals, counts and tracker id, and the same peers in the same order (without ids in the compact form); a missing peer list stays missing.", "quantifier": "every response", "why_tests_cant": "Unbounded peer lists and texts.", "anchors": ["api/tracker/tracker.go:Response,Peers.MarshalBencoding,Peers.UnmarshalBencoding", "bencode/encode.go:encodeStruct", "bencode/decode.go:decodeStruct"]}
{"id": "C79", "title": "An announce reports how much is left", "statement": "The `left` parameter of an announce is the number of bytes of the pieces that are not yet verified.", "quantifier": "every torrent, every history of downloads and restarts", "why_tests_cant": "Depends on the whole history and on the torrent's shape.", "anchors": ["p2p/multitracker.go:Tracker.get", "storage/storage.go:Downloaded", "api/metainfo/metainfo.go:Info"]}
{"id": "C80", "title": "An announce identifies the torrent and the client", "statement": "A tracker that decodes the query of an announce gets the torrent's info hash, the client's id and listening port, its counters, the event and the wish for a compact answer.", "quantifier": "every client state and event", "why_tests_cant": "Arbitrary bytes in hashes and ids, arbitrary counters.", "anchors": ["p2p/multitracker.go:Tracker.get", "api/tracker/tracker.go:Request.Encode,Request.Decode"]}
{"id": "C81", "title": "Announces at the same time lose no tracker", "statement": "While a periodic announce is waiting for a tracker, the server may be stopped, which announces too; whatever the order of the answers, every tracker is afterwards still in its tier, once.", "quantifier": "every interleaving of announces", "why_tests_cant": "Needs a particular interleaving of two network requests.", "anchors": ["p2p/multitracker.go:Multitracker.get", "p2p/server.go:Server.Announce,Server.Stop"]}
{"id": "C82", "title": "The tracker lists a peer with its current id", "statement": "In the non-compact form, a peer is listed with the id it gave in its latest announce.", "quantifier": "every history of announces", "why_tests_cant": "Needs a client that restarts within a minute.", "anchors": ["pex/http.go:ServeHTTP"]}
{"id": "C83", "title": "A client learns the swarm from the tracker", "statement": "In a swarm of IPv4 peers with ports below 65536, a client that announces to this tracker learns exactly the other peers that announced the torrent within the last minute and have not stopped, each once and never itself, and is listed to others afterwards.", "quantifier": "every tracker history, every client state", "why_tests_cant": "Unbounded histories, both ends of the protocol together.", "anchors": ["pex/http.go:ServeHTTP", "p2p/multitracker.go:Tracker.get", "api/tracker/tracker.go:Request,Response,Peers"]}
{"id": "C84", "title": "Never two live connections to the same peer", "statement": "At no time are two connections to the same id and ip being served, also when peers get blocked and come back.", "quantifier": "every history of connects, disconnects and blocks", "why_tests_cant": "Needs particular interleavings of three connections and a bad piece.", "anchors": ["p2p/server.go:Server.Connect,Server.Block,Server.disconnect", "p2p/peer.go:Peer.serve"]}
{"id": "C90", "title": "Availability counts", "statement": "The number of peers counted for a piece when the rarest one is chosen is the number of connected peers that have announced that piece and are still connected.", "quantifier": "every history of connections, messages and downloads", "why_tests_cant": "Unbounded histories; the table is changed by several handlers.", "anchors": ["p2p/peer.go:HandleHave", "p2p/server.go:disconnect", "p2p/server.go:requestPieceFromPeer"]}
{"id": "C85", "title": "The bitfield comes first", "statement": "The first message sent on a connection after the handshake is a BITFIELD, and only the first is one.", "quantifier": "every history of connections, messages and downloads", "why_tests_cant": "Unbounded histories; HAVE is sent by other goroutines.", "anchors": ["p2p/server.go:Connect", "p2p/server.go:requestPiece", "p2p/peer.go:Send"]}
{"id": "C86", "title": "Only pieces that are on disk are announced", "statement": "Every piece announced to a peer, in the BITFIELD or in a HAVE, is on disk with the right SHA-1 and length.", "quantifier": "every history of the server on a storage in any reachable state", "why_tests_cant": "Unbounded histories; links the server with the storage.", "anchors": ["p2p/server.go:Connect", "p2p/server.go:requestPiece", "storage/storage.go:PutBlock"]}
{"id": "C87", "title": "Only genuine data is uploaded", "statement": "The data in every PIECE sent to a peer is what the torrent has at the requested place, according to the SHA-1 hashes of the metainfo.", "quantifier": "every history of the server, every request", "why_tests_cant": "Unbounded histories and arbitrary requests.", "anchors": ["p2p/peer.go:HandleRequest", "storage/storage.go:GetBlock"]}
{"id": "C88", "title": "Peers given by a tracker can be connected to", "statement": "Every peer with a valid address and port that a tracker gives, and that is not blocked, is connected to if it accepts connections.", "quantifier": "every address", "why_tests_cant": "All addresses.", "anchors": ["p2p/server.go:dialPeer", "p2p/tracker.go"]}
{"id": "C89", "title": "Connections that are over are closed", "statement": "When the goroutine that serves a connection has ended, the connection is closed.", "quantifier": "every history", "why_tests_cant": "Unbounded histories; all ways in which a connection is refused.", "anchors": ["p2p/peer.go:serve", "p2p/server.go:Connect", "p2p/server.go:disconnect"]}
{"id": "C91", "title": "Peers are told of new pieces", "statement": "When a piece becomes complete every connected peer is sent a HAVE for it.", "quantifier": "every history", "why_tests_cant": "Unbounded histories.", "anchors": ["p2p/server.go:requestPiece", "p2p/server.go:requestPieceFromPeer"]}
{"id": "C92", "title": "Well-formed traffic cannot crash the client", "statement": "If peers only send messages about pieces and blocks that the torrent has, and the machine does not fail, the client does not crash, whatever data the peers send and in whatever order things happen.", "quantifier": "every history of well-formed messages, downloads and connections", "why_tests_cant": "Needs all orders of arrival, timeouts and downloads.", "anchors": ["p2p/server.go:requestPieceFromPeer", "p2p/peer.go:requestPiece", "storage/storage.go:ResetPiece", "storage/torrent.go:reset", "future/future.go:Deliver"]}
{"id": "C93", "title": "An arriving block reaches the request that waits for it", "statement": "When a PIECE for a requested block, or a CHOKE, has arrived since a request for that block was registered, the request is woken with the result that the first such message decides.", "quantifier": "every interleaving of requests, receptions and timeouts", "why_tests_cant": "Schedules.", "anchors": ["p2p/peer.go:requestBlock", "p2p/peer.go:completeRequest", "p2p/peer.go:Receive"]}
{"id": "C94", "title": "One piece at a time from a peer", "statement": "At any time at most one piece is being downloaded from a peer, and at most one goroutine is looking for a piece to download from it, however often the peer chokes, unchokes and announces pieces.", "quantifier": "every history of connections, messages and downloads", "why_tests_cant": "Unbounded histories; the set of queued peers is changed by several goroutines.", "anchors": ["p2p/server.go:QueuePeer", "p2p/server.go:queuePeer", "p2p/server.go:RequestPieces", "p2p/server.go:requestPieceFromPeer", "p2p/server.go:requestPiece"]}
{"id": "C95", "title": "We are interested in peers that have what we lack", "statement": "As long as a connected peer has announced a piece that we do not have, the last message about interest that it got (unless a write to it failed) is INTERESTED; and INTERESTED is sent only in answer to a message that announces a piece that we do not have.", "quantifier": "every history of connections, messages and downloads on a storage in any reachable state", "why_tests_cant": "Unbounded histories; pieces become complete at any time.", "anchors": ["p2p/peer.go:HandleHave", "p2p/peer.go:Interest", "p2p/peer.go:NotInterest", "p2p/server.go:requestPieceFromPeer"]}
{"id": "C96", "title": "What counts as downloaded", "statement": "The number of bytes reported as downloaded is the number of bytes of the blocks that the storage has accepted, for each connection and in total; blocks that were already there or were refused do not count.", "quantifier": "every history of connections, messages and downloads", "why_tests_cant": "Unbounded histories.", "anchors": ["p2p/peer.go:HandlePiece", "p2p/server.go:Downloaded", "storage/storage.go:PutBlock"]}
{"id": "C97", "title": "A block that we already have is harmless", "statement": "A PIECE with a block of a piece that is complete leaves the connection, the counters and the storage as they were; a block that the storage refuses for another reason ends the connection.", "quantifier": "every history, every message", "why_tests_cant": "Unbounded histories.", "anchors": ["p2p/peer.go:HandlePiece", "p2p/peer.go:HandleMessage", "storage/storage.go:PutBlock"]}
{"id": "C98", "title": "Only peers that sent wrong data are blocked", "statement": "When an address is blocked, a peer connected from it has sent a block that differs from the data of the torrent.", "quantifier": "every history of connections, messages and downloads", "why_tests_cant": "Needs histories with several peers that send blocks of one piece.", "anchors": ["p2p/server.go:Block", "p2p/server.go:requestPiece", "p2p/peer.go:HandlePiece"]}
{"id": "C99", "title": "A useful peer is not forgotten", "statement": "As long as a connected peer does not choke us and has announced a piece that we do not have, there is a goroutine that downloads a piece from it, chooses one, or waits to try again.", "quantifier": "every history of connections, messages and downloads before the server is stopped", "why_tests_cant": "Unbounded histories; a peer dropped from the queue at the wrong moment would never be asked again.", "anchors": ["p2p/server.go:queuePeer", "p2p/server.go:RequestPieces", "p2p/server.go:requestPieceFromPeer", "p2p/server.go:requestPiece", "p2p/peer.go:HandleMessage"]}
{"id": "C100", "title": "Only blocks of announced pieces are requested", "statement": "Every REQUEST sent to a peer is for a block (a multiple of 16 KiB from the start, 16 KiB long or up to the end of the piece) of a piece that this peer has announced.", "quantifier": "every history of connections, messages and downloads", "why_tests_cant": "Unbounded histories.", "anchors": ["p2p/peer.go:requestPiece", "p2p/server.go:requestPieceFromPeer", "p2p/peer.go:HandleHave"]}
{"id": "C101", "title": "A client goes on until it is told to stop", "statement": "After Start, as long as Stop is not called, Start does not return: connections are accepted, peers dialled, pieces requested and the tracker is asked again and again.", "quantifier": "every history of answers of trackers, connections and timers", "why_tests_cant": "Unbounded histories; one failure hours after the start is enough.", "anchors": ["p2p/server.go:Start", "p2p/server.go:Serve", "p2p/server.go:Announce", "p2p/server.go:every"]}
{"id": "C102", "title": "No answer of a tracker crashes the client", "statement": "Whatever a tracker answers, Start and the periodic announces handle it or return an error; the process does not crash.", "quantifier": "every history; every answer", "why_tests_cant": "All answers; a tracker is not trusted.", "anchors": ["p2p/server.go:Start", "p2p/server.go:Announce", "p2p/server.go:every", "p2p/multitracker.go:get"]}
{"id": "C103", "title": "What the tracker is told, and when", "statement": "The tracker is told `started` first and once, then it is asked regularly without an event, it is told `stopped` once, and nothing afterwards.", "quantifier": "every history; every interleaving of Start, Stop, timers and answers", "why_tests_cant": "Schedules.", "anchors": ["p2p/server.go:Start", "p2p/server.go:Stop", "p2p/server.go:every", "p2p/multitracker.go:get"]}
{"id": "C104", "title": "The tracker is told when the download is complete", "statement": "When all pieces have been downloaded the tracker is told `completed`.", "quantifier": "every history", "why_tests_cant": "Absence of an event in every history.", "anchors": ["p2p/multitracker.go:Complete", "p2p/server.go:Start"]}
{"id": "C105", "title": "Start and Stop return after Stop", "statement": "After Stop is called, it returns, Start returns, and the listening socket is closed.", "quantifier": "every interleaving of Start, Stop, timers, connections and answers", "why_tests_cant": "Schedules.", "anchors": ["p2p/server.go:Stop", "p2p/server.go:Start", "p2p/server.go:every"]}
{"id": "C106", "title": "A client can be started again", "statement": "Load, which Start calls first, can be called again in the same process; it reports the pieces that have verified data on disk.", "quantifier": "every history of the storage", "why_tests_cant": "Unbounded histories.", "anchors": ["storage/storage.go:Load", "storage/torrent.go:completePiece", "p2p/server.go:Start"]}
{"id": "C107", "title": "How the operating system cuts reads does not matter", "statement": "When the pieces are put together, the target files contain exactly the pieces' data in order, each file with its length, whatever number of bytes single reads of the pieces' files return; if no call fails and there are enough bytes, putting them together succeeds.", "quantifier": "every number and content of pieces; every list of file lengths; every sequence of short reads and failures", "why_tests_cant": "Short reads depend on the operating system and cannot be provoked by a test; all splits of all contents.", "anchors": ["storage/lazy_file_reader.go:Read", "storage/lazy_file_reader.go:WriteTo", "storage/storage.go:coalescePiecesForSingleFile", "storage/storage.go:coalescePiecesForMultiFile"]}
{"id": "C108", "title": "Files of pieces are closed", "statement": "While pieces are put together at most one of their files is open, however many pieces there are, and afterwards none is.", "quantifier": "every number and content of pieces; every list of file lengths; every sequence of short reads and failures", "why_tests_cant": "A leaked file is not visible in the result; all failures at all points.", "anchors": ["storage/lazy_file_reader.go:checkOpen", "storage/lazy_file_reader.go:checkClose", "storage/storage.go:coalescePiecesForMultiFile"]}
{"id": "C109", "title": "A download from seeders can always be completed", "statement": "When all peers are seeders that answer what they are asked and no download of a piece times out, nothing goes wrong (no panic, no lock left held, no connection closed, nothing wrong in the target), and from every point of the download there is a way on that ends with exactly the content on disk, no working directory, and success reported for every piece and the torrent.", "quantifier": "every torrent content and layout; up to 50 seeders that join at any time, dialled or accepted; every interleaving; every failure of our writes", "why_tests_cant": "Unbounded interleavings; a dead end anywhere in the state space would be a hang.", "anchors": ["p2p/server.go:requestPieces", "p2p/server.go:requestPiece", "p2p/peer.go:Serve", "p2p/peer.go:Connect", "storage/torrent.go:putBlock", "storage/storage.go:coalesce"]}
{"id": "C110", "title": "The address of a peer that has left can be used again", "statement": "A connection is refused before the handshake only if 50 peers are connected or a peer is connected from that address; once a peer's connection has ended, its address no longer counts as in use.", "quantifier": "every history of connections, messages, failures and disconnections", "why_tests_cant": "Unbounded histories; entries left behind in a table show only much later.", "anchors": ["p2p/server.go:Connect", "p2p/server.go:disconnect", "p2p/peer.go:Connect"]}
{"id": "C111", "title": "Conflicts between embedded fields are resolved by one rule", "statement": "Of several fields with the same key, the one nested least deeply is used; among those at the same depth the one with a tag; if that leaves more than one, none. The order in which they are declared does not matter.", "quantifier": "every struct type", "why_tests_cant": "Unbounded nesting and numbers of fields.", "anchors": ["bencode/encode.go:getFieldsForStruct"]}
{"id": "C112", "title": "Torrent files are read as BEP 3 lays them out", "statement": "Unmarshal of a torrent file succeeds exactly if the text begins with a dictionary (keys increasing, unknown keys well-formed) in which each known entry has its type (strings, 64-bit integers, lists of lists of strings, a multiple of 20 bytes of hashes, an info dictionary without files in a list), and each field then holds what is at its BEP 3 key, or its zero value without such an entry.", "quantifier": "every text", "why_tests_cant": "All texts, with all combinations of present, absent, unknown and malformed entries.", "anchors": ["api/metainfo/metainfo.go:Metainfo", "api/metainfo/metainfo.go:Info", "bencode/decode.go:Unmarshal"]}
{"id": "C113", "title": "Torrent files are written as BEP 3 lays them out", "statement": "Marshal of a torrent or of its info dictionary, with one file or many, passed by value or by pointer, writes exactly the BEP 3 dictionary: the keys in order, optional entries left out when empty, pieces as one string, times as Unix seconds, files as dictionaries with length, md5sum and path.", "quantifier": "every content of the fields", "why_tests_cant": "All contents; a wrong key survives every round-trip test.", "anchors": ["api/metainfo/metainfo.go:Metainfo", "api/metainfo/metainfo.go:Info", "api/metainfo/metainfo.go:File", "bencode/encode.go:Marshal"]}
{"id": "C114", "title": "Tracker responses are read as BEP 3 and BEP 23 lay them out", "statement": "Unmarshal of a tracker response succeeds exactly if the text begins with a dictionary (keys increasing, unknown keys well-formed) in which each known entry has its type, and each field then holds what is at its key or its zero value; the peers may be a list of dictionaries with ip, peer id and port, or a string of six bytes per peer, and are read in order either way.", "quantifier": "every text", "why_tests_cant": "All texts, with all combinations of present, absent, unknown and malformed entries.", "anchors": ["api/tracker/tracker.go:Response", "api/tracker/tracker.go:Peers.UnmarshalBencoding", "bencode/decode.go:Unmarshal"]}
{"id": "C115", "title": "Tracker responses are written as BEP 3 and BEP 23 lay them out", "statement": "Marshal of a tracker response writes exactly the dictionary with the keys in order, optional entries left out when empty, and the peers either as a list of dictionaries or, in the compact form, as four bytes of address and two bytes of port for each peer; a compact list with an address that is not IPv4 is refused.", "quantifier": "every response", "why_tests_cant": "All contents; a wrong key survives every round-trip test.", "anchors": ["api/tracker/tracker.go:Response", "api/tracker/tracker.go:Peers.MarshalBencoding", "bencode/encode.go:Marshal"]}
{"id": "C116", "title": "A field is stored under the name in its tag", "statement": "The key of a field of a struct is the name given in its tag, else the name of the field in lower case; fields tagged - and unexported fields are neither read nor written; a field with omitempty is left out when it is empty; the keys used for reading are those used for writing.", "quantifier": "every struct type and value", "why_tests_cant": "Unbounded types and names.", "anchors": ["bencode/encode.go:getFieldsForStruct", "bencode/encode.go:parseTag", "bencode/decode.go:Unmarshal"]}
{"id": "C117", "title": "A peer that does not read does not hold up the others", "statement": "A peer that stops reading what it is sent does not keep the client from handling the messages of other peers, from finishing and continuing downloads from them, or from stopping; goroutines of the client never wait for each other for ever.", "quantifier": "every number of connections, every sequence of messages, every interleaving; peers stop reading and read again at any time", "why_tests_cant": "Blocked writes need full socket buffers and unlucky schedules; all interleavings of all goroutines.", "anchors": ["p2p/peer.go:Send", "p2p/server.go:Connect", "p2p/server.go:requestPieceFromPeer", "p2p/server.go:requestPiece", "p2p/server.go:Stop"]}
{"id": "C118", "title": "No shared data is used by two goroutines at once", "statement": "No map, and no set of pieces, is used by two goroutines of the client at the same time while one of them writes it. (Go ends the whole program when it sees that for a map.)", "quantifier": "every number of connections, every sequence of messages, every interleaving", "why_tests_cant": "The race detector sees only the schedules of the run.", "anchors": ["p2p/server.go:requestPieceFromPeer", "p2p/server.go:Connect", "p2p/server.go:disconnect", "p2p/peer.go:HandleHave", "p2p/peer.go:requestBlock", "p2p/peer.go:Receive"]}
{"id": "C119", "title": "A piece fails its checksum only if wrong data was put into it", "statement": "If PutBlock reports a checksum failure of a piece, or waiting for the piece does, then since the process was started or the piece was last reset a block was put into it whose data is not what the content of the piece has at that place.", "quantifier": "every history of calls, failures of the disk, crashes and restarts", "why_tests_cant": "Duplicates, refused blocks, failures of the disk and other pieces, in all orders.", "anchors": ["storage/storage.go:PutBlock", "storage/storage.go:coalesceBlocks", "storage/torrent.go:putBlock", "storage/torrent.go:reset"]}
{"id": "C120", "title": "A download from seeders is completed if nothing is neglected for ever", "statement": "If all connections are with seeders of the torrent that answer what they are asked, at least one joins, no piece times out, and every goroutine that can go on does so eventually, then from some moment on the file or directory holds the content, and the torrent and each of its pieces are reported as complete.", "quantifier": "every infinite execution: all schedules, sizes, orders of answers, failed writes, repeated requests and moments at which seeders join", "why_tests_cant": "It is about infinite executions; a test sees finitely many schedules and cannot tell slow from stuck.", "anchors": ["p2p/server.go:requestPieceFromPeer", "p2p/server.go:RequestPieces", "p2p/server.go:requestPiece", "p2p/peer.go:requestPiece", "p2p/peer.go:HandlePiece", "storage/storage.go:PutBlock", "storage/storage.go:coalesceBlocks"]}
{"id": "C121", "title": "A message or handshake that is decoded into again shows only what was read", "statement": "Decode and UnmarshalBinary into a Message or Handshake that already has a value succeed exactly when they do for a new one; then the type, all getters and the encoding are those of the message that was read, whatever the value was before; on an error the value is unchanged.", "quantifier": "every previous value, every stream of bytes in any portions", "why_tests_cant": "All pairs of message types, and all moments at which reading can fail.", "anchors": ["api/peer/peer.go:Decode", "api/peer/peer.go:UnmarshalBinary", "api/peer/peer.go:Index", "api/peer/peer.go:Begin", "api/peer/peer.go:Length", "api/peer/peer.go:Piece", "api/peer/peer.go:Bitfield"]}
{"id": "C122", "title": "A message is written completely, or the failure is reported", "statement": "Write of a message or handshake to any writer that keeps the contract of io.Writer returns nil exactly if every call of the writer succeeded, and then exactly the bytes of the protocol were written; otherwise it returns an error and a first part of them was written. It never panics. A message is reported as written only if all of it was taken, also by a writer that breaks the contract. MarshalBinary gives these bytes and UnmarshalBinary reads them back.", "quantifier": "every message and handshake, every writer: every number of bytes taken before a failure, at every call", "why_tests_cant": "Failures at every byte of every message.", "anchors": ["api/peer/peer.go:Write", "api/peer/peer.go:Encode", "api/peer/peer.go:MarshalBinary", "api/peer/peer.go:UnmarshalBinary"]}
{"id": "C123", "title": "Reading a message takes no more memory than was sent", "statement": "The buffers that ReadMessage allocates are together not larger than what the peer has sent, up to a constant.", "quantifier": "every stream of bytes", "why_tests_cant": "It is about all streams, also those that are never continued.", "anchors": ["api/peer/peer.go:Decode", "api/peer/peer.go:ReadMessage"]}
{"id": "C124", "title": "A client that has the whole torrent is a seeder", "statement": "A client that has the whole torrent, because it started with it or because it has downloaded it and its downloads are over, never changes its files and, as long as peers send messages about pieces and blocks that exist, never crashes. On a connection made from then on, on which no write fails and only existing pieces are announced, it sends a BITFIELD with all pieces first and after that only blocks and at most one UNCHOKE: it asks for nothing, announces nothing and never chokes again. To an unchoked peer that asks for a part of a piece, and has not cancelled it, it sends exactly that part of the content.", "quantifier": "every history of a client with a complete torrent, with any number of connections and any failures", "why_tests_cant": "All orders of messages, connections and failures.", "anchors": ["p2p/peer.go:HandleMessage", "p2p/peer.go:HandleHave", "p2p/peer.go:HandleRequest", "p2p/server.go:Connect", "p2p/server.go:requestPieceFromPeer", "storage/storage.go:GetBlock", "storage/storage.go:PutBlock"]}
{"id": "C125", "title": "A client downloads the torrent from clients of the same kind", "statement": "A client that has nothing and is connected only with other clients of this kind that have the whole torrent, having started with it or downloaded it, and have unchoked it gets it: if the connections work, no piece times out, no shutdown is requested and every goroutine of all clients that can go on does so eventually, then from some moment on its file or directory holds the content, and the torrent and each of its pieces are reported as complete. Until then neither side kills the other or breaks the connection: each reads what the other wrote, in that order, and everything that the one that downloads reads is what it asked for.", "quantifier": "every number of clients and every infinite execution: all schedules of all clients, all sizes, all moments at which they join, whatever the others do on their other connections", "why_tests_cant": "Two or more processes with many goroutines each, in every interleaving; and it is about what happens eventually.", "anchors": ["p2p/server.go:Connect", "p2p/server.go:requestPieceFromPeer", "p2p/server.go:requestPiece", "p2p/peer.go:HandleMessage", "p2p/peer.go:HandleRequest", "p2p/peer.go:HandlePiece", "p2p/peer.go:HandleHave", "p2p/peer.go:HandleBitfield", "storage/storage.go:GetBlock", "storage/storage.go:PutBlock"]}
{"id": "C126", "title": "A client that has downloaded the torrent from clients passes it on", "statement": "A client that has nothing and downloads from other clients of this kind ends up as a client that they are: from some moment on it has the whole torrent, none of its downloads is under way, and nothing that it has read can kill it. Therefore everything that is true of clients that have the torrent (they never change their files, answer every request with the right bytes, and clients that are connected with them get the torrent) is true of it with respect to every connection that is made from then on.", "quantifier": "every number of clients, every infinite execution in which nothing is neglected for ever, and every continuation", "why_tests_cant": "It is about what happens eventually, and about every later behaviour; tests stop when the download is finished.", "anchors": ["p2p/server.go:requestPieceFromPeer", "p2p/server.go:requestPiece", "p2p/server.go:Connect", "p2p/peer.go:HandleMessage", "storage/storage.go:PutBlock", "storage/storage.go:GetBlock"]}
{"id": "C127", "title": "An interrupted download can always be finished", "statement": "Whatever earlier processes did to the storage (any blocks, right or wrong, in any order, resets, failures of the disk, death anywhere), a new process can load what is there, and the right blocks of the pieces that it did not find, in any order, any number of times, complete the torrent; the result is made of verified data of all pieces. Only failures of the disk in the new process prevent this.", "quantifier": "every history of any number of processes, every failure and every point of death, every order of blocks", "why_tests_cant": "Unbounded histories with failures in every place.", "anchors": ["storage/storage.go:Load", "storage/storage.go:PutBlock", "storage/storage.go:coalescePieces"]}
{"id": "C128", "title": "Reading a block never panics", "statement": "GetBlock returns data or an error for every index, offset and length, in every state; it never panics.", "quantifier": "every history, every index, offset and length", "why_tests_cant": "Remote-controlled input in every state of the storage.", "anchors": ["storage/storage.go:GetBlock", "storage/storage.go:getBlockFromPiece"]}
{"id": "C129", "title": "What was decoded can be encoded again", "statement": "Whatever Unmarshal reads into a nil any, Marshal can write; the result is the canonical form of the text, the text itself if that was canonical, and is read as the same value.", "quantifier": "every text", "why_tests_cant": "Over all texts, of any size and nesting; the two directions have different limits.", "anchors": ["bencode/decode.go:Unmarshal", "bencode/encode.go:Marshal"]}
{"id": "C130", "title": "Nesting in untrusted text is limited", "statement": "There is a number of nested calls that is enough for Unmarshal, whatever the text (Go ends the process when the stack is used up), as there is for Marshal.", "quantifier": "every text", "why_tests_cant": "The worst text depends on the limit; tests use small texts.", "anchors": ["bencode/decode.go:decode", "bencode/decode.go:consume", "p2p/multitracker.go:Announce"]}
{"id": "C131", "title": "A variable can be decoded into again", "statement": "What Unmarshal leaves in a variable is what the text says, whatever the variable held before.", "quantifier": "every text, every type, every value that the variable held", "why_tests_cant": "Two texts, one after the other, each of any size and nesting; unit tests decode into new variables.", "anchors": ["bencode/decode.go:Unmarshal", "bencode/decode.go:decode", "bencode/decode.go:decodeSlice", "bencode/decode.go:decodeMap", "bencode/decode.go:decodeStruct", "bencode/decode.go:decodeInterface"]}
{"id": "C132", "title": "Serving blocks leaves no files open", "statement": "When GetBlock has returned, every file that it opened is closed, whatever the operating system did.", "quantifier": "every torrent, every state, every request, every pattern of failing calls, any number of calls", "why_tests_cant": "Failures of single calls of the operating system at every point; a leak shows only after many.", "anchors": ["storage/storage.go:getBlockFromMultiFile", "storage/storage.go:getBlockFromSingleFile", "storage/storage.go:getBlockFromPiece"]}
{"id": "C133", "title": "Answering a request takes no more memory than a piece", "statement": "Whatever index, offset and length a peer asks for, GetBlock allocates buffers that are together not larger than a piece.", "quantifier": "every torrent, every state, every index, offset and length", "why_tests_cant": "Remote-controlled numbers of 32 bits.", "anchors": ["storage/storage.go:GetBlock", "storage/storage.go:getBlockFromMultiFile", "storage/storage.go:getBlockFromSingleFile", "p2p/peer.go:HandleRequest"]}
{"id": "C134", "title": "What is remembered of a peer's CANCELs is bounded by the torrent", "statement": "However many CANCELs a peer sends, for whatever blocks, the client remembers at most one per byte of the torrent.", "quantifier": "every history of a connection", "why_tests_cant": "Unbounded histories.", "anchors": ["p2p/peer.go:HandleCancel", "p2p/peer.go:HandleRequest"]}
{"id": "C135", "title": "A download that fails gives the piece back", "statement": "When the request of a piece fails, because the peer does not answer in time or chokes us or the connection is gone, the piece can be requested again from any peer in line that has it, the peer itself is put in line again, and nothing else changes: no connection is closed, no address blocked, no data lost, and the other downloads go on.", "quantifier": "every history of the server and every download in it", "why_tests_cant": "Requests fail at any moment of unbounded interleavings.", "anchors": ["p2p/server.go:requestPieceFromPeer", "p2p/peer.go:requestPiece", "p2p/peer.go:requestBlock"]}
{"id": "C136", "title": "A refused announce is told why", "statement": "An announce that the tracker refuses is answered with a bencoded response whose failure reason says what is wrong with it, nothing changes, and the client that sent the announce gets an error.", "quantifier": "every state of the tracker, every request, every client", "why_tests_cant": "Composition of the query parser, the tracker, the encoder, the decoder and the client for unbounded inputs.", "anchors": ["pex/http.go:ServeHTTP", "p2p/multitracker.go:Tracker.get", "api/tracker/tracker.go:Request.Decode"]}
{"id": "C137", "title": "From the tracker to the torrent", "statement": "A client that starts with nothing and announces to a tracker of this program can get connected with exactly the others that have announced within the last minute and have not stopped, and from any of them that has the torrent it can download all of it.", "quantifier": "every history of the tracker with an IPv4 swarm of at most 50 live others, every torrent, every seeder among them", "why_tests_cant": "Composes the tracker's tables, the text of the query and of the response, the address list, dialling, the handshake and the whole download.", "anchors": ["pex/http.go:ServeHTTP", "p2p/multitracker.go:get", "p2p/server.go:Start", "p2p/server.go:AddPeer", "p2p/server.go:DialPeers", "p2p/server.go:dialPeer"]}
{"id": "C138", "title": "Temporary files do not outlive the call", "statement": "When a call of the storage has returned, or the process that made it has died and another has been started, the temporary files the call created are gone and the files it opened are closed.", "quantifier": "every history of calls, every failing system call, every moment at which the process dies", "why_tests_cant": "Failures and deaths at any of an unbounded number of moments.", "anchors": ["storage/storage.go:coalesceBlocks", "storage/storage.go:coalescePiecesForSingleFile", "storage/storage.go:coalescePiecesForMultiFile", "storage/storage.go:Load"]}
{"id": "C139", "title": "An Encoder reports that its writer failed", "statement": "When the writer of an Encoder returns an error, Encode returns that error without calling the writer again, and the writer has taken a beginning of the text that Marshal would have returned; when it returns none, it has taken all of that text.", "quantifier": "every type and value, every encoder, every writer that fails at any call after any number of bytes", "why_tests_cant": "The number of calls of the writer is unbounded, each can fail.", "anchors": ["bencode/encode.go:NewEncoder", "bencode/encode.go:Encode", "bencode/encode.go:writeByte", "bencode/encode.go:writeString", "bencode/encode.go:encodeSlice", "bencode/encode.go:encodeStruct"]}
{"id": "C140", "title": "A Decoder reports that its reader failed", "statement": "When the reader of a Decoder fails, Decode returns that error if the value was not complete; if a whole value was delivered before, Decode returns it as Unmarshal would. Any other error is one that the whole text would have given, whatever was to follow.", "quantifier": "every type, variable and text, every reader that fails after any number of bytes, however its reads are cut", "why_tests_cant": "The text is unbounded and the reader can fail after every byte of it.", "anchors": ["bencode/decode.go:NewDecoder", "bencode/decode.go:Decode", "bencode/decode.go:consume", "bencode/decode.go:decodeString", "bencode/decode.go:decodeSlice", "bencode/decode.go:decodeStruct"]}
