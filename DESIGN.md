# A machine-checked model of browles/drip in Lean 4

`properties.jsonl` lists the properties (C01, C02, …), `lean/Verif` holds the model, the specifications and the proofs, and
`MANIFEST.json` maps each property to the theorems about it.

## 1. Trusted base

* **Lean 4.33.0's kernel.** No `sorry`, `admit`, own axioms, `native_decide` or `bv_decide`.
* **Axioms.** The theorems depend on at most `propext`, `Quot.sound` and `Classical.choice`. `lean/Verif/Axioms.lean` lists all theorems of
  the manifest by the axioms that they may use; building it checks the list. (`tools/axioms.py` writes it.)
* **Concrete evaluations.** `by kernel_rfl` (`Model/KernelRfl.lean`) closes an equation by letting the *kernel* evaluate both sides; it is an
  ordinary `rfl` proof, used for examples and for witnesses of refutations.
* **Faithfulness of the model.** Every definition in `Verif/Model` cites the file and lines of `/repo` that it models and says what it
  simplifies. Nothing is extracted from the Go code or run against it. `tools/coverage.py` lists the lines of Go that no comment cites.
  `Verif/Tests/*` evaluates the tables of the repository's own unit tests in the model, and its integration tests of the storage on a smaller
  scale. The model meets what these tests expect, with one exception: the test that asks for bits 16 and 32 of a bitfield of two bytes
  (`bitfield_test.go:21-26`) expects `false`, while `Has` has no bounds check and panics, in Go as in the model (C04).
* **The Go language and its library**, where the model writes their behaviour out by hand (section 4).

## 2. Shape of the development

* `Verif/Model/*` – executable model, function by function. A Go `panic` is an explicit outcome (`Res.panic`, `Out.panic`, `alive = false`), an
  `error` is `Res.err`, `nil` is an explicit constructor.
* `Verif/Spec/*` – small specifications that do not mention the model: finite sets, bencode trees and their canonical encoding, byte layouts,
  swarms, contents of files, alternating sequences, the texts of IP addresses (RFC 4291 and 5952), which requests announce what to a tracker, …
* `Verif/Lemmas/*` – invariants and helper lemmas.
* `Verif/Props/*` – the theorems `Cnn_…`, each followed by an `example` that meets its hypotheses in a non-trivial case. A theorem that proves part
  of a property ends in `_partial` and says what is missing. A property that is false of the code keeps its statement; a theorem
  `Cnn_…_refuted` gives a concrete execution that breaks it.
* `Verif/Tests/*` – the unit tests of the repository, as examples about the model.
* `seeded/` – wrong programs: `mutants.py` has edits of the model that resemble real bugs, `run.py` applies each to a scratch copy, rebuilds, and
  notes in `LOG.jsonl` what fails. When a theorem survived although its claim was false it was tightened (field `theorems_tightened`).
  `sweep.py` makes mechanical edits (a number, a comparison, a branch) of every definition and lists those after which everything still proves.
* `tools/` – `props.py` and `claims.py` are the sources of `properties.jsonl` and `MANIFEST.json`.

## 3. Method per property

| ids | modelled (Model/…) | method |
|----|----------|--------|
| C01–C04 | Bitfield: `bitfield` on byte lists, indices in `Int` with Go's truncated `/` and `%` | bit lemmas, induction on the sequence of Add |
| C05–C09, C121–C123 | PeerWire, PeerCodec, Reader: messages, handshake; `io.Reader` as chunks; `io.Writer` as a script of results | round-trip algebra, refinement to the flat byte list |
| C10–C13, C20, C24–C27, C111, C116, C129 | Bencode/*: Go types and values as inductive types, `encode` with `ptrDepth`, `getFieldsForStruct` | refinement to bencode trees; induction on values |
| C14–C19, C21–C23, C77, C130, C131 | Bencode/Decode: `decode`, `consume`, with offset, fuel and panics; Bencode/Depth: the same with a bound on nested calls | induction on fuel; that fuel does not matter is C22; `Spec/Fatal` is the grammar of the texts that panic |
| C28–C32, C112, C113 | Metainfo, MetainfoCodec | instances of the bencode theorems |
| C33–C37, C78, C114, C115 | Tracker, Url, Net, Magnet | exact grammars of queries, numbers and addresses (`Spec/Query`, `Spec/Numeral`, `Spec/Address`), proved equal to what the code's parsers accept; round-trip algebra |
| C38–C47, C53, C75, C76, C106, C119, C127, C128 | Storage: `Load`, `PutBlock`, `GetBlock`, `ResetPiece` over a file system where each call can fail or be where the process dies | a weakest-precondition calculus; invariants over all histories of processes |
| C107, C108 | LazyReader: reads of any length, failures at any call, open files | loop invariant: what was written and what remains are the pieces |
| C48, C61, C93 | Future, BlockFuture: any number of goroutines | invariants over interleavings |
| C49, C50 | StorageConc: any number of goroutines over the two kinds of RWMutex | refinement to Storage (linearizability), deadlock witness, termination measure |
| C51 | Paths: `filepath.Join`, `Clean` on components | induction on components; escape witness |
| C52 | RequestPiece: the grid of blocks | arithmetic |
| C54–C56, C79–C81 | Multitracker, MultitrackerConc | permutations, induction over histories, interleavings |
| C57–C60, C82, C83 | Pex: the tracker with a clock | invariants over histories; `Spec/Announces` says which requests announce a peer, and which answer is owed; `Spec/FirstSince` which announce of a place is remembered |
| C62–C74, C84–C92, C94–C100, C110 | P2P: server and peers together, with the storage | about ten invariants over all histories of atomic steps; witnesses |
| C109 | P2P and Storage with honest peers (Spec/Seeding) | one invariant over all honest histories; a measure (blocks that are missing) that some continuation decreases |
| C124 | the same model, from a moment at which the storage is complete and no download is under way | Lemmas/P2PWhole: the disk and the completeness are kept, downloads are of pieces that do not exist and never begin |
| C120 | infinite executions of the same model under weak fairness (Spec/Fair) | Lemmas/P2PFair*: what each event can change (`Moves`), an invariant linking received blocks to stored ones, and leads-to arguments |
| C125 | several copies of the same model, one that downloads and others that have the torrent, from the start or by a download (Spec/Exchange) | Lemmas/P2PExchange*: what one side has read is a prefix of what the other has written, every request that was handled is answered with the right bytes, and leads-to arguments; then C120 |
| C126 | the same | Lemmas/P2PQuiet: where downloads come from (`Stems`), and that each of them ends once the torrent is complete |
| C64 (interleavings) | FlagConc | invariant over interleavings |
| C117, C118 | Stall: locks, blocking writes and accesses of all goroutines of p2p | discipline of locks by induction on the code; progress, measure, witnesses |
| C132, C133 | ReadCost: GetBlock with open files and buffers; refines Storage | induction over the files |
| C134 | P2P | invariant over histories, induction over the CANCELs |
| C135 | P2P | the three steps of the goroutine after a failure, from every reachable state; C70 |
| C136 | Pex, Tracker, Multitracker | case analysis over the grammar of requests; composition with C58 and C78 |
| C137 | Pex, Multitracker, P2P and Storage together | composition of C83 and C109; induction over the list of addresses |
| C138 | TempFiles: the writing half of Storage with temporary files and open files; refines Storage | induction over the code and over histories |
| C139 | Bencode/Writer: the encoder with a writer that can fail | simulation of Bencode/Encode, by structural induction |
| C140 | Bencode/Reader: the decoder with a reader that fails | simulation of Bencode/Decode on every longer text, by structural induction |
| C101–C105 | Lifecycle: `Start`, `Stop`, the goroutines, the tracker's answers | invariants over interleavings, termination measure |

## 4. What is modelled, and how

**Everywhere.** Strings and `[]byte` are lists of bytes; slices have no capacity except where the code aliases them (Multitracker's heap of arrays).
`int` and `int64` are unbounded `Int` except where the code converts (uint32 on the wire, uint16 ports, `strconv`, `time.Duration`), where the
truncation is explicit; theorems about texts of numbers assume that the numbers fit. Allocation does not fail below 2^48 bytes and panics above
(`make`). Errors are classes (`Err`), not texts.

**Bencode.** `reflect` is modelled on the types that drip's structs use and all that can be built from bool, integers, strings, byte
slices and arrays, slices, maps with string keys, pointers, interfaces, structs (embedded, tagged, omitempty), and custom codecs with pointer
receivers (a custom codec is an arbitrary function). No recursive types. Case folding of field names is ASCII. Map iteration order is a parameter.
`bufio.Reader` is the list of the remaining bytes.

**Metainfo.** Lengths are unbounded. `time.Time` is a Unix second. The SHA-1 function is an arbitrary function everywhere (so nothing is claimed about collisions).

**net, net/url.** `net.ParseIP`, `IP.String`, IPv4-in-IPv6, `url.ParseQuery`, `QueryEscape`, `Values.Encode`, `url.Parse` for `magnet:?…` are
written after Go 1.22's library.

**Storage.** The disk is the target (a file or a tree of files), the work directory (files with names), and the temporary names that are renamed; each
call of `os` succeeds, fails, fails half-way or is the last thing the process does; what a completed call did stays (no power loss). Only drip
writes to its directories (C53 drops this). `io.Copy` from the pieces' files to the target is by content; LazyReader has the single reads of
`lazy_file_reader.go` under `io.MultiReader`, `io.CopyN` and `io.Copy`, with short reads and open files (C107, C108); ReadCost has the calls, open files and buffers of `GetBlock` (C132, C133; it returns what Storage returns: `C132_same_results`); TempFiles has the temporary files and open files of `PutBlock` and `Load` (C138; it does what Storage does: `C138_same`). No symbolic links or permissions. `Sscanf("%d.piece")` with ASCII spaces. Steps of StorageConc: the code between two
mutex operations; RWMutexes both with and without priority of waiting writers.

**Tracker side (pex).** One event at a time (the code locks its mutex around each), an arbitrary non-decreasing clock, any order of map
iteration, `net.SplitHostPort` and the request's query as bytes.

**Announces.** What comes back for a URL and a query is an arbitrary function of an arbitrary state of the network; the status code is not looked at by the code.

**p2p.** A state with the tables of `Server`, the fields of each `Peer`, the storage of Storage.lean, the goroutines (dialling, serving,
requesting), and for each step `Luck`: which writes fail, what the disk does, the order of maps and of `sort.Slice` (insertion sort up
to 12 elements, beyond that any result), random choices. Steps are the sections between operations that can block or need `mu`; handling one message is
one step, as is the broadcast of HAVE. Reads and writes are sequentially consistent; the unlocked `delete(p2p.inflight, …)` (server.go:402) and unlocked reads
of the bitfield are single steps. History variables (what was sent, handled, counted) are only written. The handshake is the bytes that arrive, in any
pieces. Timeouts may happen at any time. Goroutines that wait for a timer (`time.After`) may continue at any time.

**Waiting and shared data in p2p (Stall.lean).** The goroutines of /repo/p2p as the lists of their operations on locks, connections and the queue and their accesses to
maps and bitfields; which path a function takes is arbitrary. A write returns only if the remote side reads or the connection is closed (except in the
handshake, which has a deadline); waiting for messages, timers, trackers and the storage ends. Values are not represented.

**Lifecycle.** `Start` and `Stop` in steps around each lock, network call and channel; connections as an owner of `mu`; `errgroup`; `NewTicker`'s panic.
Messages to peers within `UnchokePeers` are taken to end. Load's and a tracker's results are arbitrary.

**Concurrency of futures, requests, flags.** Any number of goroutines, atomic steps between mutex and channel operations and atomics.

## 5. What is not modelled

Memory exhaustion (except C123: the sizes of the buffers for a message); the effects of data races (fields read without a lock are atomic; C118 says where two goroutines use the same data); the accuracy of clocks; TCP below `net.Conn`; the texts of errors and logs
(`LogValue`, `String`, `ChecksumError.Error`); file permissions;
descriptors (except C108, C132 and C138); the finalizer that closes a lost connection some time later (C89); fairness of the scheduler (liveness is stated as progress and termination, or as in C120, C125 and C126 with fairness as a hypothesis).

Every property is expressible in a model; none is classified "not applicable".

## 6. Properties that are false of the code

The refutations, by kind.

* **Input from the network crashes the process**: C19 (bencode length texts), C35 (peer list entries), C56/C102 (tracker answers without trackers, peers or a positive interval),
  C74 (messages with an index outside the torrent; `C74_exactly_partial` says which exactly), C43 (blocks off the grid), C128 (reading a piece that does not exist), C31 (multi-file metainfo cannot be decoded at all).
* **Memory and files**: C123 (four bytes from a peer allocate 4 GiB), C133 (so do the seventeen of a REQUEST), C134 (CANCELs are kept), C132 (a failed read leaves a file open), C138 (a process that dies leaves a temporary file for ever), C108, C130 (nesting in a text uses up the stack).
* **Futures delivered twice**: C46 (no second download of a corrupt piece), C92, C106 (no second Load).
* **Locks**: C50 (PutBlock/GetBlock deadlock), C68 (Connect returns with the lock held), C72/C105 (Stop waits for ever; so does Start, with `UnchokePeers`), C81 (no lock around the tiers), C93,
  C117 (writes without a deadline while the lock is held), C118 (a map is written without the lock).
* **The network protocol**: C63 (CANCEL), C64 (flag before write), C71 (rarest first compares the wrong counts), C85, C88/C69 (IPv6 texts), C91, C73/C84/C110 (table by id and ip), C89, C98 (who is blocked).
* **Tracker protocol**: C103 (stopped twice), C104 (completed never), C101 (one failed announce ends the client), C79/C47 (counters), C57, C59, C82, C36, C78, C136 (no reason over a unix socket).
* **Files**: C51 (path traversal), C53, C75, C76.
* **Used variables**: C131 (decoding into an `any` that holds a number panics; lists and structs keep what the new text does not mention).
* **Encoder**: C129 (what was read cannot be written if it has more than 1000 levels), C25 (nil), C26 (nesting budget after errors), C111 (own name as tag; a struct embedded twice), C113 (an info passed by value), C115 (nil peers), C116 (capital letters in tags).
