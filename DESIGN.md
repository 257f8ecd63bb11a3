# Formal model of holochain/lair in Lean 4

## Plan per property (written before the proofs)

Shared design decisions.

* Cryptography is a *parameter*: a structure `Crypto` of functions plus a structure `Crypto.Lawful` of
  functional-correctness laws (decrypt after encrypt, verify after sign, lengths). Every theorem is proved for
  all lawful instances; a concrete instance shows the laws satisfiable. Unforgeability is never assumed
  globally (it is false for fixed-size ciphers by counting); where a property needs "a wrong key does not decrypt"
  it is a hypothesis on the particular keys (C40, C49, C50), never a global law.
* Randomness and the reply of the external signer are universally quantified inputs of each step.
* Request handlers are written once as programs over atomic actions (one action = one critical section of the
  Rust code: a lock scope, a store call, an atomic load/store); a scheduler interleaves any number of
  handlers on any number of connections. Properties are proved by a rely/guarantee invariant for every schedule.
* The server is parametric in a store satisfying a small specification (`StoreSpec`); the in-memory and the SQLite
  store are both proved to satisfy it.

| Prop | Modelled as | Proof |
|---|---|---|
| C01 C02 C03 C04 | concurrent server model: every handler, dispatch, per-connection flag | invariant over all schedules; for C03 in the client's terms, that handlers fail only with short texts (`Prog.Short`) |
| C05 C06 C07 C11 | same, plus store specification | append-only invariant, per-handler effect theorem |
| C08 C09 C10 | MemStore (3 maps), SqlStore (table with UNIQUE columns, encoded data) | refinement to write-once table by induction over operations |
| C12 | LRU caches with arbitrary capacity in the concurrent server | coherence invariant over all schedules |
| C13 C14 C15 C16 C19 C23 | response specification per request kind | rely/guarantee: holds for each reply in each schedule |
| C17 C18 C20 C21 C22 C24 | sequential runs of the same handler programs | computation of handler outcome; C20: negation + partial |
| C25 | handshake functions of both sides | algebra over lawful key exchange |
| C26 | byte-level framing, incremental reader | induction over frames and chunks |
| C27 C28 | chained-state secretstream over framing | induction; negation witnesses for the oversize and the short frame |
| C29 | client pending table as transition system | invariant over all event sequences |
| C30 | connect procedure against an arbitrary server | case analysis over all server behaviours |
| C31 | sender with semaphore and take/restore | invariant; negation for cancellation |
| C32 | fallback writer/reader/pending as transition system | invariant; negation for duplicate ids |
| C33 | bit-level base64 | round trip + canonicity for all lists |
| C34 C35 C36 | byte-level MessagePack value codec + struct mapping | round trip by mutual induction; exactness (`C34_exact`, `C35_exact`, `C36_exact`): the MessagePack formats as an inductive relation between values and bytes, the structs as predicates on values, and the decoder equivalent to their composition |
| C37 C38 C39 | seed bundle lock/unlock, answer processing, limits stack | round trip; negations for the two violations |
| C40 C41 | config generation, Srv::new, Display | algebra; line-level induction |
| C42 C43 C44 C48 | file system / process / pool transition systems with crash points | invariants; negation witnesses |
| C45 C46 C47 | byte-level functions | direct |
| C49 | two worlds with different secret seeds, one adversary strategy controlling everything else | relational invariant (simulation) over all steps: equal transcripts (planned first as a term algebra; the two-world form is stronger and is about the same server model) |
| C50 | table of all labels in the code | finite table + injectivity hypothesis on kdf |
| C51 | size of encoded listing, `deliver` in the server model | negation for all histories + partial |
| C52 | generated config, server start, client connect | composition of C40, C25, C30 |
| C53 | URL text functions | partial + three counterexamples |
| C54 | passphrase input of `import-seed` | exact characterisation + counterexample |
| C56 | World: clients' tables + senders + streams + network + server, one event list | invariant linking requests made, messages encrypted, delivered, handled, answered |
| C57 | World | negation for all runs: stream states stay apart |
| C58 | World | from every reachable state: construct the continuation, request by request (induction on the list), and compare with a sequential specification |
| C59 | server model, items in the clear | per-handler specification read as `Repr` |
| C60 | sequential keystore specification; server model with all schedules and restarts | linearization points: a request that adds nothing is placed at a table between its start and its end, one that adds an entry at its entry; requests in flight or cut off are completed by running their program alone; order and uniqueness by rank |
| C61 | accepting loop: queue of the socket, handshakes in progress, limit, failing accept; handshake progress from the bytes received (Handshake.lean) | invariants of blocked runs (violations); measure and analysis of states without enabled steps (what holds) |
| C62 | socket path and any number of server processes, each file operation a step | invariant over histories with one live server; general violation |
| C63, C64 | amounts of bytes in queues and bounded pipes of one connection, concurrency limit; pending table of the client | conservation, measure, analysis of states without enabled steps; handshake by conservation of bytes over all positions |
| C65 | World + sequential keystore; client methods with their arguments | refinement: C60 applied to the server inside the world, each operation mapped to the client request it came from by C56; order by comparing prefixes of the run |
| C66 | all generations of the fallback sub-process, the lock-protected current one, every call | invariant (only the current one runs; each request of a process belongs to one call) lifting C32 to every generation; recovery by symbolic execution from any reachable state |
| C67 | JSON lines: serde_json's string writer, a full JSON reader, the derived struct reader, padded base64, tokio's line splitting | grammar as an inductive relation; the reader accepts exactly the texts of the RFC 8259 grammar (both directions, induction on fuel over the mutual grammar), and a line counts as a reply iff it is a JSON text of a reply; the writer's output is one spelling without control characters |
| C68 | direct calls of the store handle as atomic steps between the server's steps | simulation: every run equals, connection by connection, a run of a server with one more client; C05/C06/C12 are then inherited |
| C69 | any number of server processes on one store file, each with its own caches, flags and requests | each process is simulated by a server with a store handle on which the others' additions are calls (C68); writes of different processes never clash by the invariant of the common table |
| C70 | configuration, store file and temporary file on disk, any number of starts and servers | the servers are shown to be servers on one store (C69) whatever the starts do (C43, C40), by induction over the history |
| C71 | names from random bytes, certificate parameters, issuer; rcgen as a lawful parameter | computation for all random bytes; lifted to all histories by C59/C23 and to clients by C56 |
| C72 | the same several processes, their handles, one sequential keystore | linearization points as in C60, for requests (by the simulation of C69) and for handle calls (one event each); operations numbered by their first event, merged by an abstract lemma on timed readers and writers (TimedHistory.lean) |
| C73 | pid file and socket file together, any number of processes that start, fail, crash and end (Boot.lean) | invariant: checks that do not overlap leave at most one process past the check, so the socket's invariant (C62) applies; negations by concrete histories |
| C74 | processes on one store file (Multi.lean), each connection of World.lean belonging to one process, store handles (MWorld.lean); specification `ExplainsAll` there | invariant relating each connection to its process (MWorldLemmas), then C72 on what happened to the processes, each operation traced back to the request or handle call that caused it; corollaries from the sequential specification |
| C75 | server with all its histories (System.lean, Local.lean), two worlds of Secrecy.lean, rows of SqlStore.lean | every write in a run is of an entry as `Made` (program logic), induction over the run; the simulation of C49 carries for each pair of entries that the seals were made under the same key with the same header |
| C76 | the server's caches in all its histories (Server.lean, Lru.lean, System.lean) | the invariant of the shared state (cached elements are of stored entries, cache sizes), and an invariant that caches are filled only while a connection is unlocked; a predicate on handler programs (`Keeps`) says which entries a request may put there |
| C77 | the server on the SQLite store with a mark of how many rows are on the disk; power failures cut the table to any length from there; `init`s with a file that is not synced (Durable.lean) | invariant (after power failures: a server run on a good store), prefix order; negations with `synchronous` as set and the concrete run |
| C78 | the world of C56 with every connection's handshake in it byte by byte, and strangers (Dial.lean) | simulation of each history by one of World.lean (DialLemmas.lean), then C56, C65, C02 |
| C79 | Flow.lean with requests whose handlers do not end, Fallback.lean with a signer that says nothing (Props/Silent.lean) | counting requests by place, invariant; negation for every buffer size with the schedule of a client that asks one by one |
| C80 | Dial.lean: handshakes of clients and strangers byte by byte, their failures, the restart (Props/Gate.lean) | properties of one connection stable under all events; invariants of the inbox and of what each session was made from |
| C81 | KWorld: files and starts (Life) with servers, connections and clients (MWorld) | every event is one event (or none) of the world of servers on one file, so C74 carries over, positions included |
| C82 | Server, System; `seen`: what one client says and hears, in order (Blind.lean) | simulation between a run and a run of that client alone on another keystore: requests of a locked connection only load the flag and allocate, then end alike |
| C83 | the same | simulation between a run and the run without these clients: their requests leave the shared state equal; induction on the list of clients |
| C84 | World with System: connections, frames, network (BlindWorld.lean) | the two simulations of C82/C83, event by event, carried through `World.step`: all of connection `c`, or all other connections, equal; induction on the history from its end |
| C85 | World with Sender, SecretStream, Frame: one connection (Fine.lean, FineConn.lean, FineWorld.lean) | invariant of every run: what was encrypted and what of it is on the wire, as long as no call ended badly (the property goes backwards along the history); from it and `msgs_run` the state of the receiver; a measure on the calls brings all sends to their end; then the sequential requests of C58. `World.Breaks` by cases over all events |
| C86 | as C85 (InFlight.lean) | invariant `InFlight` of every run: where each request is - its call of the client's sending half, the server's threads, the finished requests, their calls of the server's sending half, the client's table - with the side conditions (no bad call, loop running, distinct ids) inside; then drain (C85), handle, drain, wake, by induction over the requests |
| C87 | as C86 (Progress.lean) | a natural-number cost of a connection (what every send, every byte on the way, every message not taken, every handler and every caller still has to do; a handler's part is the least bound on its remaining actions, which `within_run` shows to be at most 16) that no non-breaking event raises and every move lowers strictly; a state in which nothing can move has no running request (`InFlight`, C86); a request leaves the running state only with an answer; then induction over the cost along the schedule |
| C88 | as C87, with `World.CanMove`: capacity of the pipes, limit on requests in hand (Props/Backpressure.lean) | whatever can go on without the limits can, or something else can instead of it, within them: a full pipe has bytes that can be read, unless a whole message is there that can be taken, unless the server is at its limit and then a handler or an answer can go on; the client always reads; then C87 |
| C89 | endless schedules with endlessly many requests; `Part` (who goes on), `World.MovesPart`, `World.InTurn` (Props/Starve.lean) | each direction of the connection as a trace (Fifo.lean): callers in turn, so a call reaches the permit after finitely many others; every byte written arrives; what arrived is taken; then the handler (at most 16 steps), the same for the answer, then the caller |
| C90 | finite histories with the permits in turn; `World.taken`, `Conn.requests`, `World.replies` (Props/Order.lean) | invariant `Queue`: what was encrypted has increasing call numbers, and every call that waits is behind it; the calls of the two sending halves are exactly the requests and the answers; what comes out is a prefix of what was encrypted |
| C91 | as C89, with `World.CanMove` of C88 for what the limits allow (Props/StarveLim.lean, Props/StarveFull.lean) | fairness within the limits implies the fairness C89 asks for, part by part: what is there is taken until the reader must read (`drained`), a pipe runs empty while nothing is written (`emptied`), a server that takes nothing finishes all it has in hand (`makes_room`); then C89 |
| C55, authentication in C25 | term algebra, attacker = network, any number of clients/servers/connections, leaks | secrecy and authentication invariant over all steps |

---

# Status of the finished development

## Trusted base

* **Lean 4.33.0's kernel.** Everything is checked by `lake build` in `lean/`; nothing rests on compiled evaluation. Concrete
  examples use `decide` / `decide +kernel` (kernel reduction), never compiled code.
* **Axioms.** No axiom is declared. The theorems listed in MANIFEST.json depend on subsets of Lean's three standard axioms `propext`,
  `Classical.choice`, `Quot.sound`; `AXIOMS.md` (generated by `tools/axioms.py` from `#print axioms`) lists them theorem by theorem.
* **The model is what the Rust code does.** This correspondence is by reading, function by function; every definition cites the file
  and lines it models and says where it simplifies. Nothing was executed (no dependencies available).
* **Cryptographic primitives** are a parameter (`Crypto`, `SStream`, `Kx`, with `Lawful` structures of functional laws). All theorems hold for
  every lawful instance. Laws are consistent: concrete instances are given (`Toy.lawful`, examples in Props). Security assumptions, where a
  property needs one, are explicit hypotheses of that theorem on the particular keys: no deep-locked cipher that `OpensTwice` (C13, C18, C56), `Unforged` (C27),
  `SealsHide`, `Alike`, `HiddenPass` (C49), `LabelsSeparate`, `SealsApart` (C50). Each is shown satisfiable by an example beside the theorem.
* **Definitions used in statements.** `Verif/Props/Vocab.lean`, `StoreSpec.lean`, `SecrecySpec.lean`, `KeystoreSpec.lean` (the
  sequential keystore), `Linearizable.lean`, `WorldLin.lean`, `ClientApi.lean`, `ClientMethods.lean` and the `Sys.run` semantics (`System.lean`) are the
  specifications to read; `HandlerSpec`, `Logic`, `*Lemmas`, `Secrecy`, `Oblivious`, `KeystorePoints`, `KeystoreLin*`, `KeystoreRoom` are proof devices that no property statement mentions.

## What is modelled, where

| Rust | Lean | Level |
|---|---|---|
| lair_keystore_api/src/encoding_types.rs | Basic, Base64, Entry | bytes |
| lair_store.rs (entries, insert_seed, insert_deep_locked_seed, insert_wka_tls_cert) | Entry, Server | all cases |
| mem_store.rs | MemStore, AMap | three maps, all methods |
| lair_keystore/src/store_sqlite.rs: queries | SqlStore | rows, UNIQUE, encoded data, size limit |
| … connection pool | Pool | every interleaving of semaphore / mutex / blocking task |
| … key pragma, salt pragma, temporary file name | KeyPragma, Labels | characters |
| … opening and migration | Migration, MigrRace | files, crash between any two operations; any number of processes at once, names and open files apart |
| lair_api.rs, lair_api/*.rs | Api, Codec, Msgpack, MsgpackWire, CodecSpec, CodecExact | all 35 messages, bytes on the wire, in every MessagePack format (structs as maps with text keys) |
| lair_server/priv_srv.rs, priv_api.rs | Server, System, Lru | all 17 handlers as programs over atomic actions, caches, dispatch, any number of connections, arbitrary interleaving, injected failures, crashes |
| lair_server.rs (fallback) | Fallback, FallbackGens, Json | queue, two loops, sub-process; starting, replacing and giving up sub-processes; text of requests and replies |
| sodium_secretstream.rs, framed.rs, crypt.rs, inner.rs | Frame, SecretStream, Sender, Handshake | bytes, chunked arrival, concurrent senders, cancellation |
| the composition: client table, senders, links, network, server | World | a connection starts with both ends' stream states; the set-up is C25/C55, and Dial puts it in front (C78) |
| lair_client.rs: which request each client method sends and what its answer means | ClientApi, ClientMethods, KeystoreSpec | all methods as calls of a sequential keystore |
| same files and unlock, against an active attacker | Symbolic | terms, perfect cryptography |
| lair_client.rs, async_io.rs, ipc_keystore.rs, in_proc_keystore.rs | Client, Handshake | pending table, time-outs, connect procedure |
| ipc_keystore.rs (accepting task), raw_ipc.rs | Accept, Socket | handshakes as far as the bytes received allow; socket file operations of several processes |
| flow control of inner.rs, framed.rs, priv_srv.rs, async_io.rs, in_proc_keystore.rs | Flow | amounts of bytes, bounded pipes, limits |
| config.rs | Config, ServerStart | generation, opening, printing, URL |
| lair_keystore/src/pid_check.rs, server.rs | PidFile | system calls of any number of processes, crashes |
| bin/lair-keystore-bin/*.rs | Cli | passphrase input, init, import-seed, url |
| lair_store.rs called directly: LairServer::store, InProcKeystore::store, IpcKeystoreServer::store | Local | every method, as one step |
| several processes with one store file (store_sqlite.rs:77-115, cmd_import_seed.rs) | Multi | each store access one atomic step; waiting for locks not modelled |
| server.rs + Srv::new + SqlPool::new_sync as the life of a keystore | Life | starts step by step, several at a time; a start with migration is one step, cut off after any change of the files |
| internal/tls.rs | Tls | rcgen as a parameter with laws |
| lair_keystore server.rs 17-92 with pid_check.rs and raw_ipc.rs together | Boot | pid check, socket, unlocking in order; a process may end between any two system calls |
| everything together: several servers, their clients, connections, network, handles | MWorld | as World and Multi; a connection belongs to the process that accepted it; connections are numbered through all processes |
| power failures: WAL + synchronous (store_sqlite.rs:203, 561-582), config file (cmd_init.rs:33-41) | Durable | rows since the last checkpoint may be lost from the end; unsynced file may be empty, cut or absent |
| handshakes on the way, `sodium_secretstream.rs`:108-326 with the accept loop and the world | Dial | an unacceptable sealed message is noticed when the handshake's bytes are complete |
| the whole life: starts from the configuration, crashes, servers, their clients and handles | KWorld | Life and MWorld together; a process that has ended does nothing more |
| hc_seed_bundle | SeedBundle, PwLimits, Msgpack | bundles, ciphers, answers, limits |

## What is not modelled

* Certificates: rcgen, ring and the DER format (`Tls.Rcgen`); theorems other than C71 allow any certificate generator.
* libsodium, SQLite/SQLCipher, YAML (serde_yaml), serde_json, structopt, tracing: treated as described in the header of each module.
* Memory protection (`mlock`, zeroing), side channels, timing. Time-outs are events that may happen at any moment.
* Logs and the text of errors except where the code sends them to a client.
* Windows (named pipes). Power failures during the one-time encryption of a database (other power failures: C77), and disks that lose synced data.
* Structs written as MessagePack arrays, and maps whose keys are byte strings or field numbers: serde accepts them for a struct, the model's decoder does not. The same for a text field written as MessagePack binary that is UTF-8.
* Commits with an unknown outcome: a transaction whose commit reports an error is taken not to have happened (SQLite rolls it back;
  rusqlite's `Transaction` does so when it is dropped), and one whose commit reports success has.
* SQLite's WAL files (what is committed is in the file; so for several processes at once, MigrRace says what happens once a process has closed its store).

## Findings: where the code does not have the property

For each, the negation is proved on a concrete or general reachable case and the property proved in the part that holds.

| Prop | Violation | Theorem |
|---|---|---|
| C03 | a reply whose encoding (and then the error replacing it) does not fit a frame is never sent; the client waits until its time-out | `C03_reply_can_be_missing` |
| C04 | the refusal quotes the whole message, so for long messages nothing is sent | `C04_refusal_can_be_silent` |
| C07 | creation with a tag of about 8 kB adds the entry but answers with an error | `C07_error_reply_although_added` (exactly: `C07_error_although_added_iff`) |
| C15 | any failure while looking up a held key falls through to the external signer, which is given the key and the data | `C15_failure_forwards_held_key` |
| C20 | deriving from a deep-locked seed uses the limits of the request, not those stored with the seed | `C20_other_limits_fail` |
| C27 | a message too large for a frame advances the cipher state before it is refused; everything later on that connection is undecipherable | `C27_oversize_message_breaks_channel` |
| C28 | a frame shorter than 17 bytes makes the receiver panic (subtraction overflow) | `C28_short_frame_panics`, `C28_short_frame_always_panics` (exactly: `C28_panic_iff`) |
| C31 | dropping a send future midway loses the sending half; later sends panic | `C31_dropped_send_breaks_others` |
| C85 | the same, end to end: after a client gave up a request while its bytes were being written, no later request on that connection succeeds | `C85_cancel_while_writing_is_fatal` |
| C32 | pending fallback requests are keyed by the client-chosen message id, so two clients with the same id get each other's answers | `C32_same_id_confused` |
| C36 | `UnsupportedCipher` is never produced: an unknown cipher makes the whole bundle unreadable | `C36_unknown_cipher_refused` |
| C38 | the boundaries between security answers are not part of the passphrase | `C38_boundary_ignored` |
| C39 | nested limit scopes restore the default, and a panic in a scope leaks its limits | `C39_nested_scope_lost`, `C39_panic_leaks` |
| C41 | printing a config adds an empty line inside a kept block scalar | `C41_kept_block_changes` |
| C42 | the process-name check compares with the package name `lair_keystore`; the shipped executable is `lair-keystore`, so a running server is treated as stale; further: race on a stale file, crash between create and write, own recycled number | `C42_shipped_executable_not_recognised`, `C42_race_on_stale_file`, `C42_crash_blocks_later_starts`, `C42_own_number_refused` |
| C43 | a crash between removing the plain store and renaming the encrypted one makes the next start create an empty store, and later migrations fail | `C43_crash_loses_entries`, `C43_crash_blocks_later_migration` |
| C43 | two processes that migrate at the same time can lose all entries without any crash, both starting successfully; the later one can replace the store of the earlier one, losing what that has stored since; a process that opens the store between the removal and the renaming is given an empty one, and what it stores is lost | `C43_two_migrations_lose_everything`, `C43_second_migration_loses_new_entry`, `C43_start_during_migration_loses_entries` |
| C44 | a cancelled or panicking operation loses its connection for good | `C44_cancelled_write_loses_connection`, `C44_panic_loses_connection` |
| C48 | a crash between creating and filling the config file blocks every later init | `C48_crash_leaves_truncated_file` |
| C51 | a keystore with 57 seeds (85 entries of any kind) can never again be listed | `C51_large_keystore_never_listed`, `C51_too_many_entries` (exactly: `C51_listed_iff`) |
| C53 | a root directory with `#`, `?`, `%XX`, a tab or a line end gives a connection URL that leads elsewhere (and exactly these do) | `C53_hash_in_root`, `C53_question_mark_in_root`, `C53_percent_in_root`, `C53_tab_in_root`, `C53_leads_to_socket_iff` |
| C79 | 4096 requests kept by a silent external signer make their connection unusable for everything: the server sets no time limit and each keeps a place | `C79_full_connection_is_dead`, `C79_signer_kills_the_connection` |
| C77 | acknowledged entries can be lost at a power failure: WAL with `synchronous = 1`; so can a configuration whose `init` reported success, which is never synced | `C77_everything_since_the_checkpoint_can_be_lost`, `C77_acknowledged_seed_lost`, `C77_config_can_be_lost` |
| C54 | `import-seed` cannot be given a passphrase that ends in blanks | `C54_blank_at_the_end` |
| C57 | after one message that is too large for a frame (request or response) no later request on the connection succeeds | `C57_connection_useless_after_large_message`, `C57_large_request_refused` |
| C55 | (limit, by design) who has the server's identity key gets the passphrases of later connections | `C55_leaked_identity_key_suffices` |
| C61 | one failing `accept` call ends accepting for good; 4096 clients that connect and say nothing keep everybody else out | `C61_accept_failure_is_final`, `C61_silent_clients_keep_others_out` |
| C62 | starting a second server, even with a wrong passphrase, takes the socket file of the running one, which is never reachable again | `C62_second_start_takes_the_socket`, `C62_lost_for_good` |
| C73 | with the executable as built, a second start (even one that fails) leaves the running server unreachable for ever; under any name, two starts that overlap on a stale pid file leave two servers of which one is unreachable | `C73_shipped_second_start`, `C73_race_on_stale_file` |
| C64 | the 30 seconds of a request start after it has been sent; a send to a server that does not read never ends | `C64_send_waits_for_ever`, `C64_no_timeout_while_sending` |

## Method notes

* A connection task that panics, or is dropped, takes its unfinished handlers with it. This needs no event of its own: the scheduler need not be fair, so a dropped
  handler is one that is never stepped again, and a write it had handed to a blocking thread is a step taken before.
* Concurrency: `Sat` (Logic.lean) is a rely/guarantee predicate on handler programs; the rely is "entries are only appended, unlock flags only set, invariant
  holds". `handle_ok` proves it for all handlers, `sysInv_run` lifts it to every run.
* C49 is a two-run (relational) argument: `PSim` relates handler programs, `ShSim` shared states, `SysSim` systems; `psim_step` shows one action preserves it.
* Mutation testing: `seeded/LOG.jsonl` records wrong programs tried against the theorems and what failed.
