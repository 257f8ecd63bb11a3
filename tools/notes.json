{
 "C03": {
  "note": "At most one reply, matching id/kind/connection, no spontaneous message: proved for all schedules. 'Exactly one' is false of the code when the reply does not fit a frame or cannot be sent (C03_reply_can_be_missing); C03_exactly_one_reply_partial covers deliverable replies. C03_short_requests_answered_partial states it in the client's terms: an id of at most 7000 bytes is enough, whatever the request, as long as the environment's own error texts have at most 1000 bytes (both stores' have)."
 },
 "C04": {
  "note": "Refused without effect: full. That the refusal is actually sent needs it to fit a frame (C04_refusal_can_be_silent is the counterexample)."
 },
 "C07": {
  "note": "An error reply after the entry was added is possible when the success reply exceeds the frame limit (C07_error_reply_although_added); the partial theorem covers every other case. In the client's terms: C07_short_requests_error_adds_nothing_partial (an error reply to a request whose id and tag are short means that nothing was added). Exactly when an error is reported although an entry was added: C07_error_although_added_iff."
 },
 "C15": {
  "note": "False of the code: any failure to use a held key falls through to the external signer (C15_failure_forwards_held_key); the partial theorem excludes store faults."
 },
 "C20": {
  "note": "False of the code: limits are taken from the request, C20_other_limits_fail is the counterexample; the partial theorem requires the original limits."
 },
 "C27": {
  "note": "Received is always a prefix of sent, nothing after an error: full (under Unforged, i.e. no frame accepted that the peer did not produce). Delivery of all sent messages is false of the code once one message is too large (C27_oversize_message_breaks_channel); the partial theorem covers runs where all fit."
 },
 "C28": {
  "note": "False of the code: frames shorter than 17 bytes panic (C28_short_frame_panics). C28_panic_iff says exactly which byte strings make a receiver panic, whatever their pieces and the polling: those with a frame of fewer than 17 bytes after frames that open to messages. Nothing else does."
 },
 "C25": {
  "note": "Byte level: both ends derive the same keys. Authentication against an active attacker: C25_symbolic_client_authenticates in the symbolic model (Verif/Symbolic.lean)."
 },
 "C31": {
  "note": "Any interleaving of concurrent senders sharing the write half. The code's behaviour when a send future is dropped midway is the violation C31_dropped_send_breaks_others, so the no-panic statement carries the hypothesis that no send is dropped midway and no I/O error occurs."
 },
 "C32": {
  "note": "One sub-process generation (C66: several), requests and replies as records (C67: their text). Violation shown: C32_same_id_confused (client-chosen message ids collide)."
 },
 "C36": {
  "note": "Exact in both directions (C36_exact) for maps with text keys in UTF-8; other keys that serde would accept for a field are not modelled."
 },
 "C38": {
  "note": "Weakness shown: only the concatenation of the answers matters, so a letter may move from one answer to the next (C38_boundary_ignored)."
 },
 "C39": {
  "note": "False of the code for nested scopes (C39_nested_scope_lost) and panics (C39_panic_leaks); the partial theorem covers all programs without nested scopes and panics in scopes."
 },
 "C40": {
  "note": "Opens with its passphrase and the identity is the URL's: proved (URL part for canonical roots without '#', '?', tab and line ends; see C53 for those). Which other passphrases are accepted: exact characterisation, and a reduction to an explicit failure of a primitive."
 },
 "C41": {
  "note": "Only comments and blank lines are added: full. Values: a kept block scalar (an argument of the fallback command ending in two line ends, last before databaseSalt) gains a line end, C41_kept_block_changes; the partial theorem covers all other chomping."
 },
 "C53": {
  "note": "False of the code for roots with '#', '?', '%XX', tab or line ends: C53_leads_to_socket_iff says for exactly which roots it holds, the counterexamples what happens for the others (C53_tab_in_root: for every such root)."
 },
 "C42": {
  "note": "The unrestricted property is false of the code: the running executable is named `lair-keystore` and is recognised only through a process name comparison that the shipped binary's name does not satisfy (C42_shipped_executable_not_recognised), two starts can both replace a stale file (C42_race_on_stale_file), a crash between the two steps blocks later starts (C42_crash_blocks_later_starts), a recycled own pid is refused (C42_own_number_refused). The _partial theorems carry the conditions under which exclusion holds; stale replacement is proved in full."
 },
 "C43": {
  "note": "Entries are never lost from the disk (C43_entries_always_somewhere) and a completed migration keeps all of them. After a crash between the removal and the rename the store at the configured path is a new empty one (C43_crash_loses_entries) and later migrations fail (C43_crash_blocks_later_migration), so in-place recoverability is proved only for the other crash points (_partial). With several processes (MigrRace): two migrating starts at the same time lose all entries without any crash (C43_two_migrations_lose_everything), or entries reported as stored (C43_second_migration_loses_new_entry, C43_start_during_migration_loses_entries); migrations in turn are safe beside anything else (C43_migrations_in_turn_partial). If migrating starts do not overlap the entries never leave the disk, wherever anyone crashes (C43_never_gone_from_disk)."
 },
 "C44": {
  "note": "Exclusive use and the 1 writer / 3 readers bound hold in every interleaving. `Never lost` is false when an operation is cancelled inside a transaction or a transaction panics (C44_cancelled_write_loses_connection, C44_panic_loses_connection, and the loss is permanent: C44_lost_connection_never_returns); it is proved for every run without these two events (_partial)."
 },
 "C48": {
  "note": "At most one of many concurrent inits succeeds and a success is lasting. A crash between creating and filling the file leaves a truncated configuration which blocks every later init (C48_crash_leaves_truncated_file)."
 },
 "C54": {
  "note": "False of the code in general: C54_importable_iff_plain characterises exactly the passphrases import-seed can receive; C54_blank_at_the_end is a concrete keystore passphrase it cannot."
 },
 "C49": {
  "note": "Perfect-cryptography (noninterference) form: the adversary controls every client, the schedule, crashes, failures, salts and nonces; if the operations published by the API do not tell two seeds apart (Alike) and sealing hides (SealsHide), the whole transcript is the same. Hypotheses on primitives are named in SecrecySpec and met by the instance in SecrecyEx; a contrast example shows that exportable seeds are told apart."
 },
 "C51": {
  "note": "The full property is false of the code: proved negation for every history (C51_large_keystore_never_listed, C51_too_many_entries) and the positive part for keystores whose listing fits a frame. Exactly which keystores can be listed: C51_listed_iff."
 },
 "C55": {
  "note": "Symbolic (Dolev-Yao) model Verif/Symbolic.lean: perfect cryptography, terms instead of bytes; lengths, stream headers and stream positions are left out (C27 covers order on a stream). The leak condition is shown necessary by a concrete attack."
 },
 "C56": {
  "note": "Model Verif/World.lean joins the models of the pending table, the shared sender, the frame and stream codecs, the receive loops and the server with its concurrent handlers. Hypotheses: the stream cipher is lawful and nobody forges (Unforged), and the message ids chosen on the connection differ (FreshIds; 21 random characters in the code)."
 },
 "C57": {
  "note": "False of the code; proved negation for every run and reachability of the bad state. The positive side (no oversize message: the connection keeps working) is C58.",
  "status": "partial"
 },
 "C58": {
  "note": "Liveness as existence of a continuation: from every reachable state of the composed system, there are events (of the new connection and of the handlers of its requests only) after which all requests have the results of the sequential specification seqRun. That tokio eventually schedules tasks is assumed, not modelled."
 },
 "C59": {
  "note": "All four kinds of creation; stated through Repr (an entry stands for an item in the clear) and, for the source of a derivation, HoldsSeed / OpensDeep."
 },
 "C60": {
  "note": "Linearizability of the server model against the sequential keystore of KeystoreSpec.lean (items in the clear, no caches, ciphers, schedules). Explains in Linearizable.lean is the definition: right answers, final contents, each request once, real-time order, completeness. Hypotheses: whether a passphrase can be hashed depends only on the limits; no deep-locked entry is opened by two of the passphrases and limits in use (a collision of the cipher, not excluded by the laws). Room: everything in memory, encodings up to a billion bytes in SQLite (both proved)."
 },
 "C61": {
  "note": "False of the code in two ways, both proved: one failing accept call ends accepting for good (try_unfold ends after an error), and 4096 silent clients keep everybody else out (for_each_concurrent(4096) over handshakes that have no time-out). What holds: with the socket open and fewer than 4096 handshakes held up, every maximal run of the server's own steps serves every client with a proper handshake, and every run ends after at most two steps per client."
 },
 "C62": {
  "note": "False of the code by itself (ipc_bind removes the file whoever owns it, before the passphrase is checked); holds for histories in which servers start one at a time, which is the pid file's job (C42)."
 },
 "C63": {
  "note": "Byte-granular model of buffers, sender queues and the concurrency limit; contents are abstracted (C56-C58 are about contents). Handlers are assumed to end. Handshake: no deadlock for buffers of at least 24 bytes, with a deadlock shown for 23; the code uses 4096 in process."
 },
 "C64": {
  "note": "False of the code: the 30 seconds start only after the send completes, and a send to a server that does not read never does once the buffer is full (both proved). What holds: once sent, or once the send fails, the request returns."
 },
 "C65": {
  "note": "Composition of C56 (what clients, connections and server exchange) with C60 (linearizability of the server), over the World model; ExplainsClients in WorldLin.lean is the definition, stated in terms of request/result of the client library only. NeverForged is the assumption on the network (the cipher's authenticity, at every moment). Signatures when an external signer is configured are left out, since a lookup failure goes to it (C15). C65_method_makes_its_call is about every method with passphrases in the clear."
 },
 "C66": {
  "note": "FallbackGens.lean composes one copy of the C32 machine per sub-process with the lock-protected current sub-process. That a process whose Child was dropped no longer runs is taken from kill_on_drop. That the signature is correct is up to the external program. There is no timeout on the server's side: a program that reads and never answers leaves its callers waiting (the client's own timeout ends that, C64); this is not counted as a violation because the property speaks of programs that answer or end."
 },
 "C67": {
  "note": "serde_json's writer and reader are modelled from its documentation and RFC 8259 (Json.lean), since the crate itself is not in the sandbox; the grammar of JSON texts (JsonGrammar.lean) and of replies (JsonReplies.lean) are inductive relations, and the reader is proved to accept exactly them. Texts are characters: UTF-8 coding of the pipe is not modelled; there is no limit to the nesting (serde_json: 128)."
 },
 "C68": {
  "note": "A call of the handle is one step of the model: each method accesses the store exactly once (C68_one_more_client then shows that it is a block of steps of one more client). Lookups return whole entries and have no corresponding request; C68_lookup speaks about them directly. C68 requires that some passphrase of the keystore exists (HasPassphrase), for the client it is compared with to be able to unlock."
 },
 "C35": {
  "note": "Exact in both directions (C35_exact) for maps with text keys. Structs written as arrays and maps whose keys are byte strings or field numbers, which serde also accepts, are not modelled; the same holds of C34."
 },
 "C69": {
  "note": "Every access of the store is one transaction and one step of the model; waiting for the lock of another process is not modelled, its time-out (busy_timeout) is one of the failures that may be injected into any access. The positive counterpart of C42: that two servers can run is a violation of C42, but the store does not suffer from it (what suffers is the socket, C62)."
 },
 "C70": {
  "note": "Starts without migration go step by step, any number at the same time, each of which may crash at any step; a start with migration is one step that may be cut off after any of its changes of the files (two migrations at the very same time are not modelled). Pid file and socket are C42 and C62 (both are touched even by a start with a wrong passphrase). A migration cut off midway is excluded: it can lose the store from its path, C43. That a configuration opens to one secret only (OneSecret) holds unless a cryptographic primitive fails: C70_one_secret."
 },
 "C71": {
  "note": "rcgen/ring and the X.509 format are a parameter with laws (what was written is read back; a signature verifies with its key; a private key is read back). Algorithm and validity dates are not in the model. A failure of rcgen is one of the faults that can happen at the allocation before it."
 },
 "C72": {
  "note": "One sequential history of calls explains everything that all servers on one file and all users of their store handles observe; non-overlapping operations keep their order, across processes too. Specification: Verif/MultiLin.lean (MExplains). The lookups by key of the handle are not calls of the sequential keystore; C68/C69 cover them. Assumptions as in C60."
 },
 "C73": {
  "note": "Violated by the code: the pid check looks for a process named lair_keystore, the executable is called lair-keystore, so a second start - even with a wrong passphrase - takes the socket file from the running server, which is then unreachable for ever (C73_shipped_second_start); and two checks that overlap on a stale file can both succeed (C73_race_on_stale_file). Proved in full for executables of the recognised name whose checks do not overlap (_partial theorems), and that a start succeeds whatever earlier servers left behind (C73_start_succeeds)."
 },
 "C74": {
  "note": "End-to-end version of C72: the explanation is in terms of what clients and handle callers asked and got. Assumes, like C60, that argon2id works or not by limits alone and that no deep-locked entry opens under two of the passphrases in use; unforged connections (C25/C55) and distinct message ids."
 },
 "C75": {
  "note": "The two-world theorem is that of C49 (same hypotheses): what is compared is the content of the store instead of what is sent. That a sealed box itself hides its content is an assumption about the primitive and is not proved."
 },
 "C76": {
  "note": "About what is kept between requests (the caches). A request in progress holds what it works on; memory it has released is not modelled."
 },
 "C13": {
  "note": "For deep-locked seeds under the hypothesis that the stored cipher of that very seed does not open to two different seeds under two keys (the code does not compare the opened seed with the requested key)."
 },
 "C77": {
  "note": "Violated: the database is in WAL mode with synchronous = 1 (NORMAL), so a power failure can take it back to the last checkpoint (C77_everything_since_the_checkpoint_can_be_lost, C77_acknowledged_seed_lost), and init never syncs the configuration file (C77_config_can_be_lost). Proved: what survives is a prefix and a good keystore, what was checkpointed or flushed is never lost, process crashes lose nothing, and with synchronous = 2 nothing would be lost."
 },
 "C78": {
  "note": "The handshakes of clients come through unaltered (altered ones are C25); nobody forges on the stream afterwards; what strangers send is arbitrary. Composes C25 (handshake), C56/C65 (the world of connections)."
 },
 "C79": {
  "note": "Violated on the asking connection: after 4096 requests kept by a silent signer nothing is answered there any more (C79_full_connection_is_dead, C79_signer_kills_the_connection). Proved: with fewer everything else is answered (_partial), the signer's silence does keep requests for ever (C79_silent_signer_answers_nobody), and no request waits for another's handler (C79_others_need_nobody; other connections: also C58)."
 },
 "C80": {
  "note": "Model Dial.lean; the server's keys are only those of serverAccept (Handshake.lean). Who can make an acceptable handshake: C31, C75."
 },
 "C81": {
  "note": "Composition of C70 (disk, starts, crashes) with C74 (servers, connections, clients): KWorld.lean. ExplainsLife is the specification, in terms of what clients and handle callers asked and got; LifeAssumed lists the assumptions (those of C70 and C74). A migration that is cut off midway is excluded (C43); pid file, socket (C73) and power failures (C77) are not part of this."
 },
 "C82": {
  "note": "Simulation of the client's requests on the other keystore (Blind.lean, SoloSim); specification: seen, NeverRight, SameFront, OnlyFrom at the top of Blind.lean. Possibilistic: which runs are possible, not how likely or how fast; timing (e.g. of a busy server) and the size of the queues are not modelled. Injected failures of allocations are choices of the environment."
 },
 "C83": {
  "note": "Simulation of everyone else's requests in the same run with the others removed (Blind.lean, RestSim). The shared state (store, caches, flags) stays equal, not only what is stated. Resource exhaustion by such clients (connections, memory, cpu) is not modelled."
 },
 "C84": {
  "note": "Lifts C82 and C83 through the encrypted connections and the network of World.lean: equality of whole connections, the record of all bytes included. Timing and the shared limits of the machine (memory, sockets; C61) are not part of the comparison."
 },
 "C85": {
  "note": "The positive side of C27, C31 and C57: `Conn.Fine` is a condition on the state, `World.Breaks` lists all events that can end it. That sends get through is a statement about what can happen next (the permit is passed on, the network delivers), as in C58; that everything listed is fatal is proved for the too large message (C57) and for the request given up while being written."
 },
 "C86": {
  "note": "What can happen, as in C58 and C85 (the scheduler, the network and the handlers are let go on; the 30 second timeout of the client is not forced to fire). The fit hypothesis is about the requests still running only; when a reply does not fit see C28 and C57."
 },
 "C87": {
  "note": "Holds under every schedule that does not stall the connection (hypothesis 3 of the theorem; the weakest fairness: something that can go on is followed, some time, by something that goes on - it need not be the same thing). New requests are excluded because a client that never stops asking can, in the model, keep an older request waiting (the semaphore's queue order is not modelled). That answers fit a frame is part of 'nothing breaks the connection'."
 },
 "C88": {
  "note": "C63 shows the same for an abstract model of amounts of bytes; here it is the full model with real messages, handlers and store. The limits restrict which events may happen next; they never leave a connection with a running request and no event. As for C87, further requests on the connection are excluded."
 },
 "C89": {
  "note": "Unlike C87, C88 further requests may be made for ever. The price is a stronger fairness assumption: each part of the system on its own, and permits in turn (tokio's Semaphore is documented to be fair). The schedule starts at the connection, so that the turns are kept from the beginning. The capacity limits of C88 are not in this theorem."
 },
 "C90": {
  "note": "The order of the handling itself is not claimed: handlers run concurrently. An example shows that without turns the server may take the second request first."
 },
 "C91": {
  "note": "Two theorems: with only the server's limit, and with all limits. The schedule itself need not keep to the limits (one that does is a special case); what is not asked is that a part goes on while a limit holds it back."
 }
}