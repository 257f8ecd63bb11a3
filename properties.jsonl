{"id": "C01", "title": "Locked connections obtain nothing and change nothing", "statement": "On a connection whose Unlock has not yet succeeded, every request other than Hello and Unlock is answered with an error only, and it neither adds an entry to the keystore nor changes any cached secret. This holds even while other connections are unlocked and have requests in flight.", "quantifier": "all keystore contents, all numbers of connections, all requests, all interleavings of the in-flight request handlers", "why_tests_cant": "A test exercises a handful of request kinds on one schedule; a missing check in one handler or a check performed on the wrong connection's flag only shows for particular request/schedule combinations.", "anchors": ["crates/lair_keystore_api/src/lair_server/priv_api.rs:priv_req_*", "crates/lair_keystore_api/src/lair_server/priv_srv.rs:priv_get_store", "crates/lair_keystore_api/src/lair_server/priv_srv.rs:priv_srv_accept"]}
{"id": "C02", "title": "Unlock succeeds exactly for the right passphrase, per connection, and is never undone", "statement": "An Unlock request succeeds if and only if the presented (client-encrypted, pre-hashed) passphrase decrypts the configured identity seed to the identity whose public key the server announces; success unlocks only the connection it arrived on; failure leaves it as it was; no later request locks it again.", "quantifier": "all configurations, passphrases, connections and interleavings", "why_tests_cant": "Which connection flag is written and what happens after arbitrary later requests ranges over unbounded histories.", "anchors": ["crates/lair_keystore_api/src/lair_server/priv_api.rs:priv_req_unlock"]}
{"id": "C03", "title": "Every request gets exactly one reply, with its own message id and of its own kind", "statement": "When a request's handler has finished, exactly one message was sent for it, on the connection it came from, carrying the request's message id, and it is either the response type paired with that request type or an error message. No message is ever sent that does not answer a received message.", "quantifier": "all requests (17 request kinds and every message that is not a request), all connections, all interleavings", "why_tests_cant": "Reply counting across concurrent handlers is a property of all schedules.", "anchors": ["crates/lair_keystore_api/src/lair_server/priv_srv.rs:priv_srv_accept", "crates/lair_keystore_api/src/lair_server/priv_srv.rs:priv_dispatch_incoming", "crates/lair_keystore_api/src/lair_api.rs:AsLairRequest"]}
{"id": "C04", "title": "Response-typed messages sent to the server are refused without effect", "statement": "If a client sends the server a message that is not a request (any of the response kinds, or an error), the server answers with an error bearing the same id and changes nothing, whether or not the connection is unlocked.", "quantifier": "all 18 non-request message kinds, all states, all schedules", "why_tests_cant": "Ranges over every state and message.", "anchors": ["crates/lair_keystore_api/src/lair_server/priv_srv.rs:priv_dispatch_incoming"]}
{"id": "C05", "title": "Entries are permanent and immutable", "statement": "Once an entry exists under a tag, every later state of the keystore returns exactly that entry for that tag, and for its signing and encryption public keys; no request of any client, in any interleaving, removes or changes it.", "quantifier": "all histories of requests over any number of connections, all interleavings", "why_tests_cant": "'Never overwritten' ranges over every later history.", "anchors": ["crates/lair_keystore_api/src/mem_store.rs:write_entry", "crates/lair_keystore/src/store_sqlite.rs:write_entry", "crates/lair_keystore/src/sql/schema.sql"]}
{"id": "C06", "title": "Tags and public keys are unique", "statement": "At no time do two entries of a keystore share a tag, a signing public key or an encryption public key, even when several creations with the same tag race.", "quantifier": "all reachable states, all interleavings", "why_tests_cant": "Races between check and insert cannot be exhausted by tests.", "anchors": ["crates/lair_keystore_api/src/mem_store.rs:write_entry", "crates/lair_keystore/src/store_sqlite.rs:write_entry"]}
{"id": "C07", "title": "A refused or failed request leaves the keystore contents unchanged; an accepted creation adds exactly one entry", "statement": "If a creating request (new seed, new certificate, derive, import) is answered with an error, the entries are exactly those before; if it is answered with success, exactly one entry with the requested tag was added, whose public information is that in the response.", "quantifier": "all creation requests, all states, all random values", "why_tests_cant": "All-or-nothing over every failure point of every handler.", "anchors": ["crates/lair_keystore_api/src/lair_store.rs:insert_seed", "crates/lair_keystore_api/src/lair_server/priv_api.rs:priv_req_new_seed"]}
{"id": "C08", "title": "The in-memory store behaves as a simple write-once table", "statement": "For every sequence of writes and lookups, the in-memory store accepts a write exactly when its tag, signing key and encryption key are all new, lookups by tag/signing key/encryption key return exactly the accepted entry having it, and listing returns each accepted entry's public information exactly once.", "quantifier": "all operation sequences", "why_tests_cant": "Unbounded operation sequences.", "anchors": ["crates/lair_keystore_api/src/mem_store.rs"]}
{"id": "C09", "title": "The SQLite store behaves as the same write-once table", "statement": "The same as C08 for the SQLite-backed store, including that the bytes it stores decode back to the entry that was written. (Entries whose encoding exceeds SQLite's limit of 10^9 bytes are refused.)", "quantifier": "all operation sequences and all entry contents", "why_tests_cant": "Unbounded sequences and arbitrary contents (tags, certificates of any size).", "anchors": ["crates/lair_keystore/src/store_sqlite.rs", "crates/lair_keystore/src/sql/schema.sql", "crates/lair_keystore_api/src/lair_store.rs:encode"]}
{"id": "C10", "title": "Both stores are interchangeable", "statement": "Running the same operation sequence against the in-memory store and the SQLite store gives the same acceptances, the same entries for all lookups and the same listing up to order; they differ only in error texts. (As long as no entry's encoding exceeds SQLite's limit of 10^9 bytes.)", "quantifier": "all operation sequences", "why_tests_cant": "Equivalence over all histories.", "anchors": ["crates/lair_keystore_api/src/mem_store.rs", "crates/lair_keystore/src/store_sqlite.rs"]}
{"id": "C11", "title": "List and get agree", "statement": "A tag appears in the list of entries exactly when getting that tag succeeds, and then with the same public information, exactly once.", "quantifier": "all reachable keystores and tags", "why_tests_cant": "All reachable states.", "anchors": ["crates/lair_keystore_api/src/mem_store.rs:list_entries", "crates/lair_keystore/src/store_sqlite.rs:list_entries", "crates/lair_keystore_api/src/lair_server/priv_api.rs:priv_req_get_entry"]}
{"id": "C12", "title": "The entry caches are invisible", "statement": "Every lookup the server makes through its bounded caches returns the same entry and the same secrets as an uncached read of the keystore at that moment, for any cache capacity, any eviction history and any interleaving of handlers; the caches never exceed their capacity.", "quantifier": "all capacities, histories and interleavings", "why_tests_cant": "Stale caches need particular eviction and race histories.", "anchors": ["crates/lair_keystore_api/src/lair_server/priv_api.rs:priv_get_full_entry_by_tag", "crates/lair_keystore_api/src/lair_server/priv_api.rs:priv_gen_and_register_entry", "crates/lair_keystore_api/src/lair_server/priv_srv.rs:SrvInner"]}
{"id": "C13", "title": "Signatures verify under the requested key", "statement": "If SignByPubKey succeeds without an external signer, the returned signature verifies for the requested public key and exactly the submitted data.", "quantifier": "all data, keys, states, interleavings", "why_tests_cant": "All inputs and cache histories.", "anchors": ["crates/lair_keystore_api/src/lair_server/priv_api.rs:priv_req_sign_by_pub_key"]}
{"id": "C14", "title": "A deep-locked seed's secret is used only with its own passphrase", "statement": "Any successful operation that uses the secret of a deep-locked seed carried a passphrase that, under the entry's salt, decrypts the stored seed; without a passphrase signing and deriving with it fail, and crypto-box, secret-box, export and import operations with it always fail.", "quantifier": "all requests and states", "why_tests_cant": "Every handler and state.", "anchors": ["crates/lair_keystore_api/src/lair_server/priv_api.rs"]}
{"id": "C15", "title": "The external signer is consulted only for keys the keystore does not hold", "statement": "A sign request for a key held by the keystore is never forwarded to the fallback command; for a key not held it is forwarded iff a fallback command is configured, and otherwise is an error.", "quantifier": "all keys, states, interleavings", "why_tests_cant": "Every cache/store history.", "anchors": ["crates/lair_keystore_api/src/lair_server/priv_api.rs:priv_req_sign_by_pub_key", "crates/lair_keystore_api/src/lair_server.rs:FallbackCmd"]}
{"id": "C16", "title": "Only exportable seeds are exported", "statement": "ExportSeedByTag succeeds only if the seed was created as exportable and is not deep-locked, and the cipher it returns is that seed boxed from the named sender key to the named recipient key.", "quantifier": "all requests, states, interleavings, cache contents", "why_tests_cant": "Every history that could confuse the flag (caches, derive, import).", "anchors": ["crates/lair_keystore_api/src/lair_server/priv_api.rs:priv_req_export_seed_by_tag"]}
{"id": "C17", "title": "Export then import transfers the seed", "statement": "Importing into a keystore holding the recipient key the cipher exported by a keystore holding the sender key succeeds when tag and keys are new, and the imported entry has the same signing and encryption public keys, with the exportable flag chosen by the importer; signatures made after import verify under the original key.", "quantifier": "all seeds, key pairs, nonces, keystore contents", "why_tests_cant": "All seeds and states.", "anchors": ["crates/lair_keystore_api/src/lair_server/priv_api.rs:priv_req_import_seed"]}
{"id": "C18", "title": "Derivation composes and matches seed bundles", "statement": "Deriving along path p++q equals deriving along p and then along q; the derived seed equals the one obtained by deriving the same path from an unlocked seed bundle of the same seed; an empty path is refused because the keys already exist.", "quantifier": "all seeds and paths", "why_tests_cant": "All paths of every length.", "anchors": ["crates/lair_keystore_api/src/lair_server/priv_api.rs:priv_req_derive_seed", "crates/hc_seed_bundle/src/unlocked_seed_bundle.rs:derive"]}
{"id": "C19", "title": "Exportability is inherited, never gained by derivation", "statement": "A derived seed is exportable exactly when its source seed is; the flag of an entry never changes.", "quantifier": "all chains of derivations and states", "why_tests_cant": "Chains of any length.", "anchors": ["crates/lair_keystore_api/src/lair_server/priv_api.rs:priv_req_derive_seed"]}
{"id": "C20", "title": "Deriving from a deep-locked seed works with the seed's own limits", "statement": "Deriving from a deep-locked seed with the passphrase it was created with succeeds. (The code uses the limits in the request rather than those stored with the entry, so this needs the caller to repeat the original limits.)", "quantifier": "all deep-locked seeds, passphrases, limits", "why_tests_cant": "All limit combinations.", "anchors": ["crates/lair_keystore_api/src/lair_server/priv_api.rs:priv_req_derive_seed", "crates/lair_keystore_api/src/lair_server/priv_api.rs:deep_unlock_key_from_passphrase"]}
{"id": "C21", "title": "crypto_box round trip", "statement": "A message encrypted by the keystore for a recipient key and decrypted by a keystore holding the recipient key is returned unchanged, for the encryption-key and the signing-key variants; a cipher shorter than the authenticator is refused with an error.", "quantifier": "all messages, nonces, key pairs and states", "why_tests_cant": "All messages and lengths.", "anchors": ["crates/lair_keystore_api/src/lair_server/priv_api.rs:priv_req_crypto_box_xsalsa_by_pub_key", "crates/lair_keystore_api/src/lair_server/priv_api.rs:priv_req_crypto_box_xsalsa_open_by_pub_key"]}
{"id": "C22", "title": "secret_box round trip", "statement": "A message encrypted with the seed of a tag and decrypted with the same tag is returned unchanged; a cipher shorter than the authenticator is refused with an error.", "quantifier": "all messages and nonces and states", "why_tests_cant": "All messages.", "anchors": ["crates/lair_keystore_api/src/lair_server/priv_api.rs:priv_req_secret_box_xsalsa_by_tag"]}
{"id": "C23", "title": "TLS private keys are returned only for certificates and readable by the requesting connection", "statement": "GetWkaTlsCertPrivKey succeeds only for a certificate entry, and what it returns decrypts, with the requesting client's session key, to the private key generated with that certificate.", "quantifier": "all entries, connections, keys", "why_tests_cant": "All states and session keys.", "anchors": ["crates/lair_keystore_api/src/lair_server/priv_api.rs:priv_req_get_wka_tls_cert_priv_key", "crates/lair_keystore_api/src/lair_client.rs:get_wka_tls_cert_priv_key"]}
{"id": "C24", "title": "Reported keys are usable keys", "statement": "After a creation request for an ordinary seed has been answered successfully, signing with the reported signing key succeeds and verifies under it, and get-entry of the tag reports the same information. A deep-locked seed can be signed with, and derived from, with the passphrase it was created with, on any connection and after any restarts.", "quantifier": "all creation requests followed by any history", "why_tests_cant": "Any number of requests in between.", "anchors": ["crates/lair_keystore_api/src/lair_store.rs:insert_seed", "crates/lair_keystore_api/src/lair_server/priv_api.rs"]}
{"id": "C25", "title": "Client and server agree on all session and context keys", "statement": "After a completed handshake the client's send key is the server's receive key and vice versa, the two directions' context keys agree, and a passphrase the client encrypts decrypts at the server to its hash; the connection fails if the server cannot prove possession of the secret key behind the expected public key.", "quantifier": "all key pairs and session randomness", "why_tests_cant": "All key material.", "anchors": ["crates/lair_keystore_api/src/sodium_secretstream.rs", "crates/lair_keystore_api/src/lair_client/async_io.rs", "crates/lair_keystore_api/src/lair_server/priv_srv.rs"]}
{"id": "C26", "title": "Framing is lossless under any chunking and refuses oversize frames", "statement": "Any sequence of frames of at most 8192 bytes written to the stream is read back as the same sequence however the bytes are split; a longer frame is refused on sending, and a length prefix above the limit is refused on receipt before its body is read.", "quantifier": "all frame sequences and all splittings of the byte stream", "why_tests_cant": "All splittings.", "anchors": ["crates/lair_keystore_api/src/sodium_secretstream/framed.rs"]}
{"id": "C27", "title": "Encrypted messages arrive intact, in order, once", "statement": "On one direction of a connection the messages received are a prefix of those sent, in order; removed, reordered, replayed or altered frames end the stream with an error instead of delivering a wrong message; the end of the connection is noticed. (A message whose encoding exceeds the frame limit must not disturb later messages: violated by the code.)", "quantifier": "all message sequences, all tamperings", "why_tests_cant": "All sequences and alterations.", "anchors": ["crates/lair_keystore_api/src/sodium_secretstream/crypt.rs", "crates/lair_keystore_api/src/sodium_secretstream/framed.rs", "crates/lair_keystore_api/src/sodium_secretstream/inner.rs"]}
{"id": "C28", "title": "No input makes the receiver panic", "statement": "Whatever bytes the peer sends, receiving a frame yields a message or an error. (Violated: a frame shorter than 17 bytes underflows.)", "quantifier": "all byte sequences", "why_tests_cant": "All inputs.", "anchors": ["crates/lair_keystore_api/src/sodium_secretstream/crypt.rs", "crates/lair_keystore_api/src/encoding_types.rs:SecretData"]}
{"id": "C29", "title": "The client delivers each response to the request that asked for it", "statement": "A pending request completes with the response bearing its message id, with a timeout, or with a connection error, and at most once; unknown and late responses are discarded; no entry outlives its request in the pending table; when the connection ends every pending request fails.", "quantifier": "all interleavings of requests, responses, timeouts, cancellations and disconnection", "why_tests_cant": "All interleavings.", "anchors": ["crates/lair_keystore_api/src/lair_client/async_io.rs"]}
{"id": "C30", "title": "The passphrase is sent only to a verified server", "statement": "When connecting with a connection URL, the client sends the Unlock message only after the server's hello reported the public key in the URL and an accepted version; otherwise connecting fails and no passphrase-derived data was sent.", "quantifier": "all server behaviours", "why_tests_cant": "All server responses.", "anchors": ["crates/lair_keystore_api/src/ipc_keystore.rs", "crates/lair_keystore_api/src/lair_client.rs:hello", "crates/lair_keystore_api/src/in_proc_keystore.rs"]}
{"id": "C31", "title": "Concurrent senders never interleave frames", "statement": "Messages sent concurrently on one connection are written one whole frame after another, and a failed or cancelled send leaves the connection usable for the others or cleanly failed (violated under cancellation).", "quantifier": "all interleavings of senders and cancellations", "why_tests_cant": "All schedules.", "anchors": ["crates/lair_keystore_api/src/sodium_secretstream/inner.rs:PrivSend"]}
{"id": "C32", "title": "Every sign request given to the fallback command is answered exactly once", "statement": "Each request handed to the running fallback process is answered once: with the signature or error the process reported under its message id, or with an error if the process ends or replies malformed; requests with distinct message ids never receive each other's signature. (Two in-flight requests with the same message id, which different clients can choose, are confused.)", "quantifier": "all interleavings of requests, replies and process termination", "why_tests_cant": "All interleavings.", "anchors": ["crates/lair_keystore_api/src/lair_server.rs:FallbackCmd"]}
{"id": "C33", "title": "Base64 of binary values round-trips and wrong sizes are refused", "statement": "Every binary value is recovered from its printed text form; different texts accepted for a value cannot exist (canonical); a fixed-size value is accepted only with exactly its size.", "quantifier": "all byte strings and all texts", "why_tests_cant": "All lengths and texts.", "anchors": ["crates/lair_keystore_api/src/encoding_types.rs"]}
{"id": "C34", "title": "Stored entries decode to what was encoded", "statement": "Decoding the stored bytes of an entry gives back the entry, for every tag, key, limit, certificate and private key cipher. Stored bytes whose records are maps with text keys, as every version of the keystore writes them, are read as an entry exactly if they begin with a MessagePack form of that entry, whichever program or version wrote them; no bytes can be read as two different entries.", "quantifier": "all entries of all three kinds; all byte strings", "why_tests_cant": "All contents and sizes.", "anchors": ["crates/lair_keystore_api/src/lair_store.rs:encode", "crates/lair_keystore_api/src/lair_store.rs:decode"]}
{"id": "C35", "title": "API messages decode to what was encoded", "statement": "Each of the protocol's messages decodes, on the other side, to the same message kind with the same field values - also when another implementation or a newer version writes the fields in another order and adds fields the reader does not know. A message that names a field twice, lacks a field it needs or is of an unknown kind is refused, never guessed. In all: bytes whose records are maps with text keys are read as a message exactly if they begin with a MessagePack form of that message (serde's other forms of a record - arrays, numbered fields - are not covered).", "quantifier": "all messages of all kinds, all orders of their fields, all additional fields; all malformed messages; all byte strings", "why_tests_cant": "All contents, all field orders, all additions.", "anchors": ["crates/lair_keystore_api/src/lair_api.rs", "crates/lair_keystore_api/src/lair_api/*.rs"]}
{"id": "C36", "title": "Seed bundle encoding round-trips", "statement": "Decoding the bytes of a locked seed bundle yields the same ciphers and application data; bundles of another version or with an unknown cipher type are refused. In all: bytes (records as maps with text keys) are read as a bundle exactly if they begin with a MessagePack form of that bundle.", "quantifier": "all bundles with any number of ciphers, any app data; all byte strings", "why_tests_cant": "All sizes.", "anchors": ["crates/hc_seed_bundle/src/seed_cipher/seed_bundle.rs", "crates/hc_seed_bundle/src/seed_cipher/u8array.rs"]}
{"id": "C37", "title": "Every cipher of a seed bundle unlocks the same seed", "statement": "For a bundle locked with any list of passphrases and security-answer sets, unlocking any of its ciphers with the corresponding passphrase or answers returns the same seed and the application data.", "quantifier": "all lists of ciphers, passphrases, answers", "why_tests_cant": "All lists.", "anchors": ["crates/hc_seed_bundle/src/seed_cipher.rs", "crates/hc_seed_bundle/src/unlocked_seed_bundle.rs"]}
{"id": "C38", "title": "Security answers are compared up to surrounding blanks and ASCII case", "statement": "A seed bundle locked with security answers opens for answers that differ only by leading/trailing white space and ASCII letter case: what counts is exactly the lower-cased concatenation of the trimmed answers, so other answers give another passphrase unless they only move text across the boundary between answers (that the boundary does not count is a weakness of the code, shown).", "quantifier": "all answer triples", "why_tests_cant": "All strings.", "anchors": ["crates/hc_seed_bundle/src/seed_cipher/pw_utils.rs:process_security_answers"]}
{"id": "C39", "title": "Password-hash limits apply within their scope and are restored after it", "statement": "Within a with_exec scope the chosen limits are used, and afterwards the limits in force before it apply again (violated for nested scopes: the default is restored).", "quantifier": "all nestings of scopes", "why_tests_cant": "All nestings.", "anchors": ["crates/hc_seed_bundle/src/seed_cipher/pw_hash_limits.rs"]}
{"id": "C40", "title": "A generated configuration opens with its passphrase and yields the identity in its URL", "statement": "Starting a server from a newly generated configuration with the passphrase it was generated with succeeds, and the server's public key is the one in the configuration's connection URL; a passphrase whose derived secrets do not authenticate the stored secrets is refused.", "quantifier": "all passphrases, salts, limits and random secrets", "why_tests_cant": "All passphrases.", "anchors": ["crates/lair_keystore_api/src/config.rs:LairServerConfigInner::new", "crates/lair_keystore_api/src/lair_server/priv_srv.rs:Srv::new"]}
{"id": "C41", "title": "Printing a configuration only adds comments", "statement": "The printed configuration with comment and blank lines removed is the serialised configuration, so no value is lost or changed by printing.", "quantifier": "all configurations", "why_tests_cant": "All field values.", "anchors": ["crates/lair_keystore_api/src/config.rs:Display"]}
{"id": "C42", "title": "At most one keystore server per pid file", "statement": "If a live keystore server has written the pid file, another start is refused; a stale pid file is replaced; a crash at any point never blocks later starts (violated three ways: the name compared is not the executable's name, two starters can race, and a crash between creating and writing blocks).", "quantifier": "all interleavings of starters and crash points", "why_tests_cant": "All schedules and crash points.", "anchors": ["crates/lair_keystore/src/pid_check.rs"]}
{"id": "C43", "title": "Migrating an unencrypted database never loses it", "statement": "At every crash point of the migration the entries are recoverable at the store's path (violated between deletion and rename). An interrupted migration is completed by the next one. Other processes that open the store at the same time, to migrate it or not, neither lose its entries nor have their own lost (violated).", "quantifier": "all crash points; all interleavings of any number of processes", "why_tests_cant": "All crash points.", "anchors": ["crates/lair_keystore/src/store_sqlite.rs:encrypt_unencrypted_database"]}
{"id": "C44", "title": "Database connections are never lost or shared", "statement": "At every time each pooled connection is idle or in use by exactly one operation, at most three readers and one writer run, and an operation holding a permit always finds its connection (violated if an operation is cancelled or panics midway).", "quantifier": "all interleavings of operations, cancellations", "why_tests_cant": "All schedules.", "anchors": ["crates/lair_keystore/src/store_sqlite.rs:SqlPool"]}
{"id": "C45", "title": "The database key statement is well formed", "statement": "For every 32-byte key the pragma text sent to SQLCipher is x'..' with the 64 upper-case hexadecimal digits of exactly that key.", "quantifier": "all keys", "why_tests_cant": "2^256 keys.", "anchors": ["crates/lair_keystore/src/store_sqlite.rs:secure_write_key_pragma"]}
{"id": "C46", "title": "The piped passphrase loses at most one line ending", "statement": "The passphrase used is the piped text without one trailing newline (LF or CRLF) and otherwise unchanged.", "quantifier": "all inputs", "why_tests_cant": "All inputs.", "anchors": ["crates/lair_keystore/src/bin/lair-keystore-bin/main.rs:read_piped_passphrase"]}
{"id": "C47", "title": "import-seed stores the seed of the first cipher the passphrase opens", "statement": "Importing a bundle stores the seed that was locked in it under the requested tag if the bundle passphrase opens one of its password ciphers, and otherwise fails without creating an entry, whatever is piped to the command; the first non-blank line piped is the keystore's passphrase, the second the bundle's and the third, only with --deep-lock, the new deep lock's.", "quantifier": "all bundles and inputs", "why_tests_cant": "All bundles.", "anchors": ["crates/lair_keystore/src/bin/lair-keystore-bin/cmd_import_seed.rs"]}
{"id": "C48", "title": "init never overwrites a configuration", "statement": "Running init where a configuration exists fails and leaves the file unchanged, even when two inits race.", "quantifier": "all interleavings of two or more inits", "why_tests_cant": "Races.", "anchors": ["crates/lair_keystore/src/bin/lair-keystore-bin/cmd_init.rs"]}
{"id": "C49", "title": "Non-exportable seeds stay secret from clients", "statement": "From everything the server ever sends, clients that know the server passphrase and may choose all requests cannot compute the seed of an ordinary seed generated as non-exportable, nor of a deep-locked one without its passphrase (perfect-cryptography model).", "quantifier": "all client strategies, any number of requests", "why_tests_cant": "All attacker strategies.", "anchors": ["crates/lair_keystore_api/src/lair_server/priv_api.rs"]}
{"id": "C50", "title": "Keys for different purposes are derived with different labels", "statement": "All key derivations use pairwise different (subkey id, context) labels within one parent key, so with a collision-free derivation function no two purposes share a key.", "quantifier": "all parent keys", "why_tests_cant": "All keys.", "anchors": ["crates/lair_keystore_api/src/config.rs", "crates/lair_keystore_api/src/lair_server/priv_srv.rs", "crates/lair_keystore_api/src/lair_client/async_io.rs", "crates/lair_keystore/src/store_sqlite.rs"]}
{"id": "C51", "title": "The entries can be listed", "statement": "A client on an unlocked connection that asks for the list of entries gets it. (Violated: the response must fit one 8192-byte frame, so a keystore with 57 seeds, or 85 entries of any kind, can never again be listed, because entries are never removed.)", "quantifier": "all histories, all connections, all requests after the keystore has grown", "why_tests_cant": "All sizes and all later histories, restarts included.", "anchors": ["crates/lair_keystore_api/src/lair_server/priv_api.rs:priv_req_list_entries", "crates/lair_keystore_api/src/sodium_secretstream/framed.rs", "crates/lair_keystore_api/src/lair_server/priv_srv.rs"]}
{"id": "C52", "title": "From generated configuration to connected client", "statement": "A server started from a generated configuration with its passphrase, on any store, accepts a client that has only the connection URL and the passphrase: the handshake completes, hello is answered with the key from the URL, unlock succeeds and connecting returns success, whatever other connections do at the same time.", "quantifier": "all passphrases, root paths (without URL-special bytes), random values of both sides, stores, schedules of all connections", "why_tests_cant": "Tests connect on a few random values and one schedule; this composes five protocol layers for all of them.", "anchors": ["crates/lair_keystore_api/src/config.rs:LairServerConfigInner::new", "crates/lair_keystore_api/src/lair_server/priv_srv.rs:Srv::new", "crates/lair_keystore_api/src/ipc_keystore.rs:ipc_keystore_connect_options", "crates/lair_keystore_api/src/sodium_secretstream.rs"]}
{"id": "C53", "title": "The connection URL leads back to the socket", "statement": "The path a client or server extracts from a generated connection URL is the canonical root followed by `socket`, and the URL is unchanged by writing it to the configuration and reading it back (violated for roots whose name contains `#`, `?`, `%` followed by two hex digits, tab or line ends: the key is lost or another path results). The URL consists of characters legal in a URL. The pid file, the store with its companion files, the socket and the configuration file never coincide.", "quantifier": "all root paths", "why_tests_cant": "All paths.", "anchors": ["crates/lair_keystore_api/src/config.rs:LairServerConfigInner::new", "crates/lair_keystore_api/src/config.rs:get_connection_path", "crates/lair_keystore_api/src/config.rs:get_server_pub_key_from_connection_url"]}
{"id": "C54", "title": "The keystore passphrase works in every subcommand", "statement": "A piped keystore passphrase that `init` and `server` accept is the same passphrase when it is piped to `import-seed` (violated: `import-seed` trims white space at both ends of every line, needs UTF-8 and refuses empty lines, so a keystore whose passphrase starts or ends with white space, contains a line break, or is empty or not UTF-8 cannot be used with it; every other passphrase reaches the server unchanged).", "quantifier": "all passphrases (byte strings), with and without a deep-lock passphrase, all line endings", "why_tests_cant": "All byte strings and line endings; a test pipes a few ASCII passphrases.", "anchors": ["crates/lair_keystore/src/bin/lair-keystore-bin/main.rs", "crates/lair_keystore/src/bin/lair-keystore-bin/cmd_import_seed.rs", "crates/lair_keystore/src/bin/lair-keystore-bin/cmd_init.rs"]}
{"id": "C55", "title": "A network attacker learns nothing from connection set-up", "statement": "An attacker who controls the network (reads, drops, replays and makes up every message) never learns the session keys of a connection whose expected server key was an honest server's and had not leaked when the handshake completed, nor the passphrase sent on it \u2014 not even if the server's identity key leaks later. A server receives an unlock request with such a passphrase only on a connection whose other end is the honest client that sent it. (If the identity key leaked before, the attacker can get the passphrase.)", "quantifier": "all numbers of clients, connections and servers, all attacker strategies, all interleavings, leaks of identity keys at any time", "why_tests_cant": "the attacker's strategy is unbounded; tests only play the honest peer", "anchors": ["crates/lair_keystore_api/src/sodium_secretstream.rs:new_s3_client,new_s3_server", "crates/lair_keystore_api/src/lair_client.rs:LairClient::hello,unlock", "crates/lair_keystore_api/src/ipc_keystore.rs:ipc_keystore_connect", "crates/lair_keystore_api/src/lair_server/priv_api.rs:priv_req_unlock"]}
{"id": "C56", "title": "A client's result is the server's outcome for that very request", "statement": "When a client method returns success, the server has finished handling exactly that request \u2014 same connection, same message id, same content \u2014 and the value returned is what the handler produced; the server handles on a connection only requests its client made, each at most once, whatever the network drops, repeats, reorders or cuts. In particular a signature obtained through the client verifies under the key asked for, and a seed or certificate the client was told was created is in the store from then on. The server sends at most one complete answer to each request. Once the server process has ended, nothing more is handled for its connections and no request made on them afterwards succeeds.", "quantifier": "all numbers of clients, connections and requests, all schedules of client tasks, server tasks, senders and network deliveries, cancellations, timeouts, server restarts; any network that cannot forge ciphers; message ids of one connection differ", "why_tests_cant": "it composes the pending table, the shared encrypted sender, the frame codec, the receive loops and the concurrent handlers; tests run a handful of requests over a perfect pipe", "anchors": ["crates/lair_keystore_api/src/lair_client/async_io.rs:new_async_io_lair_client,AsyncIoLairClient::request", "crates/lair_keystore_api/src/lair_server/priv_srv.rs:Srv::accept", "crates/lair_keystore_api/src/sodium_secretstream/inner.rs:PrivSend,PrivRecv", "crates/lair_keystore_api/src/lair_server/priv_api.rs"]}
{"id": "C57", "title": "A refused oversize message affects only itself", "statement": "A request that is refused because it does not fit a frame, or whose response does not fit, leaves its connection usable: later requests on the same connection can succeed (violated: the message is encrypted before its size is checked, so the two ends of the stream are out of step and no later request on that connection ever succeeds).", "quantifier": "all connections, all oversize requests and responses, all later requests and schedules", "why_tests_cant": "no later request ever succeeds is a statement about all continuations", "anchors": ["crates/lair_keystore_api/src/sodium_secretstream/inner.rs:PrivSend::send", "crates/lair_keystore_api/src/sodium_secretstream/framed.rs", "crates/lair_keystore_api/src/lair_server/priv_srv.rs:Srv::accept"]}
{"id": "C58", "title": "A new client is always served", "statement": "Whatever has happened before - other clients in any state, requests in flight, corrupted connections, refused messages, a restart -, a client that connects now can make any requests that fit a frame, one after the other, and have them all answered, with exactly the results and the effects of handling them one by one in that order; nobody else needs to do anything and no other connection is touched. In particular a hello on a new connection is always answered with the server's key.", "quantifier": "all histories, all lists of requests whose messages and answers fit a frame, all environments (randomness, time, faults) their handlers meet; for each there is a continuation (liveness is stated as the existence of a way to go on)", "why_tests_cant": "that no history leaves the server stuck quantifies over all histories", "anchors": ["crates/lair_keystore_api/src/lair_server/priv_srv.rs:Srv::accept", "crates/lair_keystore_api/src/lair_client/async_io.rs:AsyncIoLairClient::request", "crates/lair_keystore_api/src/sodium_secretstream/inner.rs", "crates/lair_keystore_api/src/lair_server/priv_api.rs"]}
{"id": "C59", "title": "A created entry is exactly what was asked for", "statement": "A successful new-seed, import, derive or new-certificate request adds one entry under the requested tag that holds exactly the right secret (a fresh seed, the seed in the box, the descendant of the source along the path, the generated key), is exportable as asked (derived seeds: exactly if the source is), is deep-locked exactly if a deep lock was asked for and then with the passphrase and limits of the request, and the response reports its public keys (name, digest and certificate).", "quantifier": "all histories and interleavings, all creation requests, all connections", "why_tests_cant": "ranges over all schedules, tags, locks, flags and concurrent requests", "anchors": ["crates/lair_keystore_api/src/lair_server/priv_srv/priv_api.rs:priv_req_new_seed", "crates/lair_keystore_api/src/lair_server/priv_srv/priv_api.rs:priv_req_import_seed", "crates/lair_keystore_api/src/lair_server/priv_srv/priv_api.rs:priv_req_derive_seed", "crates/lair_keystore_api/src/lair_store.rs:LairStore::insert_deep_locked_seed"]}
{"id": "C60", "title": "The concurrent keystore behaves like a sequential one (linearizability)", "statement": "However many clients make requests at once, and however often the process is stopped and restarted, the answers and the final contents are those of a plain sequential keystore that handles the requests one at a time, in an order that respects the order of requests that did not overlap; a request cut off by a stop either takes effect completely or not at all.", "quantifier": "all stores, all messages on all connections, all interleavings of all requests, all restarts, all randomness and environment behaviour; requests that met a storage or memory failure or a locked connection are exempt (they have no effect, C01/C07)", "why_tests_cant": "linearizability quantifies over all schedules and histories", "anchors": ["crates/lair_keystore_api/src/lair_server/priv_srv.rs", "crates/lair_keystore_api/src/lair_server/priv_srv/priv_api.rs", "crates/lair_keystore_api/src/lair_store.rs", "crates/lair_keystore_api/src/lair_client.rs"]}
{"id": "C61", "title": "Every client that connects properly is accepted", "statement": "As long as the server runs, a client that connects to its socket and does its part of the handshake is accepted and served, whatever other clients do or fail to do; a served client stays served.", "quantifier": "all numbers of clients, all bytes they send or withhold, all orders of the server's steps, failures of the accept call", "why_tests_cant": "ranges over all behaviours of all other clients and all schedules; liveness", "anchors": ["crates/lair_keystore_api/src/ipc_keystore.rs:IpcKeystoreServer::new", "crates/lair_keystore_api/src/ipc_keystore/raw_ipc.rs:ipc_bind", "crates/lair_keystore_api/src/lair_server/priv_srv.rs:priv_srv_accept", "crates/lair_keystore_api/src/sodium_secretstream.rs:new_s3_server"]}
{"id": "C62", "title": "The socket file leads to the running server", "statement": "A client that connects to the connection URL of a running server reaches that server; a socket file left behind by an earlier server is never in the way.", "quantifier": "all histories of any number of server processes starting, failing, ending and crashing between any two file operations", "why_tests_cant": "ranges over all interleavings and crash points of several processes", "anchors": ["crates/lair_keystore_api/src/ipc_keystore/raw_ipc.rs:ipc_bind", "crates/lair_keystore_api/src/ipc_keystore/raw_ipc.rs:ipc_connect", "crates/lair_keystore_api/src/ipc_keystore.rs:IpcKeystoreServer::new", "crates/lair_keystore/src/server.rs:StandaloneServer::run"]}
{"id": "C63", "title": "A connection never gets stuck", "statement": "However small the buffers between client and server, however many requests are made at once and whatever the lengths of the messages, client and server never wait for each other: after finitely many steps every request has been answered, exactly once; and at no time are more than 4096 requests of a connection in work. The same for setting up a connection in process.", "quantifier": "all buffer sizes, limits, message lengths, numbers of requests and schedules", "why_tests_cant": "absence of deadlock over all schedules and sizes", "anchors": ["crates/lair_keystore_api/src/sodium_secretstream/inner.rs:PrivSend::send", "crates/lair_keystore_api/src/sodium_secretstream/framed.rs", "crates/lair_keystore_api/src/lair_server/priv_srv.rs:priv_srv_accept", "crates/lair_keystore_api/src/lair_client/async_io.rs", "crates/lair_keystore_api/src/in_proc_keystore.rs:InProcKeystore::new_client"]}
{"id": "C64", "title": "A request always returns", "statement": "A request made through a client returns - with a response or an error - even if the server has stopped responding.", "quantifier": "all behaviours of the server, all schedules, all earlier requests", "why_tests_cant": "ranges over all behaviours of the other side and unbounded time", "anchors": ["crates/lair_keystore_api/src/lair_client/async_io.rs:Cli::request", "crates/lair_keystore_api/src/sodium_secretstream/inner.rs:PrivSend::send"]}
{"id": "C65", "title": "Clients see one keystore", "statement": "Everything that any number of clients see through the methods of the client library, over their encrypted connections to one server, with requests overlapping, messages split or delayed, requests timing out and the server restarting, is what they would have seen had all their calls been made one after the other on a single keystore: a request that succeeded has the answer the keystore gives at its place in that order, and a request made after another had succeeded comes after it. The request a method sends asks for exactly what its caller meant, including the passphrase and the password hashing limits in force.", "quantifier": "all numbers of clients, all calls, all interleavings, all behaviours of the network short of forging, all crash and restart points", "why_tests_cant": "ranges over all concurrent histories of all components at once", "anchors": ["crates/lair_keystore_api/src/lair_client.rs:LairClient", "crates/lair_keystore_api/src/lair_client/async_io.rs:Cli::request", "crates/lair_keystore_api/src/lair_server/priv_srv.rs:priv_srv_accept", "crates/lair_keystore_api/src/lair_server/priv_api.rs", "crates/lair_keystore_api/src/sodium_secretstream/inner.rs"]}
{"id": "C66", "title": "The signature fallback survives its program", "statement": "Over the whole life of the server, with the external signature program crashing, printing nonsense, closing its output or failing to start at any time: at most one instance of it runs; a call made while none runs starts a fresh one, which is sent exactly that request and whose signature is the caller's answer; calls made while one runs use it; every call handed to an instance that ends is answered; no call is answered twice; and an answer comes from the very instance the request was handed to, under the id of that request, never from an earlier or later instance.", "quantifier": "all histories: all calls, all interleavings of callers and of the loops of all instances, all outputs and crash points of the program", "why_tests_cant": "ranges over all interleavings of unboundedly many calls and program instances", "anchors": ["crates/lair_keystore_api/src/lair_server.rs:FallbackCmd::check_get_sub_process_sender", "crates/lair_keystore_api/src/lair_server.rs:FallbackCmd::sign_by_pub_key"]}
{"id": "C67", "title": "The fallback program reads exactly the requests", "statement": "Whatever message ids, keys and data clients choose, the text the server writes to the signature fallback program is one JSON line per request, from which a program reading JSON lines reads back exactly the id, key and data of the calls handed to it: no request can end its line, add a request or alter another. And however the program writes its reply - any legal JSON text with the id and a signature or an error - the server takes it as exactly that signature or error for exactly that id. A line of the program's output counts as a reply exactly if it is a JSON text (RFC 8259) of a reply; every other line is not taken for one.", "quantifier": "all message ids, keys, data, sequences of requests, orders of the fields; all legal JSON spellings of replies", "why_tests_cant": "ranges over all strings and all their spellings", "anchors": ["crates/lair_keystore_api/src/lair_server.rs:FallbackCmd::check_get_sub_process_sender"]}
{"id": "C68", "title": "The store handle can be used beside clients", "statement": "A program that runs a server may use its store directly while clients are connected: everything behaves as if it were one more unlocked client. Each direct creation adds exactly the entry asked for or fails without effect, lookups and lists are exact, entries stay unique and permanent, other clients see a new entry with their next request, and nothing the other clients receive tells that the handle exists.", "quantifier": "all histories of client traffic and direct calls, interleaved in any way, with any failures", "why_tests_cant": "Ranges over all interleavings of direct calls with requests in flight and all their failures.", "anchors": ["crates/lair_keystore_api/src/lair_server.rs:LairServer::store", "crates/lair_keystore_api/src/lair_store.rs:LairStore", "crates/lair_keystore/src/server.rs:StandaloneServer::store"]}
{"id": "C69", "title": "Several servers on one store do no harm", "statement": "If several server processes (or import-seed beside a server) use one store file at the same time, each behaves as if it were alone and the others' additions were made through its own store handle: entries stay permanent and unique, an addition any of them has acknowledged is in the file, of two creations of one tag at most one succeeds even at different servers, an entry in the file is found by every later get-entry request at every server, and no client can tell that there are other servers.", "quantifier": "any number of processes, started at any time, with any interleaving of their clients' requests, direct calls, failures and restarts", "why_tests_cant": "Ranges over all interleavings of all processes.", "anchors": ["crates/lair_keystore/src/store_sqlite.rs:transaction", "crates/lair_keystore/src/store_sqlite.rs:write_entry", "crates/lair_keystore/src/pid_check.rs:pid_check", "crates/lair_keystore/src/bin/lair-keystore-bin/cmd_import_seed.rs:exec"]}
{"id": "C70", "title": "A keystore survives its servers", "statement": "However often servers are started on a keystore - with the right or a wrong passphrase, ending at any point of their start, running beside one another, crashing at any moment - the entries in the store file only grow and stay unique; a start with a wrong passphrase leaves the store file as it is; at any time a start with the right passphrase finds exactly the entries there are; and whatever any server has acknowledged is in the file for ever and is found by every server started later.", "quantifier": "all histories of starts (any passphrases, any cut-off points) and of everything that happens in the servers, from a missing, an encrypted or an unencrypted store file", "why_tests_cant": "Ranges over all histories of starts, crashes and requests.", "anchors": ["crates/lair_keystore/src/server.rs:StandaloneServer::run", "crates/lair_keystore_api/src/lair_server/priv_srv.rs:Srv::new", "crates/lair_keystore/src/store_sqlite.rs:SqlPool::new_sync", "crates/lair_keystore/src/store_sqlite.rs:connect_to_store"]}
{"id": "C71", "title": "Certificates are good for TLS and fit their private keys", "statement": "Every certificate a keystore holds or reports is for exactly the server name reported with it, which is a valid DNS name; it is signed by the published lair authority and names it as issuer, may be used for TLS servers and clients but not to sign other certificates, and its digest is the one reported. The private key that any client gets for its tag belongs to it. Names of two certificates coincide only if the random generator repeats.", "quantifier": "all random numbers, all histories and interleavings, all pairs of clients", "why_tests_cant": "All random names and keys and all histories of requests.", "anchors": ["crates/lair_keystore_api/src/internal/tls.rs:tls_cert_self_signed_new", "crates/lair_keystore_api/src/internal/tls.rs:WK_CA_CERT_DER", "crates/lair_keystore_api/src/lair_store.rs:new_wka_tls_cert"]}
{"id": "C72", "title": "All servers on one store together behave like one sequential keystore", "statement": "However many server processes use one store file at once - each with any number of clients, with direct use of its store handle, started and stopped at any time -, all their answers and the final contents of the file are those of one plain sequential keystore that handles all requests and all handle calls one at a time, in an order that respects the order of operations that did not overlap, no matter in which processes they were. A request cut off by a stop takes effect completely or not at all.", "quantifier": "any number of processes and clients, all messages, all handle calls (except lookups by key), all interleavings, starts and restarts, all randomness and failures; requests and handle calls that met a storage or memory failure, and requests on a locked connection, are exempt", "why_tests_cant": "linearizability across processes quantifies over all schedules and histories", "anchors": ["crates/lair_keystore_api/src/lair_server/priv_srv.rs", "crates/lair_keystore_api/src/lair_server/priv_srv/priv_api.rs", "crates/lair_keystore_api/src/lair_store.rs", "crates/lair_keystore/src/store_sqlite.rs:transaction", "crates/lair_keystore/src/bin/lair-keystore-bin/cmd_import_seed.rs:exec"]}
{"id": "C73", "title": "One server per configuration, and the socket leads to it", "statement": "Whatever processes are started on one configuration, fail to start (fault, wrong passphrase), crash and end, in any order and at any moment, and whatever pid and socket files earlier ones left behind: at most one of them is at work as the server, the pid file names it, a client that connects to the configured socket reaches it and no other, and this stays so until it ends. Once it is gone, the next start succeeds. (The code guarantees this only for an executable named like the package and for starts whose pid checks do not overlap; the shipped executable is not, and a second start cuts the running server off for ever.)", "quantifier": "every left-over pid file and socket file, every set of other processes, every interleaving of starts, system calls with and without faults, failing starts, crashes and exits of any number of processes", "why_tests_cant": "depends on the interleaving of file operations of several processes and on the points at which they crash", "anchors": ["crates/lair_keystore/src/server.rs: StandaloneServer::new, run", "crates/lair_keystore/src/pid_check.rs: pid_check, pid_check_write", "crates/lair_keystore_api/src/ipc_keystore.rs: IpcKeystoreServer::new", "crates/lair_keystore_api/src/ipc_keystore/raw_ipc.rs: ipc_bind, ipc_connect"]}
{"id": "C74", "title": "The clients of all servers and the callers of their store handles see one keystore", "statement": "When several server processes work on one store file, each with any number of clients on encrypted connections and with its store handle in use by the program around it, one sequential history of calls to one keystore explains everything anybody saw: every request that succeeded got the answer the keystore gives at its place in the history, every handle call that met no failure returned it, and a call that was over before another was made comes before it, in whichever processes they were. In particular a seed made through one server is found and listed through every other one, and of several requests to make an entry with the same tag, to whichever servers, at most one succeeds.", "quantifier": "every number of server processes, clients and handle calls; every interleaving of their steps, of starts, restarts and crashes; every splitting, delay, loss and cutting of messages, timeouts and abandoned requests", "why_tests_cant": "depends on interleavings across processes, connections and the network, and on where processes are stopped", "anchors": ["crates/lair_keystore_api/src/lair_server.rs: spawn_lair_server_task, store", "crates/lair_keystore_api/src/lair_server/priv_srv.rs: Srv::accept", "crates/lair_keystore_api/src/lair_client.rs: LairClient", "crates/lair_keystore_api/src/lair_client/async_io.rs: request", "crates/lair_keystore/src/store_sqlite.rs: write_entry"]}
{"id": "C75", "title": "Secrets at rest are only sealed", "statement": "Whatever is requested, by clients or through the store handle of the process, and however requests interleave, fail or are cut short by crashes: every entry the server adds to the store carries its secret sealed only (a seed under the store key, a deep-locked seed under the key made from a passphrase with the salt and limits of the entry, a certificate's private key under the store key), beside its tag and public data. Nothing else in the store depends on the secret: if the server draws another protected seed with the same public keys, the entries, their order, their columns in the database, the salts, the limits and the headers of the sealed boxes are the same, and the boxes are sealed under the same keys.", "quantifier": "all histories of requests and store-handle calls from any number of clients, all interleavings, failures, crashes and restarts, all adaptive adversaries, all pairs of generated seeds that are protected in the sense of C49, both stores, all primitives whose seals hide", "why_tests_cant": "A test can look for one seed in one file; that no history ever stores a secret, or anything computed from it, outside a seal is a statement about pairs of all executions.", "anchors": ["crates/lair_keystore_api/src/lair_store.rs: insert_seed, insert_deep_locked_seed, new_wka_tls_cert", "crates/lair_keystore/src/store_sqlite.rs: write_entry"]}
{"id": "C76", "title": "Seeds kept unsealed in memory are few, ordinary, and none before the first unlocking", "statement": "Besides the store, the server keeps between requests only the entries in its caches: at most three times 128, all of them of entries in the store; with the secret (seed and secret keys) only for ordinary seeds, never for a deep-locked seed, whoever has used it with its passphrase, and never the key of a certificate. As long as no connection has been unlocked since the server started it keeps none. Whatever it keeps is of an entry that a request received since that start, on an unlocked connection, named as the one to use by tag or public key; creating, importing, deriving and listing keep nothing.", "quantifier": "all histories of requests from any number of clients, all interleavings, failures, crashes and restarts, all cache capacities, all good initial stores", "why_tests_cant": "Which requests have filled and emptied the caches, in which order and interleaving, is unbounded; a test sees one history.", "anchors": ["crates/lair_keystore_api/src/lair_server/priv_srv.rs: SrvInner, Srv::new (caches)", "crates/lair_keystore_api/src/lair_server/priv_api.rs: priv_gen_and_register_entry, priv_get_full_entry_by_tag"]}
{"id": "C77", "title": "What the keystore has acknowledged survives a power failure", "statement": "When a request to create, import or derive an entry has been answered with success, the entry is still in the keystore after any later power failures and restarts; and when init has reported success its configuration is still there. In every case a power failure leaves a good keystore: the entries before it up to some point, in order and unaltered.", "quantifier": "all histories of requests from any number of clients, interleaved with checkpoints, crashes, restarts and power failures at any point, with any part of the unsynced data surviving; all good initial stores; all interleavings of init processes", "why_tests_cant": "A test does not cut the power, and which of the completed writes have reached the disk depends on the operating system and the moment.", "anchors": ["crates/lair_keystore/src/store_sqlite.rs: SqlPool::new_sync (journal_mode WAL), set_pragmas (synchronous), write_entry, transaction", "crates/lair_keystore/src/bin/lair-keystore-bin/cmd_init.rs: exec"]}
{"id": "C78", "title": "A client that opens the socket gets a working session of its own", "statement": "When a client connects with the server's public key and the handshake bytes come through, in pieces of any size and whichever side finishes first, both sides end with the same keys, the client's calls reach the server as they were meant and get the server's own answers, the keystore's passphrase and no other unlocks the connection, and together all clients see one keystore that does one request at a time. What others do on the socket - garbage, incomplete handshakes, connections broken off, complete handshakes by other programs - changes none of this.", "quantifier": "all histories of clients and strangers opening the socket, all splittings of the handshake bytes and interleavings with other connections, requests, answers and server restarts; all key pairs and random values; all good initial stores", "why_tests_cant": "A test makes a few handshakes over a fast local socket that delivers each message whole; it does not try the ways the two sides and other connections can interleave.", "anchors": ["crates/lair_keystore_api/src/sodium_secretstream.rs: new_s3_server, new_s3_client, priv_init_ss", "crates/lair_keystore_api/src/ipc_keystore.rs: IpcKeystoreServer::new, ipc_keystore_connect_options", "crates/lair_keystore_api/src/lair_server/priv_srv.rs: priv_srv_accept", "crates/lair_keystore_api/src/lair_client/async_io.rs: new_async_io_lair_client"]}
{"id": "C79", "title": "An external signer that has fallen silent holds up nobody else", "statement": "If the external signer runs but does not answer, the requests that need it wait; every other request, on the same and on other connections, is still answered. (The code guarantees this only while fewer than 4096 requests of a connection wait for the signer: then the connection is dead for all requests until the signer answers or ends, although the client's own calls have timed out long before.)", "quantifier": "all numbers and lengths of requests, all buffer sizes, all interleavings of both sides; all histories of the signer in which it says nothing; all states of the server", "why_tests_cant": "A test would have to leave thousands of requests hanging and then wait for an answer that never comes; that nothing later is answered, or that everything is, is a statement about all continuations.", "anchors": ["crates/lair_keystore_api/src/lair_server/priv_srv.rs: priv_srv_accept (for_each_concurrent 4096)", "crates/lair_keystore_api/src/lair_server.rs: FallbackCmd::sign_by_pub_key, check_get_sub_process_sender", "crates/lair_keystore_api/src/lair_client/async_io.rs: request (30 second time-out)"]}
{"id": "C80", "title": "The handshake is the only way in", "statement": "The server acts on messages of a connection only if its peer has sent, as the first 136 bytes, a handshake the server accepts with its own key. A handshake that fails or is broken off - by the peer, by unacceptable bytes, by the end of the server - never becomes a session, whatever is sent afterwards, on either side; one handshake gives at most one session; and 136 acceptable bytes, in whatever pieces, give exactly that session and change nothing else.", "quantifier": "all histories of connections, strangers, bytes in any pieces, closed connections and restarts; all later events", "why_tests_cant": "That nothing sent later can revive a failed handshake, and that no interleaving of other peers' bytes lets an unauthenticated message through, is about every continuation of every history.", "anchors": ["crates/lair_keystore_api/src/sodium_secretstream.rs: new_s3_server, new_s3_client", "crates/lair_keystore_api/src/lair_server/priv_srv.rs: priv_srv_accept", "crates/lair_keystore_api/src/ipc_keystore.rs: IpcKeystoreServer::new"]}
{"id": "C81", "title": "Over its whole life a keystore's clients see one keystore", "statement": "Let servers be started from a keystore's configuration with right and wrong passphrases, be cut off at any point of their start, work beside one another, crash at any moment and be started again, and let any number of clients connect to them over encrypted connections and the programs around them use their store handles. Then one sequential history of calls to one keystore explains everything all clients and callers have ever seen and ends with what is in the store file: every request that succeeded got the answer the keystore gives at its place in the history, and whatever was over before another call was made comes before it. In particular a seed a client has been told to have been made is in the file and found under its tag by every later client of whichever server, and a tag is given once in the keystore's life; a start with a wrong passphrase is noticed by nobody; a server that has ended never does or sends anything again; and at any time a start with the right one gives a working server with exactly the entries in the file.", "quantifier": "all initial disk states, all sequences of starts (any passphrases, cut off anywhere, several at once), crashes, connections, requests, network behaviours, schedules and handle calls", "why_tests_cant": "Requires every combination of crash points, restarts, concurrent servers and request interleavings over unbounded histories.", "anchors": ["crates/lair_keystore/src/server.rs: StandaloneServer::run", "crates/lair_keystore_api/src/lair_server/priv_srv.rs: Srv::new", "crates/lair_keystore/src/store_sqlite.rs: SqlPool::new_sync", "crates/lair_keystore_api/src/lair_client.rs: LairClient"]}
{"id": "C82", "title": "A client without the passphrase learns nothing about the keystore's contents", "statement": "Whatever a client sees on a connection on which it never presents the right passphrase - the answers, their texts and order, and restarts of the server - it could equally see, sending the same messages, on any other store (an empty one, say) of any keystore that looks the same from outside (same announced identity, passphrase and connection key), with nobody else connected and that store unchanged. So the set of things such a client can see does not depend on the entries, on what other clients do, on the store's key, on the kind of store, on the cache, or on whether a fallback signer is configured.", "quantifier": "all pairs of keystores alike from outside, all their stores, all event sequences (messages of all clients, interleavings, faults, restarts)", "why_tests_cant": "It compares all runs on all stores: a test can only compare two.", "anchors": ["crates/lair_keystore_api/src/lair_server/priv_srv.rs: priv_srv_accept, priv_dispatch_incoming", "crates/lair_keystore_api/src/lair_server/priv_api.rs: priv_req_unlock, priv_req_*"]}
{"id": "C83", "title": "Clients without the passphrase disturb nobody", "statement": "Whatever happens on a server, the same can happen without any of the messages of the clients that never present the right passphrase: all other clients see the same answers in the same order, the store ends in the same state, the same entries are added, the same connections are unlocked, and the fallback signer is asked to sign the same data with the same answers.", "quantifier": "all stores, all sets of such clients, all event sequences (messages, interleavings, faults, restarts)", "why_tests_cant": "Quantifies over every interleaving of hostile requests with everyone else's.", "anchors": ["crates/lair_keystore_api/src/lair_server/priv_srv.rs: priv_srv_accept, priv_dispatch_incoming", "crates/lair_keystore_api/src/lair_server/priv_api.rs: priv_req_unlock, priv_req_*"]}
{"id": "C84", "title": "A connection without the passphrase is sealed off, to the last byte", "statement": "Take everything that happens between a server, all its clients and the network, including an attacker that delivers what it likes. If no unlock request with the right passphrase has reached the server on a connection, then (a) that whole connection - what its client did and was told, every byte either side has put on the wire - could be exactly the same with any other contents of any keystore that looks the same from outside, with nothing happening on any other connection; and (b) all other connections (results, bytes), the store, the entries added and the calls of the fallback signer could be exactly the same had nothing at all happened on it. The same for any number of such connections at once. A client that never asks with the right passphrase, on a connection nobody forges on, is such a connection.", "quantifier": "all stores and keystores, all numbers of connections, all messages, all bytes the network delivers in any pieces, all schedules of clients, server and network, all restarts", "why_tests_cant": "it compares, for every history of every set of connections, with another history on another keystore; a test compares two runs", "anchors": ["crates/lair_keystore_api/src/lair_server/priv_srv.rs: priv_srv_accept, priv_dispatch_incoming", "crates/lair_keystore_api/src/lair_server/priv_api.rs", "crates/lair_keystore_api/src/lair_client/async_io.rs", "crates/lair_keystore_api/src/sodium_secretstream/inner.rs"]}
{"id": "C85", "title": "A connection stays usable until something breaks it", "statement": "As long as nothing has gone wrong on a connection - its server runs, neither half was shut down, every send so far succeeded, waits, is under way or was given up before it began, no message was larger than a frame takes, the network brought what was sent and not the end of the stream - everything under way on it can get through (every send comes to its end, every message sent is delivered, the state of the keystore is untouched), and after that any further requests can be made on it and are answered exactly as the sequential specification says, whatever happened before and whatever the other connections are doing. The only events that end this state are: the end of the server process, a shutdown of a half, an i/o failure or end of the stream, wrong bytes from the network, a request or an answer too large for a frame, and a caller giving up a request at the moment its bytes are being written. The last of these is final: no request made later on that connection ever succeeds.", "quantifier": "all histories of any number of connections, all requests in flight, all points at which sends are half written and bytes half arrived, all further requests, all stores", "why_tests_cant": "it holds after every history and for every state of partly written and partly delivered messages; a test tries a few", "anchors": ["crates/lair_keystore_api/src/sodium_secretstream/inner.rs: PrivSend::send, PrivRecv", "crates/lair_keystore_api/src/sodium_secretstream/crypt.rs", "crates/lair_keystore_api/src/sodium_secretstream/framed.rs", "crates/lair_keystore_api/src/lair_client/async_io.rs: request", "crates/lair_keystore_api/src/lair_server/priv_srv.rs: priv_srv_accept"]}
{"id": "C86", "title": "Requests in flight can all be answered as long as nothing breaks their connection", "statement": "A client connects; then anything happens that breaks nothing on its connection (the list of C85). Whatever is in flight then - requests waiting for their turn to be written, half written, partly arrived, taken by the server and at any point of their handling, answers half written or partly arrived, answers the client has not looked at yet -, the run can go on so that every request still running on this connection is answered, with the outcome of a handling of exactly this request by the server; none is lost, mixed up or stuck behind others. Results obtained before stay, no request is added, and no other connection is touched.", "quantifier": "all histories of any number of connections without a breaking event on this one; all points at which requests, handlers, answers and bytes can be; all environments (randomness, time, faults) of the remaining handlers; provided message ids are distinct and the answers to these requests fit a frame", "why_tests_cant": "it is a statement about every combination of partial progress of all requests of a connection at once; a test reaches a few", "anchors": ["crates/lair_keystore_api/src/lair_client/async_io.rs: request, the receive loop", "crates/lair_keystore_api/src/lair_server/priv_srv.rs: priv_srv_accept, priv_dispatch_incoming", "crates/lair_keystore_api/src/sodium_secretstream/inner.rs: PrivSend::send", "crates/lair_keystore_api/src/sodium_secretstream/framed.rs"]}
{"id": "C87", "title": "Every request is answered, whatever the scheduler does, as long as nothing breaks its connection", "statement": "A client connects and anything happens that breaks nothing on its connection (the list of C85). From then on let the system run for ever in any order of events - any interleaving of callers, sends, network deliveries of any size, receive loops and handlers, anything at all on other connections, other requests given up or timing out - provided only that nothing breaks this connection, that no more requests are made on it, and that the scheduler does not stall it (whenever something on it can go on, something on it goes on some time later). Then after some time no request runs on the connection any more, and every request that ran at the beginning, was not given up and did not time out has as its result the outcome of a handling of exactly this request by the server. No request is ever forgotten: while one runs, something on its connection can go on. And the work is bounded: no schedule can keep a connection busy for ever with the requests it has.", "quantifier": "all histories of any number of connections without a breaking event on this one; all endless schedules that do not stall it; all behaviours of the other connections, all randomness, times and store faults; message ids distinct", "why_tests_cant": "liveness under every scheduler: a test sees one schedule per run and cannot tell a stuck request from a slow one", "anchors": ["crates/lair_keystore_api/src/lair_client/async_io.rs: request, the receive loop", "crates/lair_keystore_api/src/lair_server/priv_srv.rs: priv_srv_accept, priv_dispatch_incoming", "crates/lair_keystore_api/src/sodium_secretstream/inner.rs: PrivSend::send", "crates/lair_keystore_api/src/sodium_secretstream/framed.rs"]}
{"id": "C88", "title": "Bounded pipes and the limit on concurrent requests cannot stop a connection", "statement": "Let the pipes between client and server hold at most cap bytes (the in-process server uses 4096), let both ends read bytes only while no whole message is there, and let the server take messages and read bytes of a connection only while it has fewer than lim of its requests in hand (handlers that run and answers not yet written; the code uses 4096). For every cap and lim of at least one, and after every history that breaks nothing on a connection: while a request runs on it, something on it can go on within these limits; and under every schedule that does not stall what the limits allow, every request that runs, is not given up and does not time out gets as its result the outcome of a handling of exactly this request.", "quantifier": "all capacities and limits from one up; all histories of any number of connections without a breaking event on this one; all endless schedules that do not stall it within the limits; all randomness, times and store faults; message ids distinct", "why_tests_cant": "a deadlock between two full pipes and a full handler pool needs one particular interleaving out of unboundedly many; a test cannot show that none leads there", "anchors": ["crates/lair_keystore_api/src/lair_server/priv_srv.rs: priv_srv_accept (for_each_concurrent)", "crates/lair_keystore_api/src/in_proc_keystore.rs: duplex", "crates/lair_keystore_api/src/lair_client/async_io.rs: request, the receive loop", "crates/lair_keystore_api/src/sodium_secretstream/framed.rs"]}
{"id": "C89", "title": "No request starves", "statement": "A client connects. From then on anything may happen, for ever: requests on this connection and on others, in any number and at any time, requests given up, times running out. As long as nothing breaks this connection (C85), the message ids used on it differ, the callers of a sending half get its permit in the order in which they asked, and no part of the system that works for the connection - the two sending halves, the two wires, the server's and the client's receive loops, each handler, each caller - is stalled for ever while it could go on, every request ever made on the connection that is not given up and does not time out is answered: from some time on its result is the outcome of a handling, by the server, of exactly this request. It does not matter how many other requests are made meanwhile.", "quantifier": "all histories before the connection; all endless schedules after it without a breaking event, fair to each part, with permits in turn; all randomness, times and store faults; message ids distinct; every request of the connection", "why_tests_cant": "starvation needs an endless stream of competing requests; no finite test shows that a request is overtaken for ever, or that none is", "anchors": ["crates/lair_keystore_api/src/sodium_secretstream/inner.rs: send (acquire_owned)", "crates/lair_keystore_api/src/lair_server/priv_srv.rs: priv_srv_accept (for_each_concurrent)", "crates/lair_keystore_api/src/lair_client/async_io.rs: request, the receive loop"]}
{"id": "C90", "title": "Requests and answers travel in order", "statement": "A client connects; then anything happens that does not break the connection (C85), with the permits of its two sending halves going to the callers in the order in which they asked. At every time, the messages the server has taken from the connection are requests made on it by the client, in the order in which they were made, each at most once; and the messages the client has taken are answers to its requests, in the order in which the handlers finished, each at most once. (Without the turns the order may be another; what the handlers do with each other is C60.)", "quantifier": "all histories before and after the connection without a breaking event on it; all interleavings of callers, wires, handlers, other connections; requests given up at any time; all randomness, times and store faults", "why_tests_cant": "an inversion needs one particular interleaving of unboundedly many; a test sees the usual ones", "anchors": ["crates/lair_keystore_api/src/sodium_secretstream/inner.rs: send (acquire_owned)", "crates/lair_keystore_api/src/sodium_secretstream/framed.rs", "crates/lair_keystore_api/src/lair_server/priv_srv.rs: priv_srv_accept", "crates/lair_keystore_api/src/lair_client/async_io.rs: the receive loop"]}
{"id": "C91", "title": "No request starves within the limits", "statement": "C89 with bounded resources. The server takes messages, and reads bytes, only while it has fewer than a fixed number of requests of the connection in hand (in the code 4096); each pipe holds only a fixed number of bytes, and a writer waits while it is full; both ends read bytes only while no whole message is there to be taken. A part of the system only has to go on, some time later, when it can go on within these limits: a full pipe, a reached limit, a message not yet taken are excuses. Still every request ever made on the connection that is not given up and does not time out is answered, however many others are made meanwhile: no limit, however small, makes anybody wait for ever.", "quantifier": "all positive limits; all histories before the connection; all endless schedules after it without a breaking event, fair within the limits to each part, with permits in turn; all randomness, times and store faults; message ids distinct; every request of the connection", "why_tests_cant": "waiting for ever on a full buffer or behind a limit needs an endless stream of competing requests and one unlucky interleaving of two bounded pipes and a bounded server", "anchors": ["crates/lair_keystore_api/src/lair_server/priv_srv.rs: priv_srv_accept (for_each_concurrent(4096))", "crates/lair_keystore_api/src/in_proc_keystore.rs: duplex(4096)", "crates/lair_keystore_api/src/sodium_secretstream/inner.rs: send (acquire_owned)", "crates/lair_keystore_api/src/sodium_secretstream/framed.rs: recv"]}
