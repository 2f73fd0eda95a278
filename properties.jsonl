{"id": "C01", "title": "Tags handed out concurrently are always distinct", "statement": "A tag pool created with depth d only ever hands out tags 0..d-1. Whatever sequence of Pop and Push is executed, provided callers only Push tags they currently hold, no two outstanding tags are equal, and the tags outstanding together with the tags still in the pool are exactly 0..d-1, so that no tag is lost or duplicated. This holds for the non-blocking and for the blocking pool.", "quantifier": "every depth and every finite history of Pop/Push calls by well-behaved callers", "why_tests_cant": "tests exercise a few fixed depths and one or two orders of Pop/Push; the claim is about every history", "anchors": ["tagstack/tagstack.go: New, NewBlocking, Push, Pop"]}
{"id": "C02", "title": "Tag pool order, overflow and underflow", "statement": "A non-blocking pool is a bounded LIFO: Pop returns the most recently pushed tag, fails with ErrUnderflow exactly when nothing is in the pool, Push fails with ErrOverflow exactly when the pool already holds d tags, and a failing call leaves the pool unchanged. The blocking pool is a bounded FIFO whose Pop/Push never fail but wait in exactly those situations. Depth reports the capacity for the non-blocking pool and the current fill for the blocking one.", "quantifier": "every reachable pool state and every pushed value", "why_tests_cant": "a test sees a handful of states; the claim relates every call to an abstract bounded stack/queue", "anchors": ["tagstack/tagstack.go: Push, Pop, Depth"]}
{"id": "C03", "title": "Frame nonces never repeat", "statement": "Each direction of a session uses as nonce for its n-th frame the 24-byte string whose first eight bytes are n in little-endian and whose other sixteen bytes are zero; hence two different frames among the first 2^64 of a direction never use the same nonce.", "quantifier": "every frame number below 2^64 and every pair of frames", "why_tests_cant": "2^64 increments cannot be run; carry propagation over eight bytes is only sampled by tests", "anchors": ["session/kx.go: incSeq, readWithKey, writeWithKey"]}
{"id": "C04", "title": "A session delivers only what was written, in order", "statement": "Let one side of an established session Write messages m0, m1, ... and let an attacker on the wire deliver any frames at all to the other side: dropped, repeated, reordered, modified or invented. The n-th Read that consumed a frame and succeeded returns exactly the message m_n; no Read ever returns anything else.", "quantifier": "all message sequences and all attacker schedules of arbitrary frames (ideal authenticated encryption)", "why_tests_cant": "an attacker has unboundedly many schedules; tests only use an honest pipe", "anchors": ["session/kx.go: Read, Write, readWithKey, writeWithKey, incSeq"]}
{"id": "C05", "title": "An undisturbed session delivers everything", "statement": "If frames arrive unmodified and in order, every message whose sealed size is within MaxMessageSize and that was accepted by Write is returned by the corresponding Read, unchanged, for any number of messages in either direction.", "quantifier": "all message lists whose sizes are within the limit", "why_tests_cant": "tests send a few messages of a few sizes", "anchors": ["session/kx.go: Read, Write"]}
{"id": "C06", "title": "A refused Write does not harm the session", "statement": "When Write refuses a message because it is too large, nothing has been put on the wire and messages written afterwards are still readable by the peer.", "quantifier": "all message histories containing oversize messages", "why_tests_cant": "the unit tests never write after a refused message", "anchors": ["session/kx.go: writeWithKey, ErrOverflow"]}
{"id": "C07", "title": "Honest key exchange agrees", "statement": "When an Initiator that knows the Responder's public key talks to that Responder over an undisturbed connection, both sides complete without error, the read key of each side equals the write key of the other, both sides have consumed the same number of frames in each direction, and the Responder has learned exactly the Initiator's public key and identity.", "quantifier": "all long-term keys, ephemeral keys and randomness", "why_tests_cant": "a test run samples one set of keys", "anchors": ["session/kx.go: Initiate, Respond, deriveKeys, TheirIdentity"]}
{"id": "C08", "title": "Key exchange never completes on disagreeing keys", "statement": "If an Initiator and a Responder both complete the key exchange having each accepted the other's confirmation, then they hold the same pair of session keys in opposite roles, whatever the network did to the messages.", "quantifier": "all network behaviours, all keys (collision free hash, ideal authenticated encryption)", "why_tests_cant": "a test cannot enumerate man-in-the-middle behaviours", "anchors": ["session/kx.go: Initiate, Respond, auth, deriveKeys"]}
{"id": "C09", "title": "Ratchet delivers messages in any order", "statement": "After two parties have completed a key exchange, messages may be sent by both in any interleaving and be delayed, dropped and reordered arbitrarily. The first time a message is presented to its receiver it decrypts to exactly the plaintext that was encrypted, provided no more than 80 messages are skipped at once on its chain and on the previous chain.", "quantifier": "all interleavings of sends by both parties and deliveries of previously sent messages, with any plaintexts", "why_tests_cant": "the unit tests run about five scripted interleavings", "anchors": ["ratchet/ratchet.go: Encrypt, Decrypt, trySavedKeys, saveKeys, mergeSavedKeys"]}
{"id": "C10", "title": "Ratchet never yields a wrong plaintext", "statement": "If Decrypt succeeds on any ciphertext an attacker can assemble (anything not sealed under the session's secret keys, plus all ciphertexts honestly produced), the result is a plaintext the peer actually passed to Encrypt for that very ciphertext.", "quantifier": "all histories of both parties and all attacker ciphertexts", "why_tests_cant": "attacker inputs and histories are unbounded", "anchors": ["ratchet/ratchet.go: Decrypt"]}
{"id": "C11", "title": "Ratchet rejects replays", "statement": "A ciphertext that was successfully decrypted once is never successfully decrypted again by the same ratchet, whatever is sent and received in between.", "quantifier": "all ciphertexts and all later histories", "why_tests_cant": "a test can replay only at a few points", "anchors": ["ratchet/ratchet.go: Decrypt, trySavedKeys, saveKeys"]}
{"id": "C12", "title": "A rejected ciphertext changes nothing", "statement": "When Decrypt returns an error the ratchet is exactly as before the call, so that garbage, replays and out-of-window messages cannot disturb the conversation.", "quantifier": "every ratchet state and every input", "why_tests_cant": "all states and inputs", "anchors": ["ratchet/ratchet.go: Decrypt, trySavedKeys"]}
{"id": "C13", "title": "Work and storage per received message are bounded", "statement": "A single Decrypt stores at most 80 skipped keys for the current chain and at most 80 for the previous one, rejects any message that would need more, and always terminates.", "quantifier": "every ratchet state and every input header", "why_tests_cant": "needs every state and every 32-bit counter value", "anchors": ["ratchet/ratchet.go: saveKeys, Decrypt, maxMissingMessages"]}
{"id": "C14", "title": "Message keys are never reused", "statement": "No two messages encrypted in a conversation, by either party, are sealed under the same message key.", "quantifier": "all histories of a conversation", "why_tests_cant": "histories are unbounded", "anchors": ["ratchet/ratchet.go: Encrypt"]}
{"id": "C15", "title": "Ratchet key exchange pairs the two parties", "statement": "For any two parties, if each completes the key exchange with the other's KeyExchange message and exactly one takes the alice role, then their header keys, next header keys, root key and DH ratchet values correspond, and the first message in either direction decrypts.", "quantifier": "all keys and randomness, both role assignments", "why_tests_cant": "one random key set per test run", "anchors": ["ratchet/ratchet.go: FillKeyExchange, CompleteKeyExchange, deriveKey"]}
{"id": "C16", "title": "Saving and reloading a ratchet loses nothing that has not expired", "statement": "Marshal followed by Unmarshal gives a ratchet that behaves identically: same counters, keys, flags and every skipped-message key younger than the lifetime; keys older than the lifetime, and only those, are gone.", "quantifier": "every ratchet state, every time and lifetime", "why_tests_cant": "tests reload a few states with zero clock", "anchors": ["ratchet/ratchet.go: Marshal, Unmarshal", "ratchet/disk/disk.go: RatchetState"]}
{"id": "C17", "title": "Weak public values are refused in key exchange", "statement": "The DH public value in a KeyExchange is accepted exactly when it is 32 bytes long and, read as a little-endian integer, lies in [3, 2^255-19).", "quantifier": "all byte strings", "why_tests_cant": "2^256 inputs", "anchors": ["ratchet/ratchet.go: validateECDHpoint, CompleteKeyExchange"]}
{"id": "C18", "title": "A crashing sender does not lose later messages", "statement": "If a client crashes and restarts at any point while sending messages to a peer, every message the server accepted from it before and after the crash can be decrypted by the peer.", "quantifier": "all crash points in the send path and all message histories", "why_tests_cant": "crash points inside the send path are not testable with unit tests", "anchors": ["zkclient/msg.go: cacheCRPC", "zkclient/identity.go: updateRatchet", "ratchet/ratchet.go: Encrypt"]}
{"id": "C19", "title": "A verified identity is exactly what its owner signed", "statement": "Verify accepts a public identity only if Name, Nick, keys and identity are all exactly those the owner signed; a freshly created identity verifies.", "quantifier": "all identities and all tampered variants (ideal signatures, collision free hash)", "why_tests_cant": "all tamperings", "anchors": ["zkidentity/zkidentity.go: New, Digest, Verify, SignMessage, VerifyMessage"]}
{"id": "C20", "title": "Identity strings parse back exactly", "statement": "The hexadecimal rendering of any 32-byte identity parses back to the same identity, different identities have different renderings, and any string that is not 64 hex digits is refused.", "quantifier": "all identities and all strings", "why_tests_cant": "2^256 identities", "anchors": ["zkidentity/zkidentity.go: String, Fingerprint, String2ID (PublicIdentity.String2ID)"]}
{"id": "C21", "title": "Packed blobs unpack exactly and never crash the reader", "statement": "Unpacking what PackSaltNonce/PackNonce produced returns the same salt, nonce and data; unpacking any other byte string returns a result or an error, never a crash.", "quantifier": "all salts, nonces, data and all byte strings", "why_tests_cant": "all byte strings", "anchors": ["blobshare/blobshare.go: PackSaltNonce, UnpackSaltNonce, PackNonce, UnpackNonce"]}
{"id": "C22", "title": "Encrypted blobs open only with the right key and unmodified", "statement": "Decrypting an encrypted blob with the same key and nonce gives the original bytes; with another key or a modified ciphertext it gives an error.", "quantifier": "all data, keys, nonces, modifications (ideal secretbox)", "why_tests_cant": "all keys and tamperings", "anchors": ["blobshare/blobshare.go: Encrypt, Decrypt, NewKey, DeriveKey"]}
{"id": "C23", "title": "Wire encoding round trips", "statement": "Every protocol message encoded by one side decodes at the other side to an equal message, consuming exactly the encoded bytes, and a strict prefix of an encoding never decodes successfully. Whatever bytes come, what is decoded from them is in the range of its type and no longer than the limit of the decoder, and exactly as many bytes are consumed as its encoding has; every encoding is a multiple of four bytes, with no more padding than needed.", "quantifier": "all values of the message types", "why_tests_cant": "unbounded value space", "anchors": ["rpc/rpc.go: Message, Cache, Push, Acknowledge, Rendezvous, GroupList, CRPC, ChunkNew, Chunk, ...", "davecgh/go-xdr xdr2 (dependency, specified from its documentation)"]}
{"id": "C24", "title": "Truncated stored messages are reported, old format still accepted", "statement": "A stored message file written by Deliver is read back equal; a file of the old format without the Cleartext field is read as a non-cleartext message; a file truncated anywhere else is reported as an error, never delivered.", "quantifier": "all messages, all truncation points", "why_tests_cant": "all truncation points of all messages", "anchors": ["zkserver/account/account.go: diskMessage, Online, deliver"]}
{"id": "C25", "title": "Compression is transparent", "statement": "What the receiver obtains after decompression is what the sender compressed, whichever compression was chosen, and the transmitted payload is never larger than the uncompressed one; a message naming an unknown compression is refused.", "quantifier": "all payloads (any lossless compressor)", "why_tests_cant": "all payloads", "anchors": ["zkclient/msg.go: compress, crpc", "zkclient/push.go: handlePush decompression"]}
{"id": "C26", "title": "Sender and receiver agree on message kinds", "statement": "Every kind of payload a client can send to another client is decoded by the receiver as the same kind and passed to the handler for that kind, with sender and time unchanged; any other command string is refused.", "quantifier": "all payload kinds and all command strings", "why_tests_cant": "command strings are unbounded, and sender and receiver tables live in different files", "anchors": ["zkclient/msg.go: crpc", "zkclient/push.go: handlePush", "rpc/rpc.go: CRPCCmd*"]}
{"id": "C27", "title": "The ini database behaves as a table of tables", "statement": "After any sequence of Set, Del, NewTable and DelTable, Get returns the last value set for that table and key unless deleted since, and ErrNotFound otherwise; Set/Del/DelTable on a missing table fail with ErrNotFound and change nothing; operations on one key never affect another; Tables and Records list exactly what exists.", "quantifier": "all operation histories", "why_tests_cant": "histories are unbounded", "anchors": ["inidb/inidb.go: Get, Set, Del, NewTable, DelTable, Records, Tables"]}
{"id": "C28", "title": "Saving and reopening an ini database preserves it", "statement": "After Save, opening the file again gives a database with exactly the same tables and records, in whatever order the tables happen to be written.", "quantifier": "all databases and all iteration orders of Go maps", "why_tests_cant": "map iteration order is random; contents unbounded", "anchors": ["inidb/inidb.go: New, Save", "vaughan0/go-ini parser (dependency, specified from its source)"]}
{"id": "C29", "title": "Saving is crash safe", "statement": "If the process crashes at any point during Save, reopening the database finds either the complete old or the complete new contents.", "quantifier": "all databases and all crash points", "why_tests_cant": "crash points are not reachable from unit tests", "anchors": ["inidb/inidb.go: Save"]}
{"id": "C30", "title": "Backups are rotated, newest kept", "statement": "After a successful Save at most the configured number of backups remains, those that remain are the newest ones, and no file other than an old backup is ever removed; a negative number keeps all.", "quantifier": "all directory contents and depths", "why_tests_cant": "unbounded directory contents", "anchors": ["inidb/inidb.go: prune, Save"]}
{"id": "C31", "title": "A delivered message is kept until acknowledged", "statement": "Once Deliver has succeeded, the message stays stored for its recipient across any sequence of other deliveries, logins, logouts and server restarts until exactly that message is deleted by an acknowledgement.", "quantifier": "all histories of account operations", "why_tests_cant": "histories and interleavings are unbounded", "anchors": ["zkserver/account/account.go: Deliver, Delete, Online, Offline"]}
{"id": "C32", "title": "Each message is announced once per login with its exact contents, oldest first within a scan", "statement": "During one login each stored message is announced to the user at most once before it is acknowledged, every announcement carries the stored sender, payload, time and cleartext flag of a delivered message, and after logging out and in again every unacknowledged message is announced again.", "quantifier": "all interleavings of deliveries, acknowledgements, scanning and logins", "why_tests_cant": "interleavings unbounded", "anchors": ["zkserver/account/account.go: Online, Delete, Offline"]}
{"id": "C33", "title": "No delivered message is forgotten while the user is online", "statement": "Whenever the delivery goroutine of an online user is idle, every message stored for that user has been announced; a message stored while the goroutine is scanning causes another scan.", "quantifier": "all schedules of Deliver and the delivery goroutine", "why_tests_cant": "race window between login and first scan is not hit by tests", "anchors": ["zkserver/account/account.go: Online, Deliver"]}
{"id": "C34", "title": "Acknowledging a message never breaks the session", "statement": "Acknowledging announced messages in any order and at any time never causes an error announcement (which would close the session).", "quantifier": "all schedules of acknowledgement and scanning", "why_tests_cant": "needs a specific race", "anchors": ["zkserver/account/account.go: Delete, Online", "zkserver/zkserver.go: sessionNtfn"]}
{"id": "C35", "title": "Disabled means disabled, enabling restores", "statement": "After Disable an account is reported disabled and cannot be delivered to or log in until Enable; Enable brings back exactly the account and messages that were there; an account is never both enabled and disabled.", "quantifier": "all histories of Create, Enable, Disable, Deliver", "why_tests_cant": "histories unbounded", "anchors": ["zkserver/account/account.go: Create, Enable, Disable, Enabled, Disabled, Deliver", "zkserver/zkserver.go: preSession"]}
{"id": "C36", "title": "Nicknames are unique in the directory", "statement": "No two listed accounts have the same nick, and Find returns the listed account of that nick.", "quantifier": "all histories of Create, Push, Pull", "why_tests_cant": "histories unbounded", "anchors": ["zkserver/account/account.go: Create, Push, Pull, Find"]}
{"id": "C37", "title": "One live session per account, and every live session can be found", "statement": "At any time at most one session is online for an account; the server's session table contains an entry for an account exactly when it is online, so that administrators and new logins can disconnect it; a user whose connection ended can log in again.", "quantifier": "all interleavings of connects, disconnects, forced logouts and failures", "why_tests_cant": "interleavings of several goroutines", "anchors": ["zkserver/zkserver.go: handleSession, sessionNtfn", "zkserver/account/account.go: Online, Offline"]}
{"id": "C38", "title": "No client-supplied tag can crash the server", "statement": "Whatever tag value a connected client puts in a message, the server either processes the message or closes that session; other sessions are unaffected.", "quantifier": "all 2^32 tag values in all session states", "why_tests_cant": "all tag values", "anchors": ["zkserver/zkserver.go: handleSession, tagDepth"]}
{"id": "C39", "title": "A positive acknowledgement means the message is stored", "statement": "If the server acknowledges a cache request without error, the recipient's store contains a message with exactly the given payload and the authenticated sender identity; if it acknowledges with an error the store is unchanged.", "quantifier": "all requests and all account states", "why_tests_cant": "all states", "anchors": ["zkserver/cache.go: handleCache, handleProxy", "zkserver/account/account.go: Deliver"]}
{"id": "C40", "title": "Account creation follows the configured policy", "statement": "With policy no, or an unknown policy, no account is created by strangers; with policy token an account is created only for a token that is on file and unexpired, and each token works at most once; with policy yes everyone may create.", "quantifier": "all policies, tokens, token databases, clock values and call histories", "why_tests_cant": "all databases and times", "anchors": ["zkserver/account.go: handleAccountCreate", "zkserver/pending.go: validToken, prunePending"]}
{"id": "C41", "title": "A rendezvous PIN retrieves exactly the blob it was issued for", "statement": "Each successful rendezvous gets a PIN not in use; pulling that PIN later returns exactly that blob, regardless of other rendezvous and pulls in between; over-long blobs and expirations are refused; expired blobs are not returned.", "quantifier": "all histories of rendezvous and pull requests", "why_tests_cant": "histories unbounded", "anchors": ["zkserver/rendezvous.go: handleRendezvous, handleRendezvousPull"]}
{"id": "C42", "title": "Administrative commands never crash the server", "statement": "Any text given as identity to the enable/disable/list administrative commands leads to a reply, possibly with an error.", "quantifier": "all strings", "why_tests_cant": "all strings", "anchors": ["zkserver/account.go: handleIdentityDisable, handleIdentityEnable"]}
{"id": "C43", "title": "Address book: nicks unique, lookups consistent, deletion complete", "statement": "Different identities never share a nick; adding an identity always makes it findable by identity and by the nick that Add returned and changes no other entry; after deleting an identity it can no longer be found.", "quantifier": "all histories of Add and Del", "why_tests_cant": "histories unbounded", "anchors": ["zkclient/addressbook/addressbook.go: Add, Del, FindNick, FindIdentity, FindIdentityS, All"]}
{"id": "C44", "title": "Outgoing messages are neither lost, duplicated nor reordered", "statement": "Messages queued with the same priority are transmitted in the order they were queued, each exactly once as long as transmissions succeed and again from the same message after a failure; a queued high priority message is transmitted before any low priority message not yet picked.", "quantifier": "all schedules of producers, the scheduler and transmission outcomes", "why_tests_cant": "schedules unbounded", "anchors": ["zkclient/msg.go: scheduler loop, scheduleCRPC, schedulePRPC"]}
{"id": "C45", "title": "A received file is exactly the file sent, in the download area", "statement": "When all chunks of a file arrive in order the receiver ends up with exactly the bytes sent; a file whose bytes do not match the announced size and digest is never moved to its final place; received files are placed inside the download directory and never replace an existing file.", "quantifier": "all files, chunk sizes, chunk sequences and file names", "why_tests_cant": "all contents and chunk sequences", "anchors": ["zkclient/chunk.go: handleChunkNew, handleChunk", "zkclient/send.go: send"]}
{"id": "C46", "title": "Several files from one sender may be in flight", "statement": "If a sender sends several files one after the other, each of them arrives.", "quantifier": "all interleavings permitted by the transport priorities", "why_tests_cant": "depends on queue timing", "anchors": ["zkclient/chunk.go", "zkclient/send.go", "zkclient/msg.go"]}
{"id": "C47", "title": "Only the administrator changes a group", "statement": "A client's view of a group's membership changes only through the user's own commands or through messages authenticated as coming from the group's current administrator, or a join by someone this administrator invited, or a part of a member by that member itself.", "quantifier": "all group states and all incoming messages from any sender", "why_tests_cant": "all senders, states, messages", "anchors": ["zkclient/groupchat.go: gcKick, gcNew, ...", "zkclient/push.go: handleGroupJoin, handleGroupPart, handleGroupKick, handleGroupKill, _updateGroupList"]}
{"id": "C48", "title": "Group updates cannot go backwards or change hands", "statement": "An accepted group update has a higher generation than the current one and keeps the administrator (first member) equal to the originator, as the protocol definition demands; no group message can crash the client.", "quantifier": "all updates", "why_tests_cant": "all updates", "anchors": ["zkclient/push.go: _updateGroupList, handleGroupKill", "rpc/rpc.go: GroupList comment"]}
{"id": "C49", "title": "Invitations are personal, single use and expire", "statement": "A join is honoured only if the joining identity holds an outstanding invitation with the same token, each invitation admits at most once, and an expired invitation does not admit. The invited asks to be let in only when its user says so, and asks only who invited it, with the token of that invitation, which is used up by it.", "quantifier": "all histories of invites and joins by all identities", "why_tests_cant": "histories unbounded", "anchors": ["zkclient/groupinvites.go: inviteDBAdd, delInvite, joinDBAdd, getJoin, delJoin", "zkclient/push.go: handleGroupJoin, handleGroupInvite", "zkclient/groupchat.go: gcJoin"]}
{"id": "C50", "title": "Membership changes are not undone by each other", "statement": "Once a member has joined or been kicked, this stays so until the administrator decides otherwise, even if other kicks and joins happen at the same time.", "quantifier": "all interleavings of kicks, kick acknowledgements and joins", "why_tests_cant": "races between acknowledgements", "anchors": ["zkclient/groupchat.go: gcKick", "zkclient/push.go: handleGroupJoin"]}
{"id": "C51", "title": "Group messages go to every other member once and are accepted only from members", "statement": "Sending to a group transmits the message exactly once to each other member and never to oneself; a received group message is shown only if its authenticated sender is a member of the group.", "quantifier": "all groups and messages", "why_tests_cant": "all member lists", "anchors": ["zkclient/groupchat.go: gcMessage", "zkclient/push.go: handleGroupMessage"]}
{"id": "C52", "title": "Group names cannot escape the group directory", "statement": "A group name that is accepted for saving denotes a file directly inside the group directory; every name of letters, digits and the listed punctuation is accepted.", "quantifier": "all strings", "why_tests_cant": "all strings", "anchors": ["zkclient/groupchat.go: validName, gcSaveDisk"]}
{"id": "C53", "title": "The client only starts a session with sane server parameters", "statement": "The client proceeds after the welcome message exactly when the protocol version matches, every announced property is known and well formed, the tag depth lies within the protocol limits, and the maximum message size is at least the maximum chunk size; it never crashes on a welcome message.", "quantifier": "all welcome messages", "why_tests_cant": "all property lists", "anchors": ["zkclient/zkclient.go: welcomePhase", "rpc/rpc.go: SupportedServerProperties"]}
{"id": "C54", "title": "Tab completion always makes progress and never crashes", "statement": "Pressing tab repeatedly cycles through exactly the candidates that start with the typed prefix, in order, wrapping around, for any candidate list and prefix.", "quantifier": "all candidate lists and prefixes", "why_tests_cant": "all lists", "anchors": ["zkclient/completion.go: Next"]}
{"id": "C55", "title": "Unsolicited packets cannot crash the client or plant identities", "statement": "Any packet from a stranger either establishes a new contact whose identity is authentic and equals the authenticated sender, or is refused without effect; no packet crashes the client.", "quantifier": "all packets", "why_tests_cant": "all byte strings", "anchors": ["zkclient/push.go: handlePush, step2IDKX, step3IDKX"]}
{"id": "C56", "title": "No server-supplied tag can crash the client and client tags stay distinct", "statement": "Whatever tag value a server puts in a reply, the client handles or refuses it; two requests in flight never carry the same tag.", "quantifier": "all tag values, all schedules", "why_tests_cant": "all values and schedules", "anchors": ["zkclient/zkclient.go: handleRPC, heartbeat ping, tagCallback", "tagstack/tagstack.go"]}
{"id": "C57", "title": "Stored identities and ratchets survive crashes", "statement": "If the client crashes while updating a stored ratchet, afterwards the file holds either the complete previous or the complete new state.", "quantifier": "all crash points", "why_tests_cant": "crash points", "anchors": ["zkclient/identity.go: updateRatchet, saveIdentity"]}
{"id": "C58", "title": "Disabling an account ends its session", "statement": "When an administrator disables an account and the command succeeds, the session of that account, if there is one, is closed.", "quantifier": "all spellings of the identity and all session tables", "why_tests_cant": "spellings and session tables unbounded", "anchors": ["zkserver/zkserver.go: socketHandler, handleSession", "zkserver/account.go: handleIdentityDisable"]}
{"id": "C59", "title": "An interrupted registration can be repeated", "statement": "An identity whose registration never completed can be registered with any unused nick, also after the server died in the middle of an earlier attempt; a completed registration gives an empty account that can log in and receive messages.", "quantifier": "all histories of account operations and all points of interruption", "why_tests_cant": "crash points inside Create", "anchors": ["zkserver/account/account.go: Create"]}
{"id": "C60", "title": "A stored message is deleted only when its recipient acknowledges it", "statement": "Whatever a connected client sends and however the goroutines of its session interleave, the session deletes a stored message only if that message was pushed to the client under some tag and the client acknowledged that tag; and acknowledging an outstanding tag deletes exactly the message pushed under it.", "quantifier": "all clients, all interleavings of reader and notifier, all tags", "why_tests_cant": "unbounded interleavings", "anchors": ["zkserver/zkserver.go: handleSession, sessionNtfn"]}
{"id": "C61", "title": "Groups survive a restart", "statement": "After a restart the client has exactly the groups it had before, each with the same generation and members.", "quantifier": "all sequences of creating, changing and deleting groups; all orders in which the directory is read; all points of interruption", "why_tests_cant": "unbounded histories and crash points", "anchors": ["zkclient/groupchat.go: _gcSaveDisk, _deleteGroup", "zkclient/zkclient.go: loadGroupchat"]}
{"id": "C62", "title": "Client and server agree on the parameters of the session", "statement": "The welcome message of a server that runs with an accepted configuration is accepted by the client, which then has the tag depth, sizes and directory flag of the server; a refusal reaches the client with its reason.", "quantifier": "all configurations, messages of the day, times", "why_tests_cant": "all configurations", "anchors": ["zkserver/zkserver.go: welcome, unwelcome", "zkserver/settings/settings.go: Load", "zkclient/zkclient.go: welcomePhase"]}
{"id": "C63", "title": "Stored ratchets survive a loss of power", "statement": "If the machine loses power while or after the client updates a stored ratchet, afterwards the file holds either the complete previous or the complete new state.", "quantifier": "all histories of updates, interruptions and power failures; all leading parts of unsynced files; all earlier directory states", "why_tests_cant": "power failures cannot be produced in a test", "anchors": ["zkclient/identity.go: updateRatchet"]}
{"id": "C64", "title": "A crash never destroys a stored identity", "statement": "Whenever the client is killed while it stores an identity, an identity that was stored before is still stored completely afterwards.", "quantifier": "all crash points, all contacts", "why_tests_cant": "crash points", "anchors": ["zkclient/identity.go: saveIdentity, identityExists", "zkclient/reset.go: handleResetRatchet", "zkclient/zkclient.go: step1IDKX"]}
{"id": "C65", "title": "Session keys are secret and stay secret", "statement": "Once a key exchange with a server has completed, an attacker who controls the network and did not have that server's private key never learns the keys of the session, even if all long-term keys leak later; the same holds on the server for a session with a client whose private key the attacker did not have.", "quantifier": "all attackers with symbolic cryptography, any number of key exchanges running at the same time, any messages, all later times, all leaks of long-term keys", "why_tests_cant": "an attacker can combine messages of any number of exchanges in ways no test enumerates; absence of an attack is not observable", "anchors": ["session/kx.go: Initiate, Respond, genKeyAndSendCipher, recvCipherAndGetKey, Init, regenerateEphemeral"]}
{"id": "C66", "title": "A completed key exchange means that the right peer is there", "statement": "When Initiate completes with the public key of a server, that server has completed Respond for this client with the same keys, and everything read later was written by it in this order; when Respond completes for the public key of a client, that client has run Initiate with this server.", "quantifier": "all attackers with symbolic cryptography, any number of key exchanges, all interleavings, private keys of third parties and of the client itself known to the attacker", "why_tests_cant": "man-in-the-middle attacks need a clever choice of messages", "anchors": ["session/kx.go: Initiate, Respond, sendProof, recvProof, Read, Write"]}
{"id": "C67", "title": "Strangers cannot act for a user", "statement": "A session of a user at the server processes only messages the user has written, in order; and it is displaced by a new connection only if the user is at the other end of the new connection.", "quantifier": "all attackers, all interleavings of any number of connections with the events of the server", "why_tests_cant": "needs an attacker that speaks the protocol without the private key", "anchors": ["zkserver/zkserver.go: preSession, handleSession", "session/kx.go: Respond, TheirIdentity"]}
{"id": "C68", "title": "A stolen ratchet does not open past messages", "statement": "Whoever copies the ratchet of a user, from memory or from disk, together with the private key that goes with it, cannot compute the key of any message the user sent or decrypted with this ratchet before (forward secrecy).", "quantifier": "all conversations of any length and order of events, all moments of the theft, both parties, all symbolic computations of the thief", "why_tests_cant": "secrecy is the absence of any computation; tests look at what comes back, never at what is left behind", "anchors": ["ratchet/ratchet.go: CompleteKeyExchange, Encrypt, Decrypt, saveKeys, trySavedKeys, Marshal"]}
{"id": "C69", "title": "A conversation recovers from theft", "statement": "After ratchets of both parties were copied any number of times, as soon as a new chain is begun by private DH values that were not in the stolen copies, the thief can compute the key of no message of this or any later chain, as long as it does not take part in the conversation itself.", "quantifier": "all conversations, all sets of thefts before some moment, all later continuations, all symbolic computations of the thief", "why_tests_cant": "needs an attacker model; healing is a statement about all later computations", "anchors": ["ratchet/ratchet.go: Encrypt, Decrypt (DH ratchet)"]}
{"id": "C70", "title": "The network can neither read nor forge conversations", "statement": "Somebody who sees and controls everything on the wire, and has any keys of its own but none of the two private KEM keys, can compute no key under which a message or a header of the conversation is sealed; and of what it puts together only exact copies of messages of the peer that were not accepted before are accepted.", "quantifier": "all conversations of any length, all outsiders, all symbolic computations, all ciphertexts they can put together", "why_tests_cant": "needs an attacker that combines arbitrary computations and messages", "anchors": ["ratchet/ratchet.go: FillKeyExchange, CompleteKeyExchange, Encrypt, Decrypt"]}
{"id": "C71", "title": "Making contact ends with both as contacts", "statement": "Once a lookup in the directory was answered, or a contact was reset, the key exchange between the two clients takes its course: when nothing is on its way any more, each has the other in its address book and a ratchet, neither has a half ratchet left over, and whatever one then writes the other is shown. The clients never keep answering each other.", "quantifier": "all sequences of lookups, answers, messages, resets, deletions and deliveries by two users, all random values, all keys", "why_tests_cant": "a failure needs two users acting at the same time; what follows from it concerns all later behaviour", "anchors": ["zkclient/zkclient.go: find, reset, step1IDKX, handleCommands", "zkclient/push.go: handlePush, step2IDKX2, step3IDKX", "zkclient/reset.go: handleResetRatchet", "zkclient/addressbook.go: addressBookDel", "zkclient/msg.go: cacheCRPC"]}
{"id": "C72", "title": "Messages between two clients arrive in order, once, and all of them", "statement": "What a user is shown from a contact is what the contact wrote, in that order and each message once; and nothing of what was delivered is missing.", "quantifier": "all sequences of lookups, resets, deletions, messages and deliveries by two users", "why_tests_cant": "loss depends on where messages are when a ratchet is replaced", "anchors": ["zkclient/push.go: handlePush", "zkclient/msg.go: cacheCRPC", "zkclient/zkclient.go: reset, handleCommands (acknowledgement)", "zkclient/reset.go: handleResetRatchet"]}
{"id": "C73", "title": "Typed text goes to the party of the window", "statement": "Text that is typed in the window of a contact is sent, up to white space at its end, to that contact and nobody else, and echoed in that window; text typed in the window of a group is sent to every other member of the group and nobody else, marked with the name of the group.", "quantifier": "all lists of windows, all nicks, all texts that are no commands", "why_tests_cant": "depends on combinations of nicks of several windows, and nicks are chosen by others", "anchors": ["zkclient/mainwindow.go: action, query, m", "zkclient/zkclient.go: getConversation, groupConversation", "zkclient/groupchat.go: gcMessage", "zkclient/msg.go: pm"]}
{"id": "C74", "title": "Incoming messages appear in the right window", "statement": "A private message appears, in the window of the identity that sent it and in no other; a message to a group appears only in the window of that group.", "quantifier": "all sequences of messages, commands and screen updates; all nicks and group names", "why_tests_cant": "printing is queued, so that it depends on what happens between arrival and printing", "anchors": ["zkclient/push.go: handlePrivateMessage, handleGroupMessage", "zkclient/zkclient.go: PrintfT, FloodfT, getConversation, groupConversation, focus"]}
{"id": "C75", "title": "Windows that are closed do not crash the client", "statement": "Whatever messages arrive, and whatever windows the user opens, closes and restores, no access to a window is out of range.", "quantifier": "all sequences of messages, commands and screen updates", "why_tests_cant": "a race between the queue of the screen and a command", "anchors": ["zkclient/mainwindow.go: action, wc, restoreConversations", "zkclient/zkclient.go: PrintfT, calculateStatus, focus"]}
{"id": "C76", "title": "Saved windows are restored", "statement": "Restoring the windows that were saved gives windows for the same parties in the same order.", "quantifier": "all reachable clients at the time of saving and of restoring", "why_tests_cant": "needs clashes of names between several contacts and groups", "anchors": ["zkclient/mainwindow.go: saveConversations, restoreConversations", "zkclient/zkclient.go: addressBookConversation, groupConversation, getConversation"]}
{"id": "C77", "title": "A nick means the same contact after a restart", "statement": "After a restart every nick the user can type stands for the same contact as before.", "quantifier": "all histories of contacts that are added, deleted and renamed, all orders of the directory", "why_tests_cant": "the order of the directory depends on random identities", "anchors": ["zkclient/addressbook.go: addressBookAdd, loadIdentities, addressBookFind, addressBookDel"]}
{"id": "C78", "title": "Logs of conversations are separate, complete, and in their directory", "statement": "What is shown in the window of a contact or group is appended to the log of that window and to no other, and every log is a file in the log directory of the client.", "quantifier": "all nicks and names of groups, all server names, all contents of the file system", "why_tests_cant": "names are chosen by others and may contain anything that means something in a path", "anchors": ["zkclient/zkclient.go: log"]}
{"id": "C79", "title": "Marking the own nick never fails and marks the nick", "statement": "A message to a group is shown as it was sent, with the first occurrence of the own nick, in whatever case, marked.", "quantifier": "all messages, all nicks", "why_tests_cant": "needs strings whose upper case has a different length", "anchors": ["zkclient/push.go: handleGroupMessage"]}
{"id": "C80", "title": "The client deals only with servers the user accepted", "statement": "Whatever the network does, the client asks for accounts at, sends tokens to, and exchanges keys with a server only if the user was shown the fingerprints of its key and certificate and accepted them, or imported them.", "quantifier": "all sequences of what the user does, all answers of the network, all failures in between", "why_tests_cant": "needs an active attacker and failures in the middle of making an account", "anchors": ["zkclient/welcome.go: KeyPress", "zkclient/acceptserverfingerprint.go", "zkclient/zkclient.go: finalizeAccountCreation, goOnline, parseMyServer, saveServerRecord", "zkclient/mainwindow.go: /online, /acceptnewcert", "tools/zkimport/zkimport.go"]}
{"id": "C81", "title": "An account that was made can be used", "statement": "When a server has made an account for the client, the client has its identity at every later start, and has an account at the server it is configured for.", "quantifier": "all sequences of what the user does, all failures in between, all restarts", "why_tests_cant": "needs a crash or lost connection at the right moment", "anchors": ["zkclient/zkclient.go: finalizeAccountCreation, saveServerRecord, parseMyIdentity", "zkclient/welcome.go", "tools/zkimport/zkimport.go: importServerRecord"]}
{"id": "C82", "title": "What was exported can be imported", "statement": "The record of a server or a client written by zkexport is read by zkimport as what it was; importing a server configures the client for exactly that server, after asking; importing a client gives it an account.", "quantifier": "all identities, certificates, addresses, all states of server and client", "why_tests_cant": "identities and certificates are random, and the two kinds of record share a prefix", "anchors": ["tools/zkexport/zkexport.go", "tools/zkimport/zkimport.go: readBlob, importClientRecord, importServerRecord", "zkclient/zkclient.go: parseMyServer"]}
{"id": "C83", "title": "The client finds its server and identity again", "statement": "Address, identity and certificate of the server, and the identity of the client with its private keys, are read at the next start exactly as they were saved.", "quantifier": "all values that fit, all orders of the records in the file, all earlier contents written by client or zkimport", "why_tests_cant": "identities are random bytes and the order of the records in the file changes from run to run", "anchors": ["zkclient/zkclient.go: saveServerRecord, parseMyServer, parseMyIdentity", "inidb/inidb.go: New, Set, Save, Get"]}
{"id": "C84", "title": "Keys of pending key exchanges are kept until used", "statement": "A key that saveKey has saved without an error is in blobkeys.ini and is tried on every answer that comes, until it expires seven days later.", "quantifier": "all interleavings of the goroutines of the user interface and of the network, all times, kills at any point", "why_tests_cant": "needs two goroutines within the two renames of a save", "anchors": ["zkclient/blobkeys.go: saveKey, pruneKey, pruneKeys", "zkclient/push.go: step2IDKX, step3IDKX", "inidb/inidb.go: New, Save"]}
{"id": "C85", "title": "Two clients that exchange a PIN become contacts", "statement": "When one user makes a PIN and the other fetches it and says yes to the fingerprint, then once all messages are delivered both have each other in the address book, and whatever one writes the other is shown. A reset brings about a new ratchet on both sides.", "quantifier": "all interleavings of what both users do and of deliveries, all random values, servers with and without a directory", "why_tests_cant": "depends on both sides acting before the messages of the other arrive", "anchors": ["zkclient/kxwindow.go", "zkclient/kxacceptwindow.go", "zkclient/acceptclientfingerprint.go", "zkclient/push.go: handlePush, step2IDKX, step2IDKX2, step3IDKX", "zkclient/reset.go", "zkclient/zkclient.go: step1IDKX, handleResetRatchet"]}
{"id": "C86", "title": "The key on file for an identity is one the user agreed to", "statement": "Whoever is in the address book is there because the user was shown their fingerprint and said yes, or gave them a PIN; the key is the one with that fingerprint, and nothing but deleting the contact ever changes it.", "quantifier": "all sequences of what the user, the server and any others do; all payloads", "why_tests_cant": "needs somebody who lies about who they are", "anchors": ["zkclient/push.go: handlePush, step2IDKX, step2IDKX2, step3IDKX", "zkclient/identity.go: identityExists, saveIdentity, loadIdentity", "zkclient/acceptclientfingerprint.go", "zkclient/zkclient.go: step1IDKX, handleIdentityFindReply", "zkclient/addressbook.go"]}
{"id": "C87", "title": "An exchange of PINs survives a killed client", "statement": "Whenever either client is killed and started again in the middle of an exchange of PINs, and in whatever order what they do is interleaved, in the end both are contacts with ratchets that fit, or neither has anything and it can be tried again.", "quantifier": "all interleavings of the window, the handlers of messages, the queues and the server; kills at any point, any number of times", "why_tests_cant": "needs a kill, or a message, between two particular system calls", "anchors": ["zkclient/acceptclientfingerprint.go: KeyHandler", "zkclient/push.go: step2IDKX, step3IDKX, handlePush", "zkclient/identity.go: identityExists, saveIdentity, updateRatchet, removeRatchet", "zkclient/zkclient.go: handleRPC"]}
{"id": "C88", "title": "The server does what its configuration file says", "statement": "A server starts with a configuration file exactly if every line is blank, a comment, a setting or the name of a section, and every value is of its kind; then each setting is the one given last in its section, or else the documented default. If it does not start, the error points at a fault of the file. Nothing is opened to strangers unless a line says so.", "quantifier": "all texts of the file, all home directories", "why_tests_cant": "tests use a handful of files", "anchors": ["zkserver/settings/settings.go: New, Load, iniBool", "zkserver/settings.go: ObtainSettings", "zkserver/zkserver.conf"]}
{"id": "C89", "title": "The client does what its configuration file says", "statement": "The same for the client: it starts exactly if the file is in order, and does what the file says. At the first run the shipped file is written, and the settings are those that the next run reads.", "quantifier": "all texts of the file, default name or not, missing and unreadable files", "why_tests_cant": "tests use a handful of files", "anchors": ["zkclient/settings.go", "zkclient/zkclient.conf.go"]}
{"id": "C90", "title": "A server keeps its identity, its certificate and its control socket", "statement": "Whenever and wherever a server is killed and started again, every server that goes into service in a directory has the same identity and the same certificate; a server that is started goes into service; and a server in service gets the commands of zkserverctl.", "quantifier": "all interleavings of two processes in steps of system calls, kills and failing reads anywhere", "why_tests_cant": "needs kills between two system calls, or errors of the operating system", "anchors": ["zkserver/zkserver.go: _main, listenSocket, listen"]}
{"id": "C91", "title": "A client told to go offline stays offline", "statement": "Once the user has typed /offline the client does not talk to a server again before the user types /online.", "quantifier": "all interleavings of the goroutines that go online, the reader, the sender and the commands; any number of lost connections", "why_tests_cant": "depends on which timers are running when the command is typed", "anchors": ["zkclient/zkclient.go: goOnline, goOnlineRetry, handleRPC", "zkclient/mainwindow.go: /online, /offline"]}
{"id": "C92", "title": "A client that lost its server finds it again", "statement": "A client whose user has not asked to be offline, and whose server has neither refused it nor changed its certificate, goes online once the server is there; and nothing it started for that is left behind.", "quantifier": "all interleavings, any number of lost connections and failed attempts", "why_tests_cant": "tests do not lose connections", "anchors": ["zkclient/zkclient.go: goOnline, goOnlineAndPrint, goOnlineRetry, handleRPC"]}
{"id": "C93", "title": "Nothing uses a connection that is gone", "statement": "No goroutine of the client uses the connection to the server after it was taken down: the client does not crash.", "quantifier": "all interleavings", "why_tests_cant": "needs a connection that is lost between two instructions", "anchors": ["zkclient/zkclient.go: writeMessage, welcomeUser, handleRPC, isOnline"]}
{"id": "C94", "title": "The client talks only to the certificate the user accepted", "statement": "A client that is online talks to a server that showed the certificate on record; the record is changed only by /acceptnewcert while offline, and then to the certificate whose fingerprint was printed last.", "quantifier": "all interleavings, all certificates shown by anybody", "why_tests_cant": "needs two attempts to connect at the same time", "anchors": ["zkclient/zkclient.go: goOnline, goOnlineAndPrint", "zkclient/mainwindow.go: /acceptnewcert"]}
{"id": "C95", "title": "Client and server never wait for each other", "statement": "In a session in which no connection is lost, whatever client and server send each other, the goroutines on both sides go on until every request is answered and every message acknowledged.", "quantifier": "all interleavings of the five goroutines, any number of messages, connections of any capacity", "why_tests_cant": "needs full buffers in both directions at the same time", "anchors": ["zkclient/msg.go: scheduler, cacheCRPC, writeMessage", "zkclient/push.go: handlePush", "zkclient/zkclient.go: handleRPC", "zkserver/zkserver.go: sessionWriter, sessionNtfn, handleSession"]}
{"id": "C96", "title": "The client keeps answering its user", "statement": "Whatever the goroutines of the client do and whatever the server does or does not send, every line that is printed appears on the screen and no goroutine waits for a lock for ever.", "quantifier": "any number of goroutines, any sequence of the things they do, all interleavings, servers that answer and that do not", "why_tests_cant": "a deadlock needs one interleaving out of very many, or a server that falls silent at one moment", "anchors": ["zkclient/zkclient.go: printf, focus, getConversation, groupConversation, listConversations, goOnline, writeMessage", "zkclient/msg.go: scheduleCRPC, cacheCRPC", "zkclient/groupchat.go", "zkclient/push.go", "zkclient/mainwindow.go"]}
{"id": "C97", "title": "A silent client stops nobody else", "statement": "Whatever some clients of a server do not send or do not read, the goroutines of the server that serve other clients go on and come to their end.", "quantifier": "any number of goroutines of the server, all interleavings, any set of silent clients", "why_tests_cant": "needs silent clients at every moment of the others' sessions", "anchors": ["zkserver/zkserver.go: handleSession, sessionNtfn, preSession, socketHandler", "zkserver/account/account.go: Online, Offline, Deliver, Delete, Find, Push, Enable, Disable", "session/kx.go: regenerateEphemeral, Respond"]}
{"id": "C98", "title": "Commands do what the help says", "statement": "A line typed as the help prescribes, with any nick, group, number or text, makes the request the help names with exactly these arguments; there is help about each of these commands; and no line, however typed, makes a request that was not asked for, names somebody who was not named or sends text that was not typed.", "quantifier": "all lines, all nicks, groups, numbers and texts", "why_tests_cant": "a test tries a few lines; the text is found by cutting prefixes, which goes wrong only for odd combinations of nick and text", "anchors": ["zkclient/mainwindow.go: action, doUsage, doHelp", "zkclient/help.go", "zkclient/groupchat.go: gc", "zkclient/zkclient.go: list, listGroupchat"]}
{"id": "C99", "title": "The history gives back what was typed", "statement": "Going up and down in the history shows the lines that were entered, the last one first, and never ends the client; if history is saved these are all lines ever entered, in order, over all restarts; if not, nothing is written.", "quantifier": "all sequences of lines, keys and restarts, any file found at the start", "why_tests_cant": "indexes at both ends and restarts at any time", "anchors": ["zkclient/mainwindow.go: KeyHandler, readHistory, appendHistory"]}
{"id": "C100", "title": "Nothing of a session outlives it", "statement": "When the connection of a session of the server is closed, at whatever moment and by whomever, all goroutines of the session return, the user goes offline, and nothing waits any more.", "quantifier": "all interleavings of the four goroutines, any number of messages waiting, any moment of closing", "why_tests_cant": "needs the connection to be lost with queues full or tags used up", "anchors": ["zkserver/zkserver.go: handleSession, sessionWriter, sessionNtfn, preSession", "zkserver/account/account.go: Online, offline, send", "tagstack/tagstack.go: Pop, Push"]}
{"id": "C101", "title": "The log says what happened, one line each", "statement": "The log files of client and server have one line per entry, in the order of the calls, with time, name of the subsystem, level and text as given; lines once written stay; entries for debugging and tracing are there exactly while these are switched on.", "quantifier": "all sequences of calls of the logging functions, all formats and arguments, all texts received from others", "why_tests_cant": "a test would have to log texts that strangers can choose", "anchors": ["debug/debug.go: Log, Info, Warn, Error, Critical, Dbg, T, log, New, Register, EnableDebug, EnableTrace", "zkserver/zkserver.go: preSession", "zkclient/zkclient.go: handleRPC"]}
{"id": "C102", "title": "Before a session everybody gets what the settings allow", "statement": "Whatever bytes somebody sends on a new connection, in whatever pieces, the server gives its identity, looks at tokens and makes accounts only as its settings say, reports exactly what it did, and closes after one refusal. A client that asks for an account gets one, for its own identity, exactly if the settings allow it; it learns the result; and when both start the key exchange neither has a byte too many or too few.", "quantifier": "all byte streams, all ways to cut them into pieces, all settings, all answers of the rest of the server", "why_tests_cant": "a test sends whole requests; pieces, repeated and malformed requests are too many", "anchors": ["zkserver/zkserver.go: preSession, unmarshal", "zkserver/account.go: handleAccountCreate, accountReplyFailure", "zkclient/welcome.go: KeyHandler", "zkclient/zkclient.go: finalizeAccountCreation, sessionPhase"]}
{"id": "C103", "title": "The files of invitations hold the invitations", "statement": "The files in which the client keeps the invitations to groups it received and issued hold what was received and issued: of several invitations of a contact to a group the first one counts, joining uses up the only invitation to a group, an answer with the right token uses up the invitation, and an invitation is found exactly if its sender sent it and it was not used.", "quantifier": "all sequences of invitations, joins and answers, all contents of invitations, all orders in which Go walks its maps", "why_tests_cant": "a test sends groups with ordinary names, while names come from others and become headers of a file", "anchors": ["zkclient/groupinvites.go: inviteDBAdd, joinDBAdd, getJoin, delJoin, delInvite, unmarshalInvite", "zkclient/push.go: handleGroupInvite", "inidb/inidb.go: New, Save"]}
{"id": "C104", "title": "The status line tells of everything unseen", "statement": "The status line of the client names exactly the windows that have lines the user has not seen, and colours exactly those with an unseen line that mentions them; in such a window the unseen lines are those after the separator; every message stands below a row with its day; the keys for the next and previous window go through all windows, after which nothing is unseen; none of this ends the client.", "quantifier": "all sequences of messages, notices, new windows, changes of the window and closings, with any delay of the queue of the user interface", "why_tests_cant": "marks are set and cleared by different goroutines, and what counts is what waits in the queue in between", "anchors": ["zkclient/zkclient.go: calculateStatus, updateTS, printf, focus, nextConversation, prevConversation", "zkclient/mainwindow.go: action, page, closeAll", "zkclient/push.go: handleGroupMessage"]}
{"id": "C105", "title": "What the client says about groups is true", "statement": "Whenever the client tells the user that somebody joined, left or was kicked from a group, or that a group was made, joined or killed, this is what happened to its list of groups at that moment; whenever others change that list, the user is told of everybody who is gone and everybody who is new; and what is said is repeated only in the window of that group.", "quantifier": "all states of the client, all messages of others, all commands and answers to them, failing or not", "why_tests_cant": "a test would have to send what no client of this project sends: lists by others than the administrator, kicks with unfitting lists", "anchors": ["zkclient/push.go: handleGroupJoin, handleGroupPart, handleGroupKick, handleGroupKill, handleGroupList, handleGroupUpdate, diffGroupList, diffGroupListPrint, warnGroupListMissingKeys", "zkclient/groupchat.go: gcNew, gcJoin, gcKick, gcKill"]}
{"id": "C106", "title": "The user is told when a contact was disabled", "statement": "When the server answers that the account a message is for is disabled, the client tells the user so in the window of the conversation with it and in that of every group it is a member of, once each and nowhere else, and asks the administrator of a group to kick it; it says so of no other account, and does not end of it.", "quantifier": "all sequences of answers of the server, windows opened and closed, and changes of the address book and of groups", "why_tests_cant": "what is told depends on the order of windows and on what each was told before", "anchors": ["zkclient/zkclient.go: handleDisabledUser, handleRPC", "zkclient/addressbook.go: addressBookFind", "zkserver/cache.go: handleCache"]}
{"id": "C107", "title": "A token that was handed out makes an account", "statement": "What zkservertoken prints are sixteen digits in groups of four that were no token before; typed as printed, or with blanks in other places, within the hours it was made for, it passes the check of the server once, whatever tokens others try or are made in between, until an account was made with it.", "quantifier": "all values of the random number generator, numbers of hours, clocks, files of tokens, and interleavings of requests and runs of the tool", "why_tests_cant": "the failures need a request at the moment the tool saves, or values of a flag nobody tries", "anchors": ["tools/zkservertoken/zkservertoken.go: _main", "tools/tools.go: InFours", "zkclient/welcome.go: welcomeSession", "zkserver/pending.go: validToken", "zkserver/account.go: handleCreateAccount"]}
{"id": "C108", "title": "The administrator sees every account and can disable or enable what was seen", "statement": "zkserverdump shows every account by name and nick and nothing else; zkserverctl, given what was shown for an account or any other spelling of its identity, disables or enables exactly that account, says OK if and only if that was done, and whatever text it is given, something else than OK means that nothing happened and the server runs on.", "quantifier": "all states of the accounts, all texts on the command line, all nicks", "why_tests_cant": "texts with quotes, line breaks, and bytes that are no UTF-8 go through an encoding and back", "anchors": ["tools/zkserverctl/zkserverctl.go: userDisable, userEnable", "tools/zkserverdump/zkserverdump.go: _main", "zkserver/zkserver.go: socketHandler", "zkserver/account.go: handleIdentityDisable, handleIdentityEnable"]}
{"id": "C109", "title": "A contact that the user deletes is gone", "statement": "After /addressbook del the contact is sent the news, leaves the address book and the disk, and the user is told so, or why not; nobody else is deleted; and nothing of the contact is shown and it is not in the address book, also not after a restart, until the user makes contact with it again.", "quantifier": "all sequences of commands, answers, lost connections, restarts, key exchanges and resets, all orders in which the map is walked and the directories are read", "why_tests_cant": "the deletion is carried out by a callback long after the command, and what happens in between decides", "anchors": ["zkclient/addressbook.go: addressBookDel, loadIdentities", "zkclient/msg.go: cacheCRPC, scheduler", "zkclient/zkclient.go: handleRPC, reset", "zkclient/push.go: handlePush, step2IDKX, step3IDKX", "zkclient/reset.go: handleResetRatchet, handleJanitorMessage"]}
{"id": "C110", "title": "A connection that is dead is given up, and one that is alive is kept", "statement": "When the server has stopped to answer, the client closes the connection within a fixed number of seconds, whatever the user does; as long as the connection carries what is written and the server answers, neither the client closes it nor does the server end the session.", "quantifier": "all sequences of ticks, messages of any size, replies, and delays, all states in which a session begins", "why_tests_cant": "the failures need a message each few seconds, or a slow connection and a large file, for minutes", "anchors": ["zkclient/zkclient.go: handleRPC (heartbeat), writeMessage", "zkclient/msg.go: scheduler", "zkserver/zkserver.go: handleSession"]}
{"id": "C111", "title": "A name that is looked up is asked for once, and its answer is acted on", "statement": "A name that is not known and that the user looks up or talks to is asked for in the directory, and not twice at the same time; the lookup reaches the server over lost connections, its answer begins a key exchange or is shown, and if no answer comes the name can be asked for again. The user is told that a name is not in the directory only if the server said so, and a key exchange is begun only with the name the user asked for.", "quantifier": "all sequences of commands, invitations, answers, lost connections and restarts, all names", "why_tests_cant": "the failures need a connection that is lost between question and answer, or a second command while the first is under way", "anchors": ["zkclient/zkclient.go: find, handleRPC (IdentityFindReply)", "zkclient/addressbook.go: addressBookConversation", "zkclient/push.go: handleGroupInvite", "zkclient/msg.go: scheduler"]}
{"id": "C112", "title": "The directory is right while others register, log in, and are disabled", "statement": "Whatever other connections and the administrator do at the same time: a lookup ends, finds only accounts that are listed with that nick, and finds an account that is listed all the time; a nick that is listed all the time cannot be registered; and no sequence of registrations, logins, disabling, enabling and crashes spoils the directory for others.", "quantifier": "all interleavings of the steps of any number of lookups, registrations and logins with disabling, enabling and crashes, all states of the users directory", "why_tests_cant": "the failures need two connections within the few microseconds between two renames", "anchors": ["zkserver/account/account.go: Find, Create, Push, Disable, Enable", "inidb/inidb.go: New, Save", "zkserver/account.go: handleIdentityFind, handleAccountCreate", "zkserver/zkserver.go: handleSession"]}
{"id": "C113", "title": "What one request has stored is not destroyed by another", "statement": "Whatever other requests do at the same time, and wherever the server dies: a record (a blob under a PIN, a token) stays in the file with its value until it is removed; what a request is told to be stored is in the file; a pull returns what was in the file; and a token is taken once.", "quantifier": "all interleavings of the steps of any number of pulls, rendezvous and token checks with crashes, all contents of the file", "why_tests_cant": "the failures need two connections within the few microseconds between two renames", "anchors": ["inidb/inidb.go: New, Save", "zkserver/rendezvous.go: handleRendezvous, handleRendezvousPull", "zkserver/pending.go: validToken, prunePending"]}
{"id": "C114", "title": "Everybody in a group knows the same members", "statement": "Once everything that was sent about a group has arrived, everybody on the list of its administrator has the same list of members and the same generation as the administrator, and nobody else has the group: who was kicked, has left, or whose group was killed has it no more.", "quantifier": "all networks of clients, all sequences of commands, key exchanges, deliveries between any two clients and acknowledgements, all group names that can be saved", "why_tests_cant": "the failures need a request that arrives between a kick and its acknowledgements, at another client", "anchors": ["zkclient/groupchat.go: gcNew, gcInvite, gcJoin, gcKick, gcPart, gcKill", "zkclient/push.go: handleGroupInvite, handleGroupJoin, handleGroupPart, handleGroupKick, handleGroupKill, handleGroupList", "zkclient/zkclient.go: _updateGroupList, _addIdGroupchat"]}
{"id": "C115", "title": "Each key exchange has an ephemeral key of its own, which is erased", "statement": "Whatever other exchanges of the process do at the same time: the ephemeral public key that an exchange sends is one that was made for it and that no other exchange sends, the private key it uses is the one that goes with it, so that the exchange fails only if the connection or the peer does; and when the exchange is over nothing of the key is left in memory. An exchange that is answered has a pair that fits while the key is replaced each minute.", "quantifier": "all interleavings of any number of calls of Initiate, Respond and of the rotation of the key, with all failures of connections", "why_tests_cant": "needs two exchanges at a time in one process, with the second between two reads of the first", "anchors": ["session/kx.go: regenerateEphemeral, zeroEphemeral, Init, Initiate, Respond"]}
{"id": "C116", "title": "No state of a ratchet is used twice, and a reset begins anew", "statement": "Whatever is sent, received, exchanged and reset with a contact at the same time: no two messages are encrypted with the same state of a ratchet, and each is encrypted with the ratchet of the exchange completed last; once a reset has removed the ratchet, nothing from before it is used or stored again, and the exchange that the reset leads to is completed.", "quantifier": "all interleavings of the steps of any number of sends, pushes of any kind and resets with one contact, all failures of the connection", "why_tests_cant": "the failures need a reset between reading the ratchet and saving it", "anchors": ["zkclient/msg.go: cacheCRPC", "zkclient/push.go: handlePush, step2IDKX, step3IDKX", "zkclient/reset.go: handleResetRatchet", "zkclient/zkclient.go: step1IDKX, reset", "zkclient/identity.go: identityExists, saveIdentity, updateRatchet"]}
{"id": "C117", "title": "What one user writes the other sees, once and in order, over connections that break", "statement": "Whatever connections break, whoever quits, and whenever the server is restarted: what the recipient sees are messages that were written, each once and in the order in which they were written; a message that the server has stored stays there until the recipient has decrypted it; the recipient can always connect again; and when both are connected, the recipient sees all that was written.", "quantifier": "all runs of sender, server and recipient with breaks, restarts and kills at all moments, any number of messages and connections", "why_tests_cant": "a connection must break between the receipt of a message and the writing of its acknowledgement, and the effect is on another message", "anchors": ["zkclient/msg.go: runMessageQueue, cacheCRPC", "zkclient/zkclient.go: handleRPC", "zkserver/zkserver.go: sessionNtfn, handleSession", "zkserver/account/account.go: Deliver, Delete, Online, Offline", "tagstack/tagstack.go: Push, Pop"]}
{"id": "C118", "title": "Messages and backups are in the order of time", "statement": "The names under which the server stores messages, and those of backups of databases, sort as the times at which they were made: a session announces the messages for a user in the order in which they were stored, and of the backups the newest are kept.", "quantifier": "all moments up to the year 9999, all sequences of stores, scans, acknowledgements and logins, all numbers of saves and backups", "why_tests_cant": "the failure needs summer time to end, or a clock to be set back, while messages wait", "anchors": ["zkserver/account/account.go: Deliver, Online, Delete", "inidb/inidb.go: Save, prune"]}
{"id": "C119", "title": "Tab completes what was typed", "statement": "Pressing Tab changes at most the last word of the command line, and this only when it is the contact of a command or the file to send; it becomes the first contact or file that begins with what was typed, and with each further Tab the next one; nothing that cannot be completed is changed; and the completed line, once entered, names the contact or file that was completed.", "quantifier": "all lines, address books, directories and home directories, all sequences of typing, Tab, Enter, and changes of contacts and files", "why_tests_cant": "needs names with spaces, homes of other users, or contacts that change while a line is typed", "anchors": ["zkclient/completion.go: completeNick, completeNickCommandLine, completeDir, completeDirCommandLine", "zkclient/mainwindow.go: KeyHandler, action"]}
{"id": "C120", "title": "A file that is sent arrives as it was", "statement": "Whatever is done to a file while it is sent, the receiver is given it as it was at some time or not at all, no more is sent than the server allows, sending ends, and the user is told that the file was sent only if all of it was.", "quantifier": "all files, all changes of the file at any time, all splits into reads and chunks, all chunk sizes, all messages of others at the receiver", "why_tests_cant": "needs a change of the file between two reads of it", "anchors": ["zkclient/send.go: send, completeSend, FileMIME", "zkclient/chunk.go: doHandleChunk"]}
{"id": "C121", "title": "Invitations that are made, received and used at the same time are neither lost nor used twice", "statement": "Whatever the user and those who write to them do at the same time, every command and message about an invitation gets the answer it would get if they came one after the other, and the files hold what is left then: an invitation that was made is there until it is used, nobody is let into a group without one, one lets in once, one that arrived is there until it is used, and the lists show what is there.", "quantifier": "all interleavings of the steps of commands and handlers, any number of invitations, a crash at any time", "why_tests_cant": "the failures need an invitation to arrive between reading and writing a file", "anchors": ["zkclient/groupinvites.go: inviteDBAdd, joinDBAdd, joinDBFind, delJoin, delInvite, listInvites, listJoins", "zkclient/groupchat.go: gcInvite, gcJoin", "zkclient/push.go: handleGroupInvite, handleGroupJoin", "inidb/inidb.go: New, Save"]}
{"id": "C122", "title": "What is written to a group is seen by its members, once, in order, and by nobody else", "statement": "What a member writes to a group is shown to every other member, once, as theirs, in the order in which it was written, and it is sent to nobody else; all members see the same conversation.", "quantifier": "any number of clients, all interleavings of their commands, of deliveries and of losses, any groups and members", "why_tests_cant": "needs three clients and a change of members while a message is on its way", "anchors": ["zkclient/groupchat.go: gcMessage", "zkclient/push.go: handleGroupMessage, handleGroupJoin, handleGroupKick, handleGroupList"]}
{"id": "C123", "title": "Nobody is made a contact but who the user agreed to, and every PIN that was fetched can be answered", "statement": "In the windows of the key exchange: what is sent and written about a person was preceded by the user being shown this person, typing yes into this very window, and before that typing the password that opens the last blob that came; lines, passwords and answers are what was typed into their window; the user gets back to the main window with two keys; no key and no answer crashes the client. A blob that was fetched is answered by typing its password and yes, and everything that belongs to the offer is written.", "quantifier": "all sequences of keys, answers of the server (asked for or not), faults of the disk and changes of the address book; all passwords, blobs and persons", "why_tests_cant": "needs an answer of the server between two keys", "anchors": ["zkclient/kxwindow.go: KeyHandler", "zkclient/kxacceptwindow.go: KeyHandler", "zkclient/acceptclientfingerprint.go: KeyHandler", "zkclient/mainwindow.go: KeyHandler, action (/kx, /fetch)", "zkclient/zkclient.go: handleRPC (RendezvousPullReply), main loop"]}
{"id": "C124", "title": "Nobody else on the machine gets to keys, messages and received files", "statement": "If nobody but the owner can read, write or reach anything below the root directory of a client or a server, then whatever the programs make, rename and remove, this stays so, whatever the umask and even if others may enter the root directory itself. If the programs make the root directory, it is shut.", "quantifier": "all sequences of system calls that the programs make, in any order and with any failures, all names, all umasks, all modes of the root directory", "why_tests_cant": "tests run as one user, with one umask, and in directories of their own", "anchors": ["inidb/inidb.go: New, Save, prune", "debug/debug.go: New", "zkclient/chunk.go: doHandleChunkNew, doHandleChunk", "zkclient/identity.go: saveIdentity, updateRatchet", "zkclient/zkclient.go: _main, log of conversations", "zkserver/zkserver.go: _main, listenSocket", "zkserver/account/account.go: New, Create, Deliver, Disable, Enable"]}
{"id": "C125", "title": "Leaving the client loses nothing unless it is forced", "statement": "/quit ends the client if everything that was to be sent has been sent, and otherwise says so and goes on; /quit force ends it in any case. The user is always answered, and leaving does not crash the client.", "quantifier": "all interleavings of the user, of those who queue messages, of the two goroutines that send, and of the main loop; any messages, any failures of the connection", "why_tests_cant": "depends on what the sender is doing in the very moment in which the user leaves", "anchors": ["zkclient/mainwindow.go: action (/quit)", "zkclient/msg.go: queueDepth, scheduler", "zkclient/zkclient.go: main loop"]}
{"id": "C126", "title": "What is typed and received is left on the disk only where the settings say", "statement": "The history file holds commands and no text, and is written only if savehistory is on. The log file holds, besides what the console shows, nothing of what is typed, sent or received, unless debug is on; and then no more than is needed to find faults.", "quantifier": "all sequences of lines typed, arrows, restarts, lines on the console, messages sent and received, all contents and both settings", "why_tests_cant": "a test looks for what should be in a file, not for what should not be, and for few of the ways in which text can be typed", "anchors": ["zkclient/mainwindow.go: KeyHandler", "zkclient/zkclient.conf.go: defaultConfigFile (savehistory, debug)", "zkclient/push.go: handlePush", "zkclient/msg.go: transmit and the scheduler", "debug/debug.go: Log, Dbg", "zkclient/zkclient.go: PrintfT"]}
{"id": "C127", "title": "What the tools tell of a server or a client is what these use", "statement": "What zkexport prints of a server is its identity, its certificate, its directory setting and an address at which it is reached; imported by a new client it gives the client just these. What it prints of a client is the identity the client uses. The fingerprints are those of what is used. b64cert prints the certificate as the client stores it.", "quantifier": "all configuration files, home directories, names of paths, contents of the files of a server and a client, and all flags of the tools", "why_tests_cant": "the tools are run by hand, on a machine that is set up in the usual way", "anchors": ["tools/zkexport/zkexport.go: fetchServerRecord, fetchServerIPandPort, fetchServerDirectory, zkserver, fetchClientFullIdentity, zkclient", "tools/b64cert/b64cert.go: _main", "tools/tools.go: FingerprintDER", "zkserver/zkserver.go: _main", "zkserver/settings/settings.go: Load"]}
{"id": "C128", "title": "What a server tells one client in the welcome is not disturbed by the login of another", "statement": "When several clients log in at the same time, each is sent the settings of the server, the time of its login, and the message of the day as it was when it logged in, whole and nothing else.", "quantifier": "all numbers of logins, all interleavings of the loads and stores of their handlers, all settings, times and messages of the day", "why_tests_cant": "the handlers must meet within a few instructions of each other, and the message of the day must have been changed just then", "anchors": ["zkserver/zkserver.go: welcome", "rpc/rpc.go: SupportedServerProperties"]}
{"id": "C129", "title": "No user can use up what the server has for all", "statement": "What a user leaves with the server is limited in size and in time: PINs and blobs for rendezvous, of which there are a million, are given back when they expire, and messages that wait for somebody are limited. However much one user asks for, another one can still get a PIN.", "quantifier": "all histories of requests of any number of users, all interleavings and failures, all contents of requests", "why_tests_cant": "it takes millions of requests, or time that passes, to see what is never given back", "anchors": ["zkserver/rendezvous.go: handleRendezvous, handleRendezvousPull, pruneRendezvous (commented out)", "zkserver/account/account.go: Deliver", "zkserver/cache.go: handleCache"]}
{"id": "C130", "title": "The log of a conversation says who wrote what, and when", "statement": "Whoever reads the log of a conversation or of a group sees who said what, in which second, in the order of the lines, and nothing that was not said; what is in the log is not changed by what is said later.", "quantifier": "all sequences of messages from any contacts, in any mode, of lines that the user writes, of members that leave, of notices and restarts, all nicks, texts and times", "why_tests_cant": "tests write logs and look at the lines they expect, with harmless nicks and texts of one line", "anchors": ["zkclient/zkclient.go: printf, updateTS, log", "zkclient/push.go: handlePm, handleGroupMessage, handleGroupPart", "zkclient/mainwindow.go: the echo of /me and /msg", "zkclient/groupchat.go: gcMessage"]}
{"id": "C131", "title": "Nobody else speaks in the words of the client", "statement": "The lines that the client writes to its console about the server, PINs, failed messages and key exchanges are its own: text of the server or of contacts comes after words of the client that say what it is, as it was sent, and a line that tells the fingerprint of the server tells the true one; a failure is put down to the one whose message failed.", "quantifier": "all sequences of answers of the server, all texts in them, all nicks of contacts", "why_tests_cant": "tests look for the line they expect, with harmless texts; no test server says what the client would say", "anchors": ["zkclient/zkclient.go: welcomeUser, goOnlineAndPrint, welcomePhase, handleRPC", "zkclient/push.go: handlePush (reset)"]}
{"id": "C132", "title": "Contacts cannot fill the disk of the receiver beyond what they announce", "statement": "The files that contacts send take no more room than the bytes that were sent and no more entries than the announcements ask for; an unfinished file is never longer than announced, a finished one is as long as announced, and what does not become a file goes away.", "quantifier": "all sequences of announcements and chunks from any senders, of any sizes, offsets, digests and names, with any failures of the file system", "why_tests_cant": "tests send whole files to an empty directory; what is left of transfers that do not end, or do not keep to what was announced, is seen by none", "anchors": ["zkclient/chunk.go: doHandleChunkNew, doHandleChunk"]}
{"id": "C133", "title": "The server learns of a message for whom it is and how long it is, and nothing else", "statement": "What the server is given when a client sends messages to its contacts depends on nothing but for whom they are, when they are sent, and how long they are: not on what is in them, nor on the state of the ratchet.", "quantifier": "all sequences of messages of all kinds to any contacts, all keys, nonces and streams, any authenticator, any lossless compression", "why_tests_cant": "no test compares what is sent of two different messages; that something cannot be told from random bytes is not seen in samples", "anchors": ["zkclient/msg.go: compress, crpc, cacheCRPC", "ratchet/ratchet.go: Encrypt", "zkclient/zkclient.go: writeMessage", "zkclient/groupchat.go: gcMessage"]}
{"id": "C134", "title": "The certificate of a server holds for its machine, and from the moment it is made", "statement": "A certificate that the server makes is valid at the time it is made and for clients whose clock is late by a day, until the end of 2049; it names the host, the addresses of its interfaces and what was asked for, each once and nothing else; and the key that is returned is its key.", "quantifier": "all clocks, all names of hosts, sets of interfaces and lists of names with or without ports, all orders in which maps are walked through, all failures", "why_tests_cant": "tests run today, on a machine with few addresses, and maps are walked through in another order each time", "anchors": ["zkserver/cert.go: newTLSCertPair", "zkserver/zkserver.go: _main (certs)"]}
{"id": "C135", "title": "What a client may write, the server can give to the recipient", "statement": "If the server takes a message for an account then it can write it to the recipient, however long the message is: no message is refused by the session between server and recipient, and none keeps those behind it from arriving. What a client queues for the server can be written as well, so that no message stops the queue.", "quantifier": "all payloads of all lengths with both commands, all histories of an account with any number of messages and sessions, all compressions, keys and settings, all histories of the queues of a client", "why_tests_cant": "the lengths at which it fails are four out of 263088, and no test sends messages near the limit", "anchors": ["session/kx.go: Read, Write", "zkserver/zkserver.go: sessionNtfn, sessionWriter, writeMessage, handleSession (ack)", "zkserver/account/account.go: Online, Deliver", "zkclient/msg.go: scheduler, cacheCRPC, crpc", "zkclient/zkclient.go: writeMessage, welcomePhase (chunk size)", "rpc/rpc.go: Cache, Proxy, Push, PropMaxMsgSizeDefault"]}
{"id": "C136", "title": "Strangers cannot keep users out", "statement": "Whoever connects to the server and does not log in is given up after a while, so that what their connection needs is free for others; however many strangers connect, users can still connect, messages can be stored, and administrators are answered, at least when the strangers are gone.", "quantifier": "all histories of connections, logins, messages, files that are opened, administrators, and time that passes, any number of strangers, any limit of open files", "why_tests_cant": "it takes as many connections as the system allows, and hours of silence; tests have one client, which speaks", "anchors": ["zkserver/zkserver.go: listen, preSession, handleSession (deadline), listenSocket, socketHandler"]}
{"id": "C137", "title": "What others send asks for no more memory than its length explains", "statement": "To read something that was sent by others a program asks for no more memory than a small multiple of what was sent, or than a fixed amount; and a message that ends the client, because it is not given the memory or otherwise, ends it at most once.", "quantifier": "all bytes that may be sent, all types of messages, all limits, all amounts of memory, all orders of messages and starts of the client", "why_tests_cant": "the lengths that tests send are true; a length that is a lie is only met with an attacker", "anchors": ["zkclient/push.go: handlePush", "zkclient/zkclient.go: handleRPC (Push, Acknowledge)", "zkserver/zkserver.go: unmarshal", "session/kx.go: readWithKey", "rpc/rpc.go: message types"]}
{"id": "C138", "title": "What is left under a PIN is for those who were told it", "statement": "Somebody who was not told a PIN gets what was left under it only with the chance of a guess: of all PINs they find no more than they ask questions, however they choose them, PINs are drawn evenly, and the answers to other questions tell nothing of it. They cannot ask for all of them. Without the password what was fetched stays closed.", "quantifier": "all strategies of asking that look at the answers so far, all contents of the file and changes of it in the meantime, all numbers of questions, all passwords", "why_tests_cant": "tests ask for a PIN that exists or does not; chances are counted over all PINs and all numbers that may be drawn", "anchors": ["zkserver/rendezvous.go: handleRendezvous, handleRendezvousPull", "zkserver/zkserver.go: handleSession", "zkclient/kxwindow.go: KeyHandler", "zkclient/kxacceptwindow.go: KeyHandler", "blobshare/blobshare.go"]}
{"id": "C139", "title": "Whatever a client may ask for, the server can answer", "statement": "Every request that a client may write in a session is answered in that session, in the order in which was asked and with the tag of the request, whatever others have stored with the server or registered with it.", "quantifier": "all sequences of requests, all contents, all states of the PINs, of the directory and of the accounts at the time of each request", "why_tests_cant": "depends on lengths near the limit of the session, and on what somebody else has registered", "anchors": ["zkserver/zkserver.go: handleSession, sessionWriter, writeMessage", "zkserver/rendezvous.go: handleRendezvousPull, handleRendezvous", "zkserver/cache.go: handleCache, handleProxy", "zkserver/account.go: handleIdentityFind", "session/kx.go: Write"]}
{"id": "C140", "title": "zkimport tells what became of each file", "statement": "A run of zkimport on several files says of each whether it was skipped, imported or failed, and what it says is true of what is then configured. If it ends with status 0, the record of every file was imported and is there afterwards. If a file was cut off, this is noticed.", "quantifier": "all lists of files with all contents, all databases and accounts there were before, all answers of the user, all names of temporary files, all orders of maps", "why_tests_cant": "depends on the order of the files and on what the earlier ones left; a test uses one good file", "anchors": ["tools/zkimport/zkimport.go: _main, importServer, importClient", "tools/zkexport/zkexport.go: _main"]}
{"id": "C141", "title": "A user may have the client open twice", "statement": "A user who has the client open twice, on two machines or by mistake twice in one directory, is online with one of them and stays so; the clients do not try to connect more and more often; what is done to a group with either is kept; and no state of a ratchet encrypts two messages.", "quantifier": "all runs of two clients of one identity that are started and left at any time, all times that pass, all delays with which timers and lost connections are noticed, all changes of a group, all interleavings of sending", "why_tests_cant": "tests have one client per identity; what happens takes minutes and two processes", "anchors": ["zkserver/zkserver.go: handleSession (session already online)", "zkclient/zkclient.go: goOnlineRetry, goOnlineAndPrint, handleRPC (quit)", "zkclient/groupchat.go: _gcSaveDisk, gcKick", "zkclient/msg.go: cacheCRPC"]}
{"id": "C142", "title": "What was stored survives a loss of power", "statement": "When a program says that something is stored then it is there, as it was, after the machine lost power and was started again: a record of a database after Save, a message after the sender was told that it is kept, a group after it was changed. What was deleted does not come back. At least what was there before is not lost by storing something new.", "quantifier": "all contents of directories, all databases and orders of writing, all messages, all points at which power is lost, all amounts of each file that the system has written to the disk until then, all sequences of calls to the file system", "why_tests_cant": "tests do not cut the power, and a killed process loses nothing that it has written", "anchors": ["inidb/inidb.go: Save, New, prune", "zkserver/account/account.go: Deliver, Delete", "zkclient/groupchat.go: _gcSaveDisk", "zkserver/rendezvous.go", "zkserver/pending.go"]}
{"id": "C143", "title": "Users do not see of each other when they are online and to whom they write", "statement": "What the server sends to a user, or to several who compare what they got, depends only on what they do themselves, what is written to them, and which accounts there are and are disabled. When others come and go, to whom they write, when they read it, what they look up, and with whom they make contact cannot be seen. Nobody is sent anything but answers to their own requests, messages for them, and the news that they were disabled.", "quantifier": "all histories of a server: all users, requests, contents, times, failures of the disk and restarts; all sets of users who work together; all pairs of histories that agree in what may be seen", "why_tests_cant": "compares what somebody gets in two executions that differ arbitrarily in what others do; a test sees one execution and would have to know what to look for", "anchors": ["zkserver/zkserver.go: handleSession, sessionNtfn, preSession", "zkserver/cache.go: handleCache, handleProxy", "zkserver/account.go: handleIdentityFind, handleAccountCreate", "zkserver/account/account.go: Find, Push, Deliver, Delete, Online", "zkserver/rendezvous.go: handleRendezvous, handleRendezvousPull"]}
{"id": "C144", "title": "What the log of the server tells of its users", "statement": "From its log the operator of a server can read who logged in and from where, and, with debugging switched on, who left which message for whom and who failed to. Without debugging nothing is in the log of what users do once they are logged in. Contents, nicks that are looked for and PINs are never in it, nor tokens that could still be used.", "quantifier": "all sequences of connections, logins, requests for accounts, messages and requests, all identities, texts, tokens and files of tokens, all settings", "why_tests_cant": "says what is not in a log, and that what is there can be read back, for all histories; tests do not read logs", "anchors": ["zkserver/cache.go: handleCache, handleProxy", "zkserver/zkserver.go: preSession, handleSession", "zkserver/account.go: handleAccountCreate, accountReplyFailure", "zkserver/pending.go: validToken, prunePending", "zkserver/rendezvous.go", "debug/debug.go: Dbg, T, Info, Warn, Error"]}
{"id": "C145", "title": "A client answers others only where its user agreed to", "statement": "A client sends something of itself only to those whom its user said yes to or gave a PIN to, and to the members of groups that the user administrates. Anybody else can neither find out by writing to it whether it runs, nor change anything in it, nor have it write to a third person.", "quantifier": "all sequences of what the user, the server and any others do: introductions, resets, deletions, group messages and commands; all payloads", "why_tests_cant": "says that nothing is sent, whatever anybody tries", "anchors": ["zkclient/push.go: handlePush, step2IDKX, step2IDKX2, handleGroupJoin, handleGroupPart", "zkclient/reset.go: handleResetRatchet", "zkclient/zkclient.go: step1IDKX, handleRPC, reset", "zkclient/acceptclientfingerprint.go", "zkclient/addressbook.go: addressBookDel"]}
{"id": "C146", "title": "To whom it is told who is in a group", "statement": "Who is in a group is told by its administrator only, to those who are in it. Every member is told of every change. Whoever has left the group, or was removed, is told nothing more of it unless they are let in again; and whoever was not yet let in is told nothing.", "quantifier": "all states that a client can be in, all events and payloads; for those who are gone: all sequences of events, of any length, in which they do not ask to be let in again", "why_tests_cant": "says of all later messages that none goes to somebody, whatever happens in between", "anchors": ["zkclient/groupchat.go: gcInvite, gcKick, gcPart", "zkclient/groupinvites.go: inviteDBAdd", "zkclient/push.go: handleGroupJoin, handleGroupPart, handleGroupInvite", "rpc/rpc.go: GroupInvite, GroupList, GroupKick"]}
{"id": "C147", "title": "Who is shown with an invitation is in the group, and everybody in it is shown", "statement": "A user who is invited to a group is shown the names and fingerprints of those who are in it: nobody is shown who is not in it, and nobody in it is left out.", "quantifier": "all address books, all lists of members, all files on identities, all names", "why_tests_cant": "compares two address books, of the one who invites and of the one who is invited, for all contents of both", "anchors": ["zkclient/groupinvites.go: inviteDBAdd", "zkclient/push.go: handleGroupInvite", "zkclient/identity.go: loadIdentity", "zkclient/addressbook/addressbook.go: FindNick, Add, Del"]}
{"id": "C148", "title": "What somebody shows of a conversation proves nothing about who wrote it", "statement": "Whatever one party of a conversation sent, the key exchange included, the other could have made from its own secrets alone, with any text. For every conversation there are others with any texts in place of what was written that leave both ratchets in exactly the same state: neither the ciphertexts with all keys of one party, nor the files of both, tell which of them took place (deniability).", "quantifier": "all conversations of any length and order of events, reordering, replays and reloading included; both parties; all messages and all replacement texts", "why_tests_cant": "says what can be computed and that two executions cannot be told apart, for all pairs of them", "anchors": ["ratchet/ratchet.go: Encrypt, Decrypt, FillKeyExchange, CompleteKeyExchange", "zkidentity/zkidentity.go: SignMessage, RecalculateDigest"]}
{"id": "C149", "title": "Who logs in is told to the server only", "statement": "Somebody who listens on all connections, changes what is sent and logs in themselves does not learn which user connects to a server: whatever a client sends that contains, or was computed from, its identity, and whatever the server answers that was encrypted for it or computed from it, is sealed with keys that nobody else ever has, even if all private keys are lost later. What is seen of the exchange is the same for every user.", "quantifier": "all executions with any number of clients and servers and an attacker who schedules, drops, changes and makes messages and gets hold of private keys; all pairs of users and all inputs", "why_tests_cant": "says what no attacker can compute, and that two executions look the same, for all of them", "anchors": ["session/kx.go: Initiate, Respond, genKeyAndSendCipher, sendProof", "doc/session.txt"]}
{"id": "C150", "title": "To open a session that is over one needs four private keys", "statement": "Somebody who has recorded everything, and later gets hold of private keys, can open or continue a session that client and server had made properly if and only if they have all four: those of both identities, the ephemeral one of the client, which is erased with the exchange, and the ephemeral one of the server of that minute. Stealing everything that one of the two has is not enough.", "quantifier": "all executions with any number of exchanges before and after, an attacker who controls the network, and all sets of private keys that are lost later, in any order", "why_tests_cant": "is an equivalence over all attackers and all later executions", "anchors": ["session/kx.go: Initiate, Respond, regenerateEphemeral, zeroEphemeral, genKeyAndSendCipher", "doc/session.txt"]}
{"id": "C151", "title": "What /list shows is what there is", "statement": "/list shows every contact, window, group member and open invitation once, and nothing else, and its lines can be told apart: a line gives the nick and identity of the contact, the number and the partner of the window, the identity of the member and whether they are the administrator, and the group, nick, token and time of the invitation, with which it can be used.", "quantifier": "all address books, windows, groups and texts of any length, in any order of the maps; for invitations all sequences in which they are made, received and used", "why_tests_cant": "says that nothing is missing and that lines can be read back, for all texts that others choose", "anchors": ["zkclient/zkclient.go: listConversations, listAddressBook, listGroupchat", "zkclient/groupinvites.go: listJoins, listInvites, listInvitesJoins", "zkclient/addressbook.go: addressBookFind", "zkidentity/zkidentity.go: Fingerprint"]}
{"id": "C152", "title": "No map is written while another goroutine uses it", "statement": "Client and server never use a shared map in a way for which Go ends the program: while one goroutine writes to the groups, the pending lookups, the address book, the sessions, the users online, the announced messages or the subsystems of the log, no other one reads or writes the same map.", "quantifier": "any number of goroutines, each with any sequence of calls, calls to the address book and to the log nested anywhere, early returns, all interleavings", "why_tests_cant": "a race is seen only if two goroutines meet within nanoseconds, and the program is gone then", "anchors": ["zkclient/groupchat.go", "zkclient/push.go", "zkclient/zkclient.go", "zkclient/addressbook/addressbook.go", "zkserver/zkserver.go", "zkserver/account/account.go: Deliver, Delete, Offline, Online", "debug/debug.go: log"]}
{"id": "C153", "title": "What is queued is not changed by what happens later", "statement": "A message that was queued for members of a group goes to those for whom it was queued, with the list of members it was queued with, however long it waits and whatever happens between: joins, parts, kicks under way, files that cannot be written, lists that are replaced, groups that are deleted. The list of a group changes only by what happens to that group. The client behaves as if every list were copied, though lists share arrays and recipients are pointers into them.", "quantifier": "all sequences of events on any number of groups of any size, all orders in which queued messages are sent, and all choices of capacity that Go makes", "why_tests_cant": "needs a message that waits, a list with spare capacity and the right next event; the outcome depends on how Go grows arrays", "anchors": ["zkclient/push.go: handleGroupJoin, handleGroupPart", "zkclient/groupchat.go: gcKick, gcPart, gcKill, gcMessage", "zkclient/zkclient.go: _addIdGroupchat, _updateGroupList", "zkclient/msg.go: scheduleCRPC, scheduleCRPCCB"]}
{"id": "C154", "title": "The key exchange is that of the document", "statement": "Client and server exchange what doc/session.txt says, in its order: the four ciphertexts, the two ephemeral keys, the identity of the client and three proofs, each encrypted with the key it names; both then have the four keys and the two halves of their hash. Whoever makes a client or a server after the document can talk to those of this repository.", "quantifier": "all private keys, all randomness, all messages that reach a client or a server", "why_tests_cant": "compares two protocols on all inputs; both ends of a test are the same code, so that a deviation both share is not seen", "anchors": ["session/kx.go: Initiate, Respond, sendProof, recvProof, deriveKeys", "doc/session.txt"]}
{"id": "C155", "title": "Files that were opened are closed", "statement": "Client and server can run for any time without running out of open files: a file that was opened for a log, a table, a ratchet, the history, a transfer or a stored message is closed when that is done, also if something fails. At any time the open files belong to calls that are under way, two at most to each, and every call returns.", "quantifier": "any number of goroutines with any sequences of calls, all interleavings and all combinations of failures", "why_tests_cant": "a file that is left open is noticed when there are a thousand of them", "anchors": ["debug/debug.go: log, New", "inidb/inidb.go: Save", "zkclient/identity.go: updateRatchet", "zkclient/mainwindow.go: readHistory, appendHistory", "zkclient/send.go: send, completeSend", "zkclient/chunk.go: doHandleChunkNew, doHandleChunk", "zkserver/account/account.go: Online", "tools/zkimport/zkimport.go: readBlob"]}
{"id": "C156", "title": "A full disk is noticed and destroys nothing", "statement": "If something cannot be written because there is no room, or a file cannot be made or renamed, this is reported, and what was stored before is still there: the ratchet on the disk is always the last one that was said to be saved, logs keep what they have, and nothing else is touched. What is said to be saved is on the disk in full, and once there is room again everything can be saved.", "quantifier": "all sequences of saves of any contents, with any part of any write finding room, and all combinations of files that cannot be made or renamed", "why_tests_cant": "the disk has to become full within one write of many; tests have room", "anchors": ["inidb/inidb.go: Save, prune", "zkclient/identity.go: updateRatchet, saveIdentity, identityExists", "zkclient/groupchat.go: _gcSaveDisk", "zkserver/account/account.go: Deliver", "debug/debug.go: log", "zkclient/mainwindow.go: appendHistory"]}
{"id": "C157", "title": "Past states of a ratchet are gone from the disk", "statement": "Whoever gets the disk of a client finds, of each contact, the state of the ratchet that is in use, and the half one while an exchange is under way, but no past one, also if saves were interrupted; of a contact that was deleted they find none. Otherwise that keys are erased when they were used (C68) is of no help.", "quantifier": "all sequences of saves, removals, resets and deletions for any number of contacts, with interruptions and failures anywhere", "why_tests_cant": "a test looks at the file that is loaded, not at those that nobody reads, and an interruption leaves one only at the right moment", "anchors": ["zkclient/identity.go: updateRatchet, removeRatchet", "zkclient/push.go: step3IDKX", "zkclient/reset.go: handleResetRatchet", "zkclient/addressbook.go: addressBookDel"]}
{"id": "C158", "title": "What was deleted from a table is gone from the disk", "statement": "A token for an account that was used, and an invitation to a group that was used, are deleted: whoever gets the disk of the server or the client afterwards does not find them, neither in the table nor in its backups, so that they do not learn who was invited by whom and to what. What was not deleted stays.", "quantifier": "all sequences in which entries are added and deleted, on any number of tables", "why_tests_cant": "a test asks the table for the entry; the backups are read by nobody", "anchors": ["inidb/inidb.go: Save, prune", "zkserver/pending.go: validToken", "zkclient/groupinvites.go: inviteDBAdd, joinDBAdd, delJoin, delInvite", "tools/zkservertoken/zkservertoken.go: _main"]}
