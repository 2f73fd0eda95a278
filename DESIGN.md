# Design of the formal model of zkc

The model lives in `lean/Verif`. It is written in Lean 4.33.0 and uses a few Mathlib
modules. Nothing of /repo is built or executed: the Go source is read as text and every
modelled function is re-stated as a total, computable Lean function (or as a step function
of a state machine) whose doc comment cites the file and lines it follows.

## Layout

* `Verif/Model/*.lean`: definitions only. Each definition cites /repo file:lines and lists
  its simplifications.
* `Verif/Proofs/*.lean`: helper lemmas and invariants.
* `Verif/Props/*.lean`: the property theorems (`C01_...`, `C02_...`), the small
  specifications they are stated against, and an `example` per theorem that exhibits a
  non-trivial instance of its hypotheses.

## Trusted base

* Lean's kernel, and the three standard axioms `propext`, `Classical.choice`,
  `Quot.sound`. No axiom is declared, no `sorry`, `admit`, `native_decide` or `bv_decide`
  is used. Per-theorem axiom use is listed by `#print axioms` (section "Axioms").
* The correspondence between the Lean definitions and the Go text, which is by reading. As a check on the reading,
  `Verif/Props/RepoTests.lean` runs the test suite of /repo, translated, on the model, and decodes and re-encodes the
  two identities of /repo/session/testdata, which the XDR library wrote. (The digests in these two files were compared
  outside Lean with SHA-256 of the fields in the order of `Identity.hashed`; they agree.) These are tests, not proofs;
  no property rests on them.
* Third-party packages that are not in /repo are modelled from their documented
  behaviour: `golang.org/x/crypto` (secretbox, curve25519, ed25519), `sntrup4591761`,
  `davecgh/go-xdr/xdr2`, `vaughan0/go-ini`, and the Go standard library.
* Cryptography is idealised. Primitives are fields of a structure together with the laws
  that are assumed about them (for example: `open k n (seal k n m) = some m`, sealed
  boxes open only under their own key and nonce, KDF outputs collide only on equal
  inputs, DH commutes, KEM decapsulation inverts encapsulation). Every such structure
  has an explicit symbolic instance, so the assumptions are consistent and no theorem is
  vacuous. Computational security is out of scope.
* Go's memory model is not modelled below the level of mutexes and channels: a section
  protected by a mutex is one atomic step; everything else is interleaved at the
  granularity stated in the model file.
* The file system is modelled as a map from paths to contents with atomic rename. Loss of power is modelled
  in Model/Store and Model/Power only; elsewhere data that was written is durable.

## When the code violates the property

The property keeps its full English statement. The model follows the code, the negation
is proved with a concrete witness (`Cnn_..._violated`), and what does hold is proved as
`Cnn_..._partial`. The list is in section "Disagreements".

## How to read seeded/LOG.jsonl

Each line is one deliberate mistake put into a scratch copy of the model. A theorem counts as failed when its proof no
longer checks. That alone does not show that its statement became false: the proof may merely have relied on the shape
of the old definition. The other direction is the informative one: a mistake that breaks no theorem of the claim it
should break means that the claim was stated too weakly, and the field `tightened` names what was changed.

In lines with the field `depend_on_failed`, `failed` lists the declarations whose own proof broke, and
`depend_on_failed` the property theorems that mention one of those, directly or not. This is found by matching names in
the source text, so it may list a theorem too many. Earlier lines have one list, `failed`, with both kinds in it.

## Plan per property

* **C01 Tags handed out concurrently are always distinct.** Model both variants (array+index stack; bounded channel FIFO). Invariant by induction over an arbitrary list of operations: multiset(free)+multiset(held)=range d.
* **C02 Tag pool order, overflow and underflow.** Refinement of the array+index representation to an abstract bounded list; stale array slots above the index are part of the model.
* **C03 Frame nonces never repeat.** Byte-level incSeq with carry loop; prove LE value = n mod 2^64 by induction; injectivity.
* **C04 A session delivers only what was written, in order.** Parametric ideal AEAD (structure with law fields plus a symbolic instance); state machine of both ends; invariant over arbitrary attacker frame lists.
* **C05 An undisturbed session delivers everything.** Induction over the message list using the channel model of C04, including the 4-byte XDR length prefix and padding.
* **C06 A refused Write does not harm the session.** VIOLATED by the code (sequence number advanced before the size check). Prove the negation with a witness and prove as _partial that nothing is put on the wire and that histories without refused writes are unaffected.
* **C07 Honest key exchange agrees.** Model both ten-step programs over an abstract KEM/AEAD/hash; compute the honest run symbolically.
* **C08 Key exchange never completes on disagreeing keys.** From acceptance of the two proof values derive equality of the hashed transcripts under collision freeness.
* **C09 Ratchet delivers messages in any order.** Symbolic-crypto model of the whole ratchet; two-party system with ghost history; inductive invariant relating chain keys, header keys, counters and saved keys on both sides.
* **C10 Ratchet never yields a wrong plaintext.** Same two-party invariant; attacker boxes are boxes sealed under foreign keys or junk.
* **C11 Ratchet rejects replays.** Two-party invariant: a delivered (chain,number) is neither in the saved keys nor ahead of the receive counter.
* **C12 A rejected ciphertext changes nothing.** VIOLATED for a delayed empty plaintext (its saved key is deleted, then the call fails as duplicate). Prove the negation with a witness; prove unconditionally otherwise as _partial.
* **C13 Work and storage per received message are bounded.** Bound proved for all states with 32-bit arithmetic; termination fails at counter 2^32-1 (loop condition n <= 2^32-1 always true): negation plus _partial.
* **C14 Message keys are never reused.** Symbolic keys; invariant that keys on the wire are (chain index, number) distinct terms.
* **C15 Ratchet key exchange pairs the two parties.** Function-level model with abstract KEM/DH laws; base case of the invariant of C09.
* **C16 Saving and reloading a ratchet loses nothing that has not expired.** Model Marshal/Unmarshal on the full state including second-granular timestamps; prove lookup equality for saved keys and field equality.
* **C17 Weak public values are refused in key exchange.** Byte-list model of inv32 + big.Int comparison; prove iff with a little-endian value function.
* **C18 A crashing sender does not lose later messages.** VIOLATED (ratchet state is stored after the write). Prove the negation with a witness; _partial for crashes outside that window.
* **C19 A verified identity is exactly what its owner signed.** VIOLATED (Name and Nick are hashed without separator). Prove the negation; _partial: for equal Name length everything is bound; additionally prove Verify does not bind Identity to the key.
* **C20 Identity strings parse back exactly.** Model hex encode/decode; round trip and exact acceptance set.
* **C21 Packed blobs unpack exactly and never crash the reader.** Round trip proved; crash freedom VIOLATED for inputs shorter than 56/24 bytes: negation plus exact characterisation as _partial.
* **C22 Encrypted blobs open only with the right key and unmodified.** Ideal AEAD laws; decision logic of Encrypt/Decrypt and packing.
* **C23 Wire encoding round trips.** Type-directed XDR codec (universe of XDR types), generic round-trip and prefix theorem; instantiate for each message structure.
* **C24 Truncated stored messages are reported, old format still accepted.** VIOLATED (EOF at any field boundary is accepted). Negation by witness, positive parts as _partial.
* **C25 Compression is transparent.** Abstract lossless compressor; model compress selection and receiver dispatch.
* **C26 Sender and receiver agree on message kinds.** Model both tables over actual string constants; prove composition is identity for all payloads and refuse otherwise.
* **C27 The ini database behaves as a table of tables.** Refinement of the concrete map-of-maps to an abstract partial function; induction over operation lists.
* **C28 Saving and reopening an ini database preserves it.** VIOLATED when the default table is non-empty and not first in iteration order, and for names with special characters. Negations; _partial round trip for well-formed content with default table empty or first.
* **C29 Saving is crash safe.** File-system step model. VIOLATED between the two renames. Negation; _partial: complete old or new data always present under the main or a backup name, and the property holds at every other crash point.
* **C30 Backups are rotated, newest kept.** List model of a sorted directory; exact characterisation of the removed set.
* **C31 A delivered message is kept until acknowledged.** State machine over disk cache and per-session state; invariant by induction.
* **C32 Each message is announced once per login with its exact contents, oldest first within a scan.** Scanner goroutine as explicit program-counter state machine.
* **C33 No delivered message is forgotten while the user is online.** VIOLATED: a Deliver between Online and the goroutine's initial signal blocks the goroutine for ever. Negation by reachable deadlock; _partial: holds in all executions in which the initial signal precedes the first Deliver.
* **C34 Acknowledging a message never breaks the session.** VIOLATED (a stale directory listing may contain an acknowledged message). Negation; _partial: no error if acknowledgements happen only when the scanner is idle.
* **C35 Disabled means disabled, enabling restores.** VIOLATED by Create on a disabled identity (both states at once, afterwards neither Enable nor Disable works). Negation; _partial for histories without such Create.
* **C36 Nicknames are unique in the directory.** VIOLATED (uniqueness only checked against listed accounts at creation). Negation; _partial: Find soundness/completeness and uniqueness for histories that list before the next creation.
* **C37 One live session per account, and every live session can be found.** Registry state machine. At most one online session: proved. Table agreement and re-login VIOLATED (deferred delete removes a newer session's entry; directory listing failure leaves the account online for ever). Negations plus _partial.
* **C38 No client-supplied tag can crash the server.** VIOLATED at tag = tagDepth (index out of range). Negation; _partial for every other value. Also the notification tags of a well-behaved client are distinct.
* **C39 A positive acknowledgement means the message is stored.** Handler model on top of the account model; iff statement on reply and store.
* **C40 Account creation follows the configured policy.** Decision logic plus induction over sequential histories; single use VIOLATED for concurrent requests (each opens its own copy): negation and _partial.
* **C41 A rendezvous PIN retrieves exactly the blob it was issued for.** Map refinement; negation for expired blobs and for concurrent requests (lost update); _partial for the rest.
* **C42 Administrative commands never crash the server.** VIOLATED for valid hex of the wrong length (nil error dereference). Negation plus exact characterisation as _partial.
* **C43 Address book: nicks unique, lookups consistent, deletion complete.** Map model with the rename loop. Deletion VIOLATED (an identity can be stored under two nicks). Negation and _partial.
* **C44 Outgoing messages are neither lost, duplicated nor reordered.** Scheduler goroutine as state machine with queues and channels; invariant queued = sent ++ pending per priority.
* **C45 A received file is exactly the file sent, in the download area.** Splitter and receiver model; reassembly by induction; path model for the destination. Location VIOLATED (file name not sanitised). Negation and _partial.
* **C46 Several files from one sender may be in flight.** VIOLATED (single descriptor per sender and announcements overtake chunks). Negation by witness; _partial for strictly sequential transfers.
* **C47 Only the administrator changes a group.** Handler-by-handler model; frame theorem for all messages by case analysis.
* **C48 Group updates cannot go backwards or change hands.** VIOLATED (generation only warned about, new first member unchecked, empty member list crashes on GroupKill). Negations; _partial states what is enforced.
* **C49 Invitations are personal, single use and expire.** Invite store model; single use/identity binding proved by induction; expiry VIOLATED. For the invited: every request in what was sent goes back to a command and to an invitation received; the record stays if there is another for that name, VIOLATED. Negations and _partial.
* **C50 Membership changes are not undone by each other.** VIOLATED (stale snapshot installed at last acknowledgement). Negations; _partial for non-overlapping operations.
* **C51 Group messages go to every other member once and are accepted only from members.** List model; counts per recipient; iff on acceptance.
* **C52 Group names cannot escape the group directory.** Model of path.Clean/Join; VIOLATED for '', '.', '..' and for names containing x/X (missing from alphabet). Negations and _partial.
* **C53 The client only starts a session with sane server parameters.** Parser/decision model; crash freedom VIOLATED for negative tag depth other than -1. Negation and _partial.
* **C54 Tab completion always makes progress and never crashes.** Function-level model; cycle theorem by induction.
* **C55 Unsolicited packets cannot crash the client or plant identities.** Push decision model. VIOLATED (short packets crash, identity not compared with sender). Negations and _partial: exact routing table.
* **C56 No server-supplied tag can crash the client and client tags stay distinct.** VIOLATED (off by one bound; ping without tag when the pool is empty). Negations and _partial.
* **C57 Stored identities and ratchets survive crashes.** File-system step model with temp file and rename.
* **C58 Disabling an account ends its session.** VIOLATED for identities written in upper case: the session table is keyed by lower case text. Negation; _partial for lower case.
* **C59 An interrupted registration can be repeated.** VIOLATED: the directory left behind makes Create fail from then on, and has no cache directory. Negation; _partial for histories without such crashes.
* **C60 A stored message is deleted only when its recipient acknowledges it.** Session machine of C38 with the history of pushes and acknowledgements; invariant over all executions.
* **C61 Groups survive a restart.** Memory and files related by an invariant over all operations. VIOLATED if the client stops while a file is written (the file is emptied first); groups with names that are not accepted are kept in memory only.
* **C62 Client and server agree on the parameters of the session.** Sender and receiver composed through the encoding. VIOLATED: maxchunksize can be configured above the size of messages, which can not be configured; then every client refuses. _partial: accepted exactly if the sizes are positive and chunks fit into messages.
* **C63 Stored ratchets survive a loss of power.** Disk model with cached and durable contents and directory states. VIOLATED: the directory is never synced (older states come back) and the result of Sync is dropped (torn file). _partial: always some complete state when Sync succeeds.
* **C64 A crash never destroys a stored identity.** VIOLATED: a reset, which the server can cause, removes the ratchets and then rewrites the identity in place. _partial: contacts with a ratchet are never touched; ratchets are unaffected; a completed save is complete.
* **C65 Session keys are secret and stay secret.** Symbolic attacker (everything it can derive as an inductive relation); invariant that randomness sent only to honest keys is never derivable. VIOLATED for the server: the keys of a session with somebody who pretends to be a client become known when that client's key leaks later. _partial: secret while the key is, and for ever once the client has been heard.
* **C66 A completed key exchange means that the right peer is there.** Every frame under a key the attacker does not know was sent by a run; which run and at which point follows from number and kind of payload, the proofs pin down the keys. VIOLATED for the server: Respond completes for anybody who knows the public key of the client. _partial: as soon as there is anything to read in the session the client is there.
* **C67 Strangers cannot act for a user.** Product of the key exchanges with an attacker and the sessions of the server. VIOLATED: the server acts on the identity before it has read anything encrypted with the session keys: whoever knows the public key of a user ends their session. _partial: messages; only sessions of the claimed account are displaced.
* **C68 A stolen ratchet does not open past messages.** Deduction as an inductive relation over key terms; the state holds only the last root key, chain keys past every used message, and keys of messages not yet received, so that each deduction of a used key would need an erased one. VIOLATED: MyHalf and TheirHalf stay in the state and on disk for ever and give the keys of the whole first chain. _partial: later chains; and all chains had the halves been erased.
* **C69 A conversation recovers from theft.** Everything stolen is described by chain numbers up to the latest at the time; a later message key leads back to the key material of the new chain, which needs one of the two private values.
* **C70 The network can neither read nor forge conversations.** Nothing derived from the shared key is deducible (induction on derivations); hence what the attacker assembles is what C10 allows.
* **C71 Making contact ends with both as contacts.** Five phases (strangers, reset sent, exchange offered, answered, talking) tied to the conversations of C09, preserved by every event of users who do not start an attempt at contact while another is unfinished; a weight of messages bounds the answers. VIOLATED: crossing lookups and crossing resets leave both without a ratchet for ever (invariants over all continuations), somebody deleted has to reset before they can be looked up again, an impatient reset leaves one side without a ratchet. _partial: polite users.
* **C72 Messages between two clients arrive in order, once, and all of them.** Order and uniqueness for all behaviours: every delivered ciphertext contains the plaintext recorded with it. Completeness from the phases of C71. VIOLATED: what is on its way to a user who resets is acknowledged and dropped. _partial: nothing is lost to polite users who have not reset.
* **C73 Typed text goes to the party of the window.** The active window is turned into a command line "/m nick text", split into words and resolved again by nick; byte-level model of the string functions. VIOLATED: equal nicks, nicks with spaces, the nick "console", a group of the same name, text of nothing but spaces. _partial: plain nicks without an earlier window of that nick. Groups and the exact recipient (first window of that nick) in general.
* **C74 Incoming messages appear in the right window.** Invariant: every queued print has an index whose window fits the message; windows are only added. VIOLATED: a group with the nick of an open contact; closing a window shifts the indices of what is still queued. _partial: private messages with any nicks while no window is closed; groups in addition when no open contact has the name.
* **C75 Windows that are closed do not crash the client.** Invariant: the active window exists, or the next entry of the queue changes to window 0. VIOLATED: a message printed between /wc of the last window and the change to window 0, and text typed there. _partial: commands only while nothing is queued; messages at any time.
* **C76 Saved windows are restored.** Simulation over the list of saved windows. VIOLATED: two contacts of the same nick; a contact and a group of the same name. _partial: every window can still be found by its nick, nicks and identities differ.
* **C77 A nick means the same contact after a restart.** The address book as a function of the set of stored identities. VIOLATED: of two contacts of the same nick the one with the smaller identity gets the plain nick at a restart, whichever came first before. _partial: nicks that were free when they came.
* **C78 Logs of conversations are separate, complete, and in their directory.** Lexical paths (as in C50): the last component ends in the identity in hexadecimal, which has neither dots nor slashes. VIOLATED: the nick "../../x" is logged outside of the client's directory; two groups share a log. _partial: names without slashes. Separation of contacts from each other and from groups holds for all nicks.
* **C79 Marking the own nick never fails and marks the nick.** Byte-level model of strings.ToUpper and strings.Index. VIOLATED: for every ASCII nick there are messages (invalid UTF-8 before the nick) that crash every client of the group that has this nick; valid text for which something else is marked. _partial: ASCII messages and nicks; messages and nicks in UTF-8 whose characters take as many bytes in upper case.
* **C80 The client deals only with servers the user accepted.** State machine of the client with a network that answers with any certificate and identity. VIOLATED: the fingerprint shown is a field sent along, not the hash of the key; after a failed attempt nothing is asked; an imported certificate is not checked while making the account. _partial: keys, certificates where asked, and everything once there is an account.
* **C81 An account that was made can be used.** Same machine, with the accounts of all servers. VIOLATED: the identity is saved last, so that an account made before a failure is lost, and retrying is refused forever; zkimport -f keeps the identity of another server. _partial: what was saved is kept, and has an account.
* **C82 What was exported can be imported.** Composition of XDR (C23), base64 and the INI file (C28): the encoding of a client is where the decoder for servers meets the end of the input. VIOLATED: importClientRecord returns the error of os.Stat for a user that does not exist, and without -f account.Create refuses one that does; a forced import keeps myidentity. _partial: the rest.
* **C83 The client finds its server and identity again.** Composition of XDR, base64 and the INI file, with the invariant that the file has only the default table.
* **C84 Keys of pending key exchanges are kept until used.** Two goroutines on one file, in steps of system calls. Invariant: every saved key is in the file or in what the one active goroutine holds. VIOLATED: lost update; an empty file takes the place of a full one; saveKey succeeds though Save failed; a kill between the renames; nothing ever expires. _partial: one call at a time.
* **C85 Two clients that exchange a PIN become contacts.** Phases idle, offered, answered, talking, as an invariant, with the invariant of the live ratchet of C53. VIOLATED: both say yes to each other, and neither ever becomes a contact; with a directory no PIN exchange completes; without one a reset never does. _partial: no directory, one attempt at a time, no resets or deletions.
* **C86 The key on file for an identity is one the user agreed to.** One client against arbitrary others. Invariants: files, ratchets and address book agree; every entry has an event that explains it. VIOLATED: who has a PIN, or anybody if there is a directory, gets any identity into the address book with any key, and takes the place of a contact after a reset; a PIN is not used up; the server is believed without having been asked, and without having a directory; a restart lists contacts that have not answered. _partial: where entries come from; genuine if all who were given PINs are and the server makes up nobody; unchanged while there is a ratchet.
* **C87 An exchange of PINs survives a killed client.** Small steps with queues and redelivery. Phases as an invariant; a weight that decreases for termination. VIOLATED: kill of the answerer between saving the ratchet and sending; kill of the other between sending the offer and saving the half ratchet, or the other way around; an answer that arrives before the half ratchet is saved. For each, an invariant shows that nothing the user does later repairs it. _partial: outside of these windows.
* **C88 The server does what its configuration file says.** What a file says is defined on its lines (last assignment within the section), apart from the parser; induction from the back shows that the parser finds it. VIOLATED: maxmsgsize is never read; a ~ is replaced anywhere; root moves only part. _partial: all other settings; acceptance and errors exactly.
* **C89 The client does what its configuration file says.** As C88, with exact characterisations of paths and colours. VIOLATED: a faulty file under the default name is taken up to the fault; the documented attribute none is refused; root does not move the log. Exact for files in order, and for all files of another name.
* **C90 A server keeps its identity, its certificate and its control socket.** Invariant: what each point of _main knows of the files. VIOLATED: a failing read replaces the identity; two servers started together; a kill within the write of the identity; a second server takes the control socket. _partial: one process at a time and no failing reads.
* **C91 A client told to go offline stays offline.** Invariant: the flag is set and no goroutine is past its last look at it. VIOLATED: a goroutine that waits for its timer does not look again; /offline while not online is not noted. Exact condition proved.
* **C92 A client that lost its server finds it again.** Invariant: while not online some goroutine will try again; a weight bounds its moves whatever the others do. VIOLATED: a first connection that fails, and a failed /online, are never tried again; each reconnection can leave a goroutine behind for ever. _partial: after the first connection.
* **C93 Nothing uses a connection that is gone.** VIOLATED: a message being sent, and the greeting after a welcome, use z.kx without the lock and find nil. _partial: if no connection is lost in between.
* **C94 The client talks only to the certificate the user accepted.** Invariants on connection, record and what was printed. VIOLATED: with two goroutines trying, the certificate accepted may not have been printed yet. _partial: if nobody is about to print.
* **C95 Client and server never wait for each other.** Conservation of the tags of both sides; a state without moves is either empty or full everywhere; a weight bounds the moves. VIOLATED if the connection holds few messages: the client keeps the lock on its ratchets while it writes, and its reader needs it. Exact condition proved.
* **C96 The client keeps answering its user.** Locks are ordered; every piece of code takes them in ascending order and waits for the screen only with locks the screen never needs; a weight bounds all runs. VIOLATED: goOnline holds the lock of the client during key exchange and welcome, without deadline; and listing windows deadlocks if the queue of the screen is bounded. Exact condition proved.
* **C97 A silent client stops nobody else.** No goroutine waits for a client with a lock; locks are ordered; a weight bounds all runs.
* **C98 Commands do what the help says.** Lines per request from the help, parse of the line compared with the request. VIOLATED: /send with a description equal to the file name, /gc update, /gc message. _partial without these; the second half in full.
* **C99 The history gives back what was typed.** Invariant: position at most length, editor shows the line at the position; the file reads back as the list. VIOLATED when a line reaches the file in part: the next line is glued to it. _partial: every line reaches the file whole.
* **C100 Nothing of a session outlives it.** A weight bounds what happens after the connection was closed; the states where nothing moves are characterised exactly. VIOLATED in three ways, each for ever: the notifier waits for a tag, the reader for a writer that is gone, the goroutine of the account for its own channel. _partial: while there are tags and room for all that may still come.
* **C101 The log says what happened, one line each.** printf modelled after Go's doPrintf; a format that fits prints its text and the newline; lines of the file = list of entries. VIOLATED: line breaks in arguments are written as they are (a stranger can put any line into the log of the server), and texts, time and names are taken for formats. _partial without line breaks and percent signs; exact for line breaks.
* **C102 Before a session everybody gets what the settings allow.** Decoders are stable under more input in success and in failure, hence the server is monotone in its input and the client in its; what either can have done is a prefix of one run; its cases are evaluated.
* **C103 The files of invitations hold the invitations.** The file read back represents a map from group and identity to invitation; each function keeps this. VIOLATED: the name of a group in an invitation is not checked: with line breaks in it a contact adds invitations of others, or makes the file unreadable for good. _partial: names that are not empty and have no line break, equals sign or outer blanks.
* **C104 The status line tells of everything unseen.** What the user has in front of them and has not seen is recorded beside the marks; invariants tie them together: dirty = something unseen, rows since last shown = separator and unseen lines, mentioned = unseen or waiting mention. VIOLATED: a line printed between closing a window and the change to the console is not marked; mentions are marked when they arrive, not when they are printed; a window never looked at has its separator below its first line; long time stamps and closed windows crash the client. _partial under conditions on what waits when.
* **C105 What the client says about groups is true.** Notices are modelled beside the model of groups, one event at a time; truth of a notice is a statement about the lists before and after. VIOLATED: differences are printed before it is looked at who sent the list; a kick is reported as such whatever the list that comes with it; the callback of a kick reports whoever was named, drops those who joined in between without a word, and writes into the last window if the group has none. _partial: true for honest senders, complete if kicks change nothing else.
* **C106 The user is told when a contact was disabled.** Windows with a key that is not given again, notices recorded; invariant: a counter above zero means a notice, and no window has two. How many failures it takes is counted in windows of that nick. VIOLATED: the loop ends at the first private window, so that groups after it are not told; the counter is one per window, so that a group is told of one member only, and nobody is told again after the account was enabled; windows are found by nick; windows of groups that are gone are told each time; administrators are asked to kick people who are not in the group; a group without members ends the client. _partial for each.
* **C107 A token that was handed out makes an account.** The tool over the model of the file of tokens of C40; invariant: the token is on file with its time, kept by every step of one user of the file at a time. VIOLATED: the file has no lock, so that a request that is under way while the tool runs can take the new token with it; more than 2562047 hours overflow and make a token that is refused; the token is gone before the account is made. _partial: one user of the file at a time, fewer hours, passing the check.
* **C108 The administrator sees every account and can disable or enable what was seen.** The bytes on the socket: strings in JSON are read back as they were written, by induction over runes, up to bytes that are no UTF-8, which are no hexadecimal either. VIOLATED: hexadecimal text of another length ends the server; disabled accounts are shown with a dot that zkserverctl does not take; the listing ends at the first directory a crash left behind; nicks with line breaks show accounts that are none. _partial: readable directories and nicks without line breaks; without the dot.
* **C109 A contact that the user deletes is gone.** One client with all contacts, one event at a time; invariants over all runs say that what is queued, sent and carried out was asked for; deletions are counted through queue, connection and callback, and the sum is kept. VIOLATED: a contact without a ratchet can never be deleted; a deletion is forgotten without a word when the connection is lost or the client quits before the answer, though the contact was told; a crash between book and files brings it back; contacts in the book twice stay; a key exchange in between; and who was deleted can come back with the old blob key, or any if there is a directory. _partial: one nick, no key exchange, connection lasts, ratchet.
* **C110 A connection that is dead is given up, and one that is alive is kept.** Real time in milliseconds, a ticker that is on time, a writer that gives bytes to the connection; the limit after which something happens, plus rounds for what may still be written, never grows. VIOLATED: every message that is written moves the limit, also while a ping is in progress, so that a busy client notices nothing until its tags are spent; a message that takes longer than 12 (24) seconds is cut off by the client itself, in each session again, since the ping waits behind it; a ping left from the last session answers for that of the next. _partial: noticed within 6 seconds for each tag and queued message; closed only after 5 seconds without pong and without a finished write; the server's 15 seconds are not reached if pings get there within 3.
* **C111 A name that is looked up is asked for once, and its answer is acted on.** One client, one event at a time, the server's answers as events; the invariant that what is on its way is awaited and different holds with an honest server; a name that is awaited and not on its way stays so for ever. VIOLATED: the wait is only ended by an answer, so that after a lost connection the name can never be asked for until a restart; /m says "not found in directory" while the lookup is under way; an invitation makes the client look up, and begin key exchanges with, every name in it; the identity in the answer is not compared with the question. _partial: never lost; not awaited; no invitations; honest server.
* **C112 The directory is right while others register, log in, and are disabled.** Goroutines with program counters over the users directory, the two renames of Save as two steps; what is found was listed at a moment of the call, by induction over the run; invariant: a directory without user.ini is one somebody is about to write. VIOLATED: every login removes user.ini for a moment, in which lookups of others fail, and in which Create takes the failure for a nick that is free, so that a listed nick is registered for another identity, which lookups then give; an account disabled at that moment, a crash, or a login before the registration is written leave a directory that ends all lookups for ever. _partial: every directory readable during the call; no crash, no such disabling, no such login.
* **C113 What one request has stored is not destroyed by another.** Goroutines with program counters over one file, the renames of Save as steps; invariant: the record is in the file and in every copy in use, and if there is no file somebody is about to put one that has it. What a pull returns is traced to the moment of its read. VIOLATED for all contents: a pull, a rendezvous or a token check between the two renames of another makes an empty file and can put it over the full one; a crash there does the same; of two that store at once one is lost, or was never stored; a token lets two in. _partial: nobody reads while there is no file, nobody at work when the record was there first, no crash.
* **C114 Everybody in a group knows the same members.** Any number of the clients of Groups with a queue for each pair; a step of an administrator is one of: nothing said, born, somebody added, somebody removed, killed; a step of a member takes over what it is told. Invariant for each pair, by what is on the way: who is on the list that is made known has no message on the way that takes the group from them, and the last on the way, or what they have, is that list; who is not has nothing, or has just asked, or the last on the way takes it. VIOLATED: somebody who joins or leaves while a kick is under way, or a second kick, since the list of before is put back when the kick is acknowledged; a lost list is not sent again; a kick that is not acknowledged keeps the one who was kicked on one list only; a request for a group that is gone leaves a group of one; leaving by force tells nobody. _partial: none of that.
* **C115 Each key exchange has an ephemeral key of its own, which is erased.** Calls with program counters over the two arrays and the mutex. Responders: invariant that the arrays fit unless their one changer is between its two copies. Erasing: what is not zero has a call that will erase it. Initiators one at a time: the arrays are those of the one call. VIOLATED: Initiate uses the arrays of the process in place and without the lock, so that of two at a time one fails, or both use one key, or one sends zeros; in a process that also answers, the erasing spoils the key of the answers; Respond never erases its copy and has no deadline. _partial: only answers; only initiates; one at a time (which the client keeps to).
* **C116 No state of a ratchet is used twice, and a reset begins anew.** Goroutines with program counters over the two files and ratchetMtx; a ratchet is the number of its exchange and how often it was saved. Invariant: what is in the file, and what one holds in memory, is of the newest exchange and later than all that was used; a half ratchet is of an exchange not yet completed. After a reset: nothing of the exchanges before it is in the file or in memory, by induction. VIOLATED: both kinds of reset remove the files without the mutex, so that a message that is being sent or received puts the old ratchet back; then the offer or answer that the reset leads to is dropped, and all the contact writes from then on. _partial: nobody between reading and saving at the reset; nobody else at work for the exchange to be completed.
* **C117 What one user writes the other sees, once and in order, over connections that break.** Sender queue, wire, cache directory, session with its tags, wire, ratchet and acknowledgement queue as one state. Invariant: all numbers from the ratchet to the queue of the sender increase. If the recipient has no acknowledgements left over when it connects: each tag is in one place and an acknowledgement names a message that was decrypted; a measure falls with each step of the recipient and the server, so that they come to an end with all stored messages decrypted. VIOLATED: acknowledgements wait in a queue that outlives the connection, with tags that mean something else in the next session: the server deletes a message that nobody has received; and it has a tag too many, so that in the end its reader waits for ever, the session never ends and the recipient is refused until another message comes or the server is restarted. Messages on a connection of the sender that breaks, in the queue of a sender that quits, and those decrypted by a recipient that is killed before they are shown, are lost. _partial: none of that.
* **C118 Messages and backups are in the order of time.** The calendar day by day, the names digit by digit; the date of a later day is later by induction, and so the printed name. Invariant: the files are sorted by number and by what the clock showed. VIOLATED: the names are the local time without the zone, so that within an hour of the end of summer time, or when the clock is set back, later messages are announced before earlier ones and new backups are removed in place of old ones, for all such times. _partial: the clock on the wall does not go back while messages wait.
* **C119 Tab completes what was typed.** Tab and Enter on a state of line, completion in progress, address book and files. Invariant: the candidates are those of an address book or directory there was. Insertion sort for sort.Strings; the first match in a sorted list is the least. The lines meet the parser of C98. VIOLATED: a path in the home of somebody else is wiped off the line; the list of candidates is kept until Enter, so that contacts who are gone are offered and new ones are not; a file whose name was begun is not found; a name with a space is completed and then means another file; at a nick with a space the rest of the contacts is out of reach. _partial: none of that.
* **C120 A file that is sent arrives as it was.** The sender as a machine that reads the open file step by step, with arbitrary changes between the steps, joined to the receiver of C45. Invariant: what was read is woven of what was in the file; without changes, what was sent is a beginning of the file. A measure bounds the steps. VIOLATED: the file is read once for its digest and once for sending, and its size is checked before both. So it can be sent in a mixture of two contents; a file that grows is sent or read without end, past the limit; one that shrinks is reported as sent and never arrives; and a chunk size from the server is used for an allocation without a bound. _partial: nobody changes the file.
* **C121 Invitations that are made, received and used at the same time are neither lost nor used twice.** Two goroutines with program counters over the two files and the lock of the client. Invariant: while only one of them is at a file, its copy is what is left of all that was done before. The lock keeps them apart at the invitations that were made, for all interleavings; so does nothing at those that arrived. VIOLATED: handleGroupInvite does not take the lock; an invitation that arrives during /gc join is lost, or brings the used one back, or makes all the others vanish; a crash between the renames of Save loses all; a list between them is empty. _partial: none arrives during a join, and no crash between the renames.
* **C122 What is written to a group is seen by its members, once, in order, and by nobody else.** On the net of C114. Invariant: nobody is on a list twice, so each text goes on each wire once; what was shown and what is on the wire together are a subsequence of what was written while the reader was on the list of the writer, and change by exactly that while lists agree. With C114 for when they agree. VIOLATED: each client goes by its own list. What a new member writes is dropped by those who have not heard of them; somebody who was kicked reads what is written by those who have not heard of it; what one wrote before being kicked is shown to some only; and two members see the texts of two others in different order. _partial: nobody comes or goes and nothing is lost; same for each writer.
* **C123 Nobody is made a contact but who the user agreed to, and every PIN that was fetched can be answered.** One state machine of the focus, the four editors and what leaves the windows; ttk, which is not in the repository, is an assumption. What was typed is defined on the events alone, and the editors are shown to hold it. By induction over the events: each output names the Enter that made it. VIOLATED: there is one window for passwords and one blob, and an answer of the server takes the focus at once: a second blob replaces the first, which has to be fetched once more, or hides for ever a person who was shown; it need not have been asked for, and the rest of the line goes to the wrong editor; the password of the last person is still in the editor; and the offer is sent before anything is written, so that a failure leaves an offer without a ratchet. _partial: the editor is empty, no other blob comes, the disk does not fail, the person is not added in some other way.
* **C124 Nobody else on the machine gets to keys, messages and received files.** A file tree with modes; one constructor for each call in the code, with the mode it asks for. Invariant: on the way to everything below the root there is something, strictly below the root, that nobody else may use or pass; preserved by each call on its own, so interleavings and crashes do not matter. For a root directory that is shut: nothing replaces it. VIOLATED: a received file is made with mode 0666 and its name comes from the sender, `../x` puts it where others may read it if they may enter the root; the socket for administrators is made with mode 0777, only the umask or the root directory protects it. _partial: received files stay in their directory; the umask forbids others to write.
* **C125 Leaving the client loses nothing unless it is forced.** The scheduler of C44 with the question for the lengths of the queues, the two phases of closing, and the main loop. On the invariants of C44: what waits is in the slices, in hand, or in the channels. VIOLATED: the question is put only if the sender is idle; while it sends, which is when something waits, the client ends without a word; what is still in the channels is not counted; control-Q asks nothing; a second /quit closes a closed channel. _partial: the user waits until nothing moves and types it once.
* **C126 What is typed and received is left on the disk only where the settings say.** The history of C99 and the log as a list of the values printed in it. By induction over the events: the history file is the old one with all typed lines, and nothing else; with debug off the log grows by the lines of the console only. VIOLATED: text is in the history file as well as commands, and commands hold text and PINs; with debug the log has the content of every message in the clear, and the keys of key exchanges. _partial: with the settings as they come nothing is left.
* **C127 What the tools tell of a server or a client is what these use.** What a server started now would use, and what the tool prints, as functions of the same files, on the models of the settings (C88) and of the records (C82); compared for all files. VIOLATED: the tool does not read the root directory from the configuration, and exports what lies where the configuration does; it exports the address at which the server listens, which may be that of all interfaces; it prints no fingerprint of a chained certificate. _partial: the configuration is in the root directory that it names, or names none.
* **C128 What a server tells one client in the welcome is not disturbed by the login of another.** The table of properties that all sessions share, with the two words of each string stored and loaded separately, by an invariant over all interleavings: what is at a place that a login has passed are words of logins, not defaults. The settings arrive whatever the interleaving; the time is that of a login; the message of the day arrives if all logins read the same. A login during which no other one stores gets its own values. VIOLATED: a message of the day that is changed meanwhile comes cut, or with what lies behind it in the memory of the server; the time may be that of another login.
* **C129 No user can use up what the server has for all.** On the models of C41 and C39. By an invariant over all interleavings the file has one record for each of some of the PINs that were issued, so at most a million; the lengths of records and stored messages follow from those of the encodings. VIOLATED: PINs are never given back, so a million requests of one user end it for all, forever; the text of the expiration may have any number of leading zeros, so that records are as long as messages may be although blobs are limited to 4096 bytes; there is no limit to the messages that wait for an account. _partial: while fewer PINs were issued than there are, one is free.
* **C130 The log of a conversation says who wrote what, and when.** The file as a list of bytes, with the colours of nicks and of mentions and ttk.Unescape, which removes them, as a parameter. A reader is defined separately: lines, time, `<nick> text` or `* nick text`. By induction over the events the file consists of whole lines and is read as what was said; a time is recovered from its 19 characters. VIOLATED: texts may have line breaks, so anybody can add lines, of the user too, of any time; nicks may have spaces or angle brackets, and may be that of the user. _partial: nicks and texts without these, and no two with the same nick.
* **C131 Nobody else speaks in the words of the client.** The lines of each answer by `fmt.Sprintf` as modelled for C101, including that a message about a failed push is itself used as a format. Separately what is meant: a label and a text. No label is the beginning of another, so a line can be read in one way only; by induction over the answers every line with a label was meant. VIOLATED: the message of the day and the errors of two answers are printed bare, so a server can print any line of the client; a nick with doubled percent signs is shown with single ones. _partial: without these.
* **C132 Contacts cannot fill the disk of the receiver beyond what they announce.** On the model of C45. By induction over the messages the sum of the lengths of all files grows by at most the payload of a chunk or the encoding of an announcement, and the number of entries only by announcements. VIOLATED: the announced size is compared only for equality, so chunks make the unfinished file as long as the sender likes; an unfinished file stays whatever others send and whatever its sender sends of other files, and a corrupt one as well. _partial: if the chunks of a sender end before N, and names are plain, the unfinished file is never longer than N.
* **C133 The server learns of a message for whom it is and how long it is, and nothing else.** The bytes that the server reads, with secretbox as an exclusive or with a random stream and an authenticator of the result. Noninterference: for two sequences that agree in recipients, tags, times and lengths there is a bijection between the random choices under which the server reads the same bytes. Lengths are computed from the encodings. VIOLATED: messages are compressed before they are encrypted, and by a counting argument any lossless compression that shortens some text tells it from another of the same length; a message to a group is one message of the same length for each member, so that the server learns who is in it. _partial: of texts that are not compressed only the length, rounded to four, is learnt.
* **C134 The certificate of a server holds for its machine, and from the moment it is made.** newTLSCertPair with its maps; net.SplitHostPort as it is, addresses and their text as a parameter. By induction over the lists the maps hold exactly what was put in, under distinct texts, so that any order of the walk gives each once. Times by arithmetic of nanoseconds. VIOLATED: `validUntil` is compared with the clock before it is cut to 2049, so that after 2049 the function returns certificates that have expired; an address in brackets without a port is taken for a name. The server itself is not affected: it asks for 2049 and is refused later. _partial: before 2050.
* **C135 What a client may write, the server can give to the recipient.** The frames by the encodings of C23 and the lengths of C133, with the limit of KX.Write; an account of the server with its files and sessions; the queues of a client. The frame of a Push is four bytes longer than that of the Cache it comes from. VIOLATED: payloads of exactly 263085 to 263088 bytes are taken and cannot be given; by an invariant over all later runs such a message stays for ever, ends every session of the recipient, and nothing behind it is ever written, so anybody with an account can cut off anybody. A client accepts sizes for parts of files with which honest senders do this, or stop their own queues for good, and the list of a group of 8217 members does the same. _partial: encodings of up to 262928 bytes, thus all texts up to 262920 and files in parts of the default size, get through whatever the compression; and if all messages fit then all arrive in order.
* **C136 Strangers cannot keep users out.** The process as a number of open connections and files below a limit, with time in seconds. By invariants over all runs a session of which nothing is heard for 15 seconds is closed, and a connection that is closed makes room. VIOLATED: before the session there is no deadline, so a connection that says nothing stays for ever; as many of them as the limit stop the server for all runs in which they are kept: nobody else is let in, no file is opened, nobody is answered; the loop that accepts writes lines to the log without end; and if an administrator comes then, the loop of the control socket ends for good. _partial: while no more was asked for than may be open nothing is refused.
* **C137 What others send asks for no more memory than its length explains.** A second reading of the types of the protocol that counts what is asked for, also if reading fails. By induction on types: with a limit it is bounded for whatever bytes (below 800000 bytes for each thing that the server reads); and for what can be read it is at most five times what was taken. VIOLATED in the client, which has no limit: eight bytes from anybody, which are not encrypted, ask for two gigabytes; 28 bytes from a contact as well, and 52 bytes about a group for 64 gigabytes. What is encrypted ends a client at most once, by an invariant over all runs, as the ratchet is saved first; what is not encrypted ends it at each start, and nothing behind it is ever handled.
* **C138 What is left under a PIN is for those who were told it.** An adaptive strategy against the file of C41 while others change it. By induction the questions up to the first that hits are those that would have been asked if nothing were there, so that the PINs that are found are images of the questions; counting the numbers of 64 bits that give a PIN yields the chance. VIOLATED: nothing counts or delays questions, so that a million of them, which change nothing in the file, fetch everything that was ever left; what was fetched can be tried on passwords without the server; and the client accepts the empty password.
* **C139 Whatever a client may ask for, the server can answer.** All answers byte for byte, on the encoding of C23; lengths computed exactly. That blobs are short is an invariant over all runs of the server (C41). Induction on the session. VIOLATED: the answer to a search holds the names of who is found, which have no limit of their own, and an error says the name twice: whoever looks up such a name loses the session. _partial: names of up to 65536 bytes.
* **C140 zkimport tells what became of each file.** The loop over the files on the model of C82. Induction on the list of files. VIOLATED: what cannot be read is skipped with status 0, also if this is everything; without -f a second record always fails; with -f each server replaces the one before, though both are said to be imported; the record of a server cut after the identity is taken for that of a client. _partial: if all files can be read, status 0 means that each was imported.
* **C141 A user may have the client open twice.** Two clients with their timers, the one session the server keeps for them, and the clock; the file of a group with two copies in memory; the file of a ratchet with two that load and save it. VIOLATED: who logs in ends the session there is and is refused as well, so that by an invariant over all runs nobody stays online for more than half a minute as long as both run; each lost connection starts another goroutine that reconnects, and those that succeed do not end, so that for every k there is a run in which they are 2^k after k half minutes (induction on rounds); in one directory a member who was removed with one is back after a change with the other, in a list that is newer; and a state of a ratchet is used twice. _partial: a client that runs alone is online after half a minute and stays so; clients that run in turn keep all changes; one that sends alone uses each state once.
* **C142 What was stored survives a loss of power.** A disk with what programs see and what may be found later, on which the calls of C27 to C30 and C31 are run; as long as the machine runs it refines the directory of those (C142_same). Nothing but the ratchets of the client is synced. VIOLATED for all inputs: after every successful Save the database may be found empty, which New opens without an error; a record may have a value it never had; a stored message may be gone or read as an empty one from nobody; one that was deleted may be back; a file written in place loses the old contents too. _partial: what the system has written to the disk stays whatever else is done (induction over all calls), and a Save that does not prune its backup leaves the old contents under one of two names at every point.
* **C143 Users do not see of each other when they are online and to whom they write.** Noninterference by unwinding: a relation between states that look the same to a set of users, kept by every event that may be seen (with the same answers), and by those that may not on one side alone; invariants: files are older than the clock, and who is online is listed. Induction on histories. VIOLATED: with a directory the first login of an account can be seen, since only then the nick is found; a message to a third user in the same instant fails because the file is there; and a PIN that is in use tells that somebody makes contact. _partial: without these everything holds, with a directory for all who have been online before.
* **C144 What the log of the server tells of its users.** The calls of the logging functions, with the formats as they are and the printing of C101; a reader of entries that gives back what was left, by induction on the history; contents and private events by comparing two histories. VIOLATED: the arrow in the entry points from the recipient to the sender; an entry about a message that could not be left does not name the sender; one that was to be left as it is and failed has the entry of a success too; a token that is not in the file is written down as it was typed. _partial: who knows how the arrow is meant can read everything that was left.
* **C145 A client answers others only where its user agreed to.** Introductions of C86 and groups of C47 put together, with a function that gives the recipients of what is sent upon each event. Every recipient has a reason in the history: induction for files, blob keys and invitations. For strangers: no answer and no change. VIOLATED: a request to reset is answered at once, to anybody on file; who has a PIN, or anybody if there is a directory, has the client write to whom they name; so does the server, which need not have been asked; and a PIN works on after its owner was deleted. _partial: nothing else is sent.
* **C146 To whom it is told who is in a group.** On the client of C47: every message with a list is analysed by the event that causes it; being gone is an invariant of the groups and of the removals under way, by induction on runs. VIOLATED: the list without somebody is sent to that person as well; while one member has not acknowledged a removal, the one who was removed is told who is let in; an invitation has the names of all members in it; and who leaves with force goes on being told. _partial: lists go to nobody else, and to nobody who left, or whose removal has been acknowledged by all.
* **C147 Who is shown with an invitation is in the group, and everybody in it is shown.** The list of names as it is made and the loop that shows it, with the address book of C43. VIOLATED: names are looked up in the address book of the one who is invited, so that a namesake is shown with their fingerprint; the administrator has no file about themselves and is never shown; and members who are not known to the one who is invited are left out. _partial: if the members are the only ones with their names, the shown are members, and every member that both know is shown.
* **C148 What somebody shows of a conversation proves nothing about who wrote it.** On the conversations of C09 to C14 and the computations of C68: every chain below one with messages has messages, so that of two DH values one is always the own, and by induction each party computes all keys. For the states: encryption and decryption do not look at texts but for whether they are empty; induction on conversations gives the edited conversation, with the same ratchets.
* **C149 Who logs in is told to the server only.** On the network of C65 and C66. For the client: what it sends before it has checked the proof does not name it; the proof shows that the ephemeral key is that of the server, so the third key is secret at every later state. For the server: a second invariant of what the attacker knows, of ciphertexts that are only found inside frames it cannot open, so that the fourth key is secret even if the private key of the client is lost. For what is seen: a relation of programs that send the same up to the content of veiled frames. That the private key of the server must not be lost before is shown to be needed.
* **C150 To open a session that is over one needs four private keys.** The network of C65 goes on with a thief who gets any private key, also ephemeral ones. From C66 the two ends of a session; each of the four random values was sent to one key only, which is a fact about what runs send and not about what the thief knows, so one key that is not lost keeps the session closed; and with all four a derivation is given.
* **C151 What /list shows is what there is.** The lines as text, and readers for them that are separate from the code: fingerprints from the end, numbers from the beginning. For invitations the store of C103 after any sequence. VIOLATED: a nick with a blank in it gives the same line as another nick and name; a member whose nick ends in ' (admin)' is seen as administrator; and the invitation of somebody who is not in the address book is not listed though it can be used.
* **C152 No map is written while another goroutine uses it.** Every function that uses one of the maps as the sequence of its locks and uses. A discipline on programs (each use under the lock of its map, for writing under the lock for writing) is proved of every call, and of calls woven into others; with it, an invariant of the interleavings: a lock held for writing is held by nobody else, and a use that is under way is under its lock. The locks are shown to be needed.
* **C153 What is queued is not changed by what happens later.** A memory of arrays, with append as in Go, against a specification with lists as values. Refinement by an invariant: no two lists that may grow share an array, and whoever may append to an array either begins behind everything that is queued of it or is full. That the list of those who stay is cut off at its length (the third index in handleGroupPart) is what keeps this.
* **C154 The key exchange is that of the document.** The lines of the document as messages over any primitives, with its names; the programs of C07 and C08 run against them. By inversion of the programs, whoever completes was sent such lines. VIOLATED: the second and third proof are not those of the document (each is over the proof before and one public key, not over all public keys), so a client or server that follows the document is refused. The proofs are shown to vouch for the same.
* **C155 Files that were opened are closed.** Each function as a tree of what it does with its files, with deferred calls. An invariant of the interleavings: every call under way closes what it has opened on each of its paths. VIOLATED: a file that is too large to be sent, and the spool when a chunk cannot be written, are not closed.
* **C156 A full disk is noticed and destroys nothing.** Each save as its writes, of which any beginning may get through, those that are looked at and those that are not. The ratchet is compared with the last report by induction over all sequences; old tables are followed through their backups. VIOLATED: Save of a table does not look at the results of its writes, so a table with nothing in it replaces one that was full and success is reported; if the table was created by the same process not even a backup remains; and groups are emptied before they are written.
* **C157 Past states of a ratchet are gone from the disk.** The directory of each contact as the states that can be found in it, against a specification that reads the state in use off the events. By induction over all sequences what is found is that, and a count of what interruptions add. VIOLATED: a temporary file of a save that was interrupted is never removed but with the contact, and neither is the half ratchet of a client that died before it removed it.
* **C158 What was deleted from a table is gone from the disk.** Tables with their backups. By induction over all sequences: an entry that was deleted is not in the table, moves one backup further with each save, and is gone after ten. VIOLATED: until then it is in a backup, and if the table is not changed any more it stays there.

## What is modelled

| Model | Code | Level |
|---|---|---|
| TagStack | tagstack/tagstack.go | all functions; blocking pool as a bounded channel |
| Session | session/kx.go 22-43, 399-444 | Read, Write, nonces, framing; ideal secretbox |
| KX | session/kx.go 149-397 | Initiate, Respond, messages on an attacker's wire |
| KXNet | session/kx.go 149-429 | any number of Initiate and Respond with a symbolic attacker who gets hold of long-term keys; an encapsulated key depends on the randomness only; also used by Veil (C149) |
| KXServer | zkserver/zkserver.go 592-709 | key exchange, then the session of the identity it yields |
| Ratchet, RatchetConv | ratchet/ratchet.go, ratchet/disk/disk.go | all functions; conversations of two parties |
| SendCrash | zkclient/msg.go 437-519 | order of encrypt, write, store |
| Point | ratchet/ratchet.go 161-176, 520-529 | byte level |
| Hex, Identity | zkidentity/zkidentity.go | rendering, parsing, signing, verifying |
| Blob | blobshare/blobshare.go | byte level; ideal scrypt and secretbox |
| Xdr0, Xdr | rpc/rpc.go structures, the XDR package they use | byte level |
| RatchetLeak | ratchet/ratchet.go 45-78, 531-570 | which keys a copy of the state contains; symbolic deductions of a thief |
| StoredMessage | zkserver/account/account.go 57-66, 320-331, 467-489 | byte level |
| Crpc | zkclient/msg.go 253-418, push.go 478-694 | byte level; zlib is a parameter |
| Push | zkclient/push.go 54-694, identity.go, reset.go | decisions and stored files; decoders are parameters |
| Contact | zkclient/zkclient.go 1053-1115, 1480-1512, 1717-1840, push.go 54-160, 293-475, reset.go, identity.go 31-49, addressbook.go 23-56, msg.go 437-519 | two clients, all interleavings of commands, replies and deliveries; delivery in order by the server |
| Text, Windows | zkclient/zkclient.go 160-200, 240-280, 342-497, mainwindow.go 354-660, 727-829, push.go 696-720, 1215-1290, groupchat.go 496-540, addressbook.go 20-140 | windows, the queue of the screen, commands /m, /me, /query, /gc m, /wc, saving and restoring; other commands, and the text of informational lines, are left out. strings.Split, TrimSpace, Index, ToUpper as functions on bytes |
| ChatLog | zkclient/zkclient.go 200-239 | lexical paths; ttk.Unescape left out |
| Mention | zkclient/push.go 1257-1276 | unicode.ToUpper is a parameter of which only ASCII and U+FFFD are known |
| Enrol | zkclient/welcome.go 120-202, acceptserverfingerprint.go 110-129, zkclient.go 679-776, 954-1006, 1599-1651, 1983-2050, 2110-2145, mainwindow.go 389-412, tools/zkimport 123-217 | any network; a step is one thing the user does; identities of clients are numbers |
| BlobKeys | zkclient/blobkeys.go, push.go 64-73, 176-185 | two goroutines, steps are the system calls that touch the file |
| PinContact | zkclient/kxwindow.go, kxacceptwindow.go, acceptclientfingerprint.go, push.go 54-447, reset.go | two clients, ratchet and KEM as in Contact; what a window does is one step |
| Intro | the same, identity.go, addressbook.go, zkclient.go 1053-1115, 1480-1512 | one client, anything from the others; of a ratchet there is the key it was made with |
| Handshake | zkclient/acceptclientfingerprint.go 122-208, push.go 54-281, 432-447, zkclient.go 1386-1431 | steps are single files and messages; kills and redelivery; a key exchange is a number |
| Settings | zkserver/settings/settings.go, zkserver/settings.go, zkclient/settings.go, zkclient.conf.go | the whole text of the file; strings as characters; ttk.Color says yes or no |
| Startup | zkserver/zkserver.go 800-1011 | system calls on identity, certificate, key, socket and port; two processes; reads may fail, writes do not |
| Reconnect | zkclient/zkclient.go 726-815, 940-1037, 1186-1299, 1653-1656, 1843-1866, 2207-2210, mainwindow.go 389-427 | all interleavings; an attempt to connect is one step |
| Flow | zkclient/msg.go 120-194, 437-519, push.go 453, zkclient.go 1250-1276, 1284-1598, zkserver/zkserver.go 217-331, 345-351, 421-588 | one session, all interleavings of five goroutines; messages without contents; a connection holds a number of messages; the heartbeat's time-out left out |
| Locks | zkclient/zkclient.go 113-279, 296-570, 954-1025, 1107-1201, 1222-1271, 1441-1494, 1735-1765, 1843-1977, 2214; msg.go 60-251, 431-519; push.go, groupchat.go, mainwindow.go where they take locks; zkserver/zkserver.go 298-416, 516-550, 763-769; zkserver/account/account.go 194-454; session/kx.go 61-64, 327-330 | only what can wait: locks, the queue of the screen, the connection; each piece of code as the sequence of these; all interleavings of any number of goroutines; RWMutex with waiting writers; the source of ttk is not available: capacity of its queue is a parameter |
| Commands | zkclient/mainwindow.go 80-119, 170-190, 217-233, 300-720; help.go; groupchat.go 643-689 and the checks of arguments in the functions called; zkclient.go 526-596 | ToLower is a parameter; what the requests do is in other models |
| Ends | zkserver/zkserver.go 217-420, 553, 596; zkserver/account/account.go 335-361, 385-511; tagstack/tagstack.go 60-85 | four goroutines of one session, all interleavings; messages without contents |
| Log | debug/debug.go 31-147; zkserver/zkserver.go 592-612, 712-716 | `fmt.Fprintf` after Go's doPrintf, arguments as the bytes they print as; `ttk.Unescape` and the time are parameters; a write that fails is not modelled |
| Front | zkserver/zkserver.go 96-98, 592-716; zkserver/account.go 18-84; zkclient/welcome.go 149-199, acceptserverfingerprint.go 111-129, zkclient.go 748-757, 1983-2018 | byte level, both ends, pieces of any size; a connection that breaks is one on which nothing more arrives |
| Invites | zkclient/groupinvites.go 44-58, 126-380; inidb through IniDB | one file; text of the file, hex, base64 and XDR in full; tokens and times are given; names are valid UTF-8 |
| Status | zkclient/zkclient.go 49-111, 113-197, 242-279, 294-340; zkclient/mainwindow.go 238-254, 633-651, 770-777; zkclient/push.go 1262-1289 | rows by kind, days as numbers, status line as list; what the user sees is recorded beside; a message to a group is handled in one step |
| Reports | zkclient/push.go 764-1217; zkclient/groupchat.go 86-121, 172-223, 302-362, 434-494: what is printed | notices about groups and members, identities instead of nicks; usage, errors, reasons and colours left out |
| Disabled | zkclient/zkclient.go 282-292, 1117-1178, 1459-1479; zkclient/addressbook.go 100-105 | windows with a key each; address book and groups change arbitrarily; the line "cache error" in window 0 left out |
| Admin | tools/zkserverctl/zkserverctl.go 56-140, tools/zkserverdump/zkserverdump.go 71-92, zkserver/socketapi, zkserver/zkserver.go 721-794, and strings and flat objects of encoding/json | other JSON values are refused, names are compared without the case of ASCII only, texts of errors are a parameter that is not empty |
| Deletion | zkclient/addressbook.go 23-72, 108-138; msg.go 131-184, 437-519; zkclient.go 941, 1425-1478, 1768-1840; push.go 54-475; reset.go 52-71; mainwindow.go 657-696 | payloads and cryptography left out, one queue, a ratchet is written before the answer arrives, a removal may fail in part |
| Heartbeat | zkclient/zkclient.go 1216-1280, 1317-1339, 1844-1878; zkserver/zkserver.go 421-445, 466-477 | milliseconds; the ticker is on time; messages have a size and no content |
| Lookup | zkclient/zkclient.go 1480-1512, 1717-1765; addressbook.go 74-95; push.go 745-757; mainwindow.go 461-470, 554-563, 705-709 | lookups only; tags are a flag of the event; the server is an event |
| Listing | zkserver/account/account.go 124-234, 248-290; inidb/inidb.go 44-143 | goroutines step by step; of an account only user.ini, of that identity and whether it is listed |
| SharedDB | inidb/inidb.go 44-143; zkserver/rendezvous.go 56-218; zkserver/pending.go 18-80 | goroutines step by step; one table; the key of a new record is given, expiry is given |
| GroupNet | zkclient/groupchat.go, groupinvites.go, push.go 721-1296 (the clients of Groups) | any number of clients; messages between two arrive in order or are lost; acknowledgements come at any time |
| Ephemeral | session/kx.go 46-98, 245-330; zkserver/zkserver.go 844-860 | calls step by step; key pairs are numbers, 0 an erased one; honest peer; one step for each use of an array |
| RatchetFile | zkclient/msg.go 437-519; push.go 54-130, 293-365, 398-476; reset.go 52-71; zkclient.go 1053-1115, 1768-1840; identity.go 29-61, 192-218 | goroutines step by step over the two ratchet files and ratchetMtx; a ratchet is the number of its exchange and how often it was saved; write and save of a message are one step; no crash |
| EndToEnd | zkclient/msg.go 45-190, 437-519; zkclient.go 1383-1431; zkserver/zkserver.go 48, 260-331, 343-470, 516-562; cache.go 17-66; account/account.go 313-358, 397-511; tagstack 11-90 | one sender, one recipient, messages only; connections with what is on them; both ends notice at once that a connection is gone; the ratchet takes each message once |
| Clock | zkserver/account/account.go 315-379, 397-500; inidb/inidb.go 122-176 | the calendar and the printed names in full; a scan is one step; moments from 1970 on; `Stamp` and the order of names are those of IniDB |
| Tab | zkclient/completion.go 63-139; zkclient/mainwindow.go 152-221 | `Next` is that of Completion, the meaning of lines that of Commands; `filepath.Glob` is any function, `homedir.Expand` as documented; races of the editor left out |
| Upload | zkclient/send.go 21-158 | the open file holds any bytes, and anybody may change them between two reads; reads give any part of what is there; the scheduler only takes the messages in order; `http.DetectContentType` is any function; the receiver is that of Chunks |
| ClientDB | zkclient/groupinvites.go 59-116, 135-360, groupchat.go 123-221, push.go 721-833, inidb/inidb.go 44-143 | a record is a token under a group and an identity (Invites has the files byte by byte); who sent an invitation is given with the command; disk operations succeed if what they name is there; messages and groups are left out |
| Dialogs | zkclient/kxwindow.go 93-163, kxacceptwindow.go 98-191, acceptclientfingerprint.go 108-210, mainwindow.go 160-189 and 430-444, zkclient.go 241-340, 1359-1379, 2233-2278 | ttk is assumed: keys go to the window with the focus, an editor has its text until SetText and stores it on Enter, what is queued is done before the next key; what a password makes of a blob and what a line means are given; no cursor keys; the windows of the first start are left out |
| Perms | every call that makes, renames or removes a file or directory: inidb/inidb.go 58-172, debug/debug.go 80-94, zkclient/zkclient.go 228, 694, 2069-2123, identity.go 69-212, groupchat.go 61-83, chunk.go 40-188, mainwindow.go 306-344 and 728-794, settings.go 158-178, zkserver/zkserver.go 805-982, account/account.go 97-370 | group and others are alike; no links, mounts or access lists; others do nothing in directories they may write to; a rename may replace a directory with something in it; the directory of accounts is below the root |
| Quit | zkclient/mainwindow.go 659-677, zkclient.go 2226-2282, msg.go 124-133 and 197-205, on the model of the scheduler | reading the lengths and sending them is one step; ttk runs one command after the other; what the end of the program does to the connection is left out |
| Residue | zkclient/mainwindow.go 160-190 and 330-352, debug/debug.go 31-100, push.go 498-690 (what is printed), msg.go 167-173 and 483-489 | a line of the log is the list of values printed in it, the content of a message one value; lines that print settings, errors, names and identities are left out |
| Export | tools/zkexport/zkexport.go 29-224, tools/b64cert, tools/tools.go 77-83, what zkserver.go 862-960 and zkclient.go 2117-2140 read | files are given by what reading and decoding them yields; path.Join is a parameter; nobody changes the files while the tool runs |
| SharedProps | zkserver/zkserver.go 161-215 and rpc/rpc.go 223-234, for many connections at the same time | loads and stores of words happen one at a time; the two words of a string are stored and loaded in any order |
| Quota (no model of its own) | on the models Rendezvous and Accounts | see there |
| Transcript | zkclient/zkclient.go: printf, updateTS, log (what is written); zkclient/push.go: the lines of handlePm, handleGroupMessage, handleGroupPart; the echoes in mainwindow.go and groupchat.go | one window whose file can be opened; ttk.Unescape as parameter; the default format of the time; nicks do not change meanwhile |
| Voice | zkclient/zkclient.go 151-152, 785-815, 985-1002, 1330-1550 and 1655-1693 (welcomeUser, the lines printed for answers of the server), zkclient/push.go 400-430 | A line is what `printf` is given: not the time in front, the window, or what ttk makes of it. Lines that contain only what the client itself knows, and those of handlers of messages, are left out. `fmt.Sprintf` is that of Log. |
| Observer | zkclient/msg.go 365-418, 437-519, ratchet/ratchet.go 240-284, zkclient/zkclient.go 1843-1877, groupchat.go 515-528 | The bytes the server reads of messages. secretbox is an exclusive or with a random stream, and an authenticator of the result. The state of the ratchet, tags and times are any. Requests other than messages are left out. |
| Cert | zkserver/cert.go, zkserver/zkserver.go 919-947 | addresses and their text are a parameter; signature, DER and PEM left out |
| Records | tools/zkexport, tools/zkimport, zkclient/zkclient.go 679-724, 1599-1651 | byte level; a file must be base64 as a whole |
| IniDB | inidb/inidb.go | maps, text of the file, system calls of Save |
| Delivery | zkserver/account/account.go 313-511 | all interleavings of Deliver, Delete, Online, Offline and the goroutine |
| Accounts | zkserver/account/account.go 110-361, cache.go, account.go, zkserver.go 673-769 | one step per call, two for Create and Deliver |
| Policy | zkserver/account.go 41-63, pending.go, tools/zkservertoken | all interleavings of requests and of the tool |
| Tokens | tools/zkservertoken/zkservertoken.go 59-104, tools.go 84-95, zkclient/welcome.go 187, 196 | how a token is drawn, printed and timed; the configuration is not read |
| Rendezvous, Base64 | zkserver/rendezvous.go | all interleavings; byte level encoding |
| Sessions | zkserver/zkserver.go 336-420, 672-790 | all interleavings of connections |
| Tags | zkserver/zkserver.go 260-331, 449-588 | all interleavings of reader and notifier |
| Welcome | zkserver/zkserver.go 128-215, settings/settings.go, zkclient/zkclient.go 776-950 | byte level |
| ClientTags | zkclient/zkclient.go 1186-1598, 1694-1840 | all interleavings |
| Scheduler | zkclient/msg.go 50-251 | all interleavings |
| Chunks, Path (also Props/Room) | zkclient/send.go, chunk.go | messages one after the other; tree of files |
| Groups, GroupFiles | zkclient/groupchat.go, groupinvites.go, push.go 721-1296, zkclient.go 1891-1981 | messages, commands and acknowledgements in any order; files |
| Store | zkclient/identity.go 131-218, reset.go | single system calls; killed process and loss of power |
| AddressBook | zkclient/addressbook/addressbook.go | all functions |
| Completion | zkclient/completion.go | all functions |
| Sizes | session/kx.go:395-429 (lengths only); zkserver/zkserver.go:101-120, 217-335, 535-545; zkserver/account/account.go:404-497 (one account); zkclient/msg.go:45-195, 365-418, 437-519; zkclient/zkclient.go:929-931 | tags, other commands; frames of the queue are given |
| Strangers | zkserver/zkserver.go 423-432, 592-716, 718-816, 818-857 (how long connections last) | what is said on them; the queue of the kernel has no limit |
| Memory | zkclient/push.go 406-430, 457-700; zkclient/zkclient.go 1381-1430; zkserver/zkserver.go 95-98; davecgh/go-xdr (what Unmarshal allocates) | copies; the memory of zlib; what handlers do; whether memory that is not used counts |
| Guess | zkserver/rendezvous.go 57-117; zkserver/zkserver.go 491-502; zkclient/kxwindow.go 114-128; zkclient/kxacceptwindow.go 112-131 (who tries PINs and passwords; on the models of C41, C22 and C123) | time; what the log of the server tells; that scrypt is slow |
| Replies | zkserver/zkserver.go 101-114, 216-257, 403-590; zkserver/rendezvous.go 57-214; zkserver/cache.go 18-121; zkserver/account.go 82-101; rpc/rpc.go 53-66 (the answers of a session, byte for byte; on Xdr, Sizes and Rendezvous) | acknowledgements; notifications (Sizes); requests that are read and not answered any more |
| ImportAll | tools/zkimport/zkimport.go 29-59, 215-292 (several files; on Records) | `-cfg`, `-v`; the texts that are printed |
| Twice | zkserver/zkserver.go 354-388, 694-707; zkclient/zkclient.go 1008-1037, 1190-1214; groupchat.go 64-84, 225-376; msg.go 437-519 (two clients of one user) | `/offline`, `/online`; a client that ends because the server closed right after the welcome (C93); receiving with a ratchet that both use |
| Power | inidb/inidb.go 96-176; zkserver/account/account.go 310-379; zkclient/groupchat.go 64-84 (loss of power) | directories that are made; a file cut within a character; disks that lose what was synced |
| Presence | zkserver/zkserver.go 257-588, 653-704, 748-795; cache.go; account.go; account/account.go 123-403; rendezvous.go (all requests of all users, as seen by some of them) | requests of several users at the same time; how long answers take; the limit on announced messages; the words of the welcome |
| Journal | zkserver/zkserver.go 391-418, 459, 538, 592-716, 957-971 (logging); cache.go 34-117; account.go 20-67; pending.go 16-77; rendezvous.go 58, 125 (what is logged of users) | entries about the server itself and about replies that cannot be sent; the entries of sessionWriter and sessionNtfn; what Deliver and Create answer is given |
| Answers | zkclient/push.go 160-447, 500-916; reset.go 16-75; zkclient.go 1053-1115, 1394-1430, 1480-1512, 1768-1840; acceptclientfingerprint.go 160-205; addressbook.go 23-56 (to whom something is sent) | the confirmations and questions to the server; private messages and files that the user sends; that the client may be offline |
| Told | zkclient/groupinvites.go 126-201; push.go 721-762; groupchat.go 123-170 (names in an invitation and what is shown of them; the rest is Groups) | fingerprints are the identities; lookups for unknown names are in Lookup |
| Loot | session/kx.go 45-102, 245-397 | the exchanges of KXNet with a thief who gets ephemeral private keys as well; session keys in memory are not stolen |
| Lists | zkclient/zkclient.go 499-570, zkclient/groupinvites.go 60-122, zkclient/addressbook.go 98-105 | the lines of /list as text; maps in some order; how times are printed and the list of groups are left out |
| Maps | zkclient/groupchat.go 47-510, zkclient/push.go 764-1260, zkclient/zkclient.go 345-351, 527-570, 1127-1136, 1492-1494, 1735-1761, 1883-1977, zkclient/addressbook/addressbook.go 44-140, zkserver/zkserver.go 364-416, 763-769, zkserver/account/account.go 340-456, debug/debug.go 70-91 | only locks and the uses of shared maps; what is done with them is in the other modules |
| Slices | zkclient/push.go 764-891, zkclient/groupchat.go 105-110, 203-206, 252-374, 426, 466-472, 515-528, zkclient/zkclient.go 1892-1939, zkclient/msg.go 207-237 | lists of members as Go slices (array, length, capacity) and queued messages with pointers into them; generations and texts are numbers; invitations and files are part of the events |
| (Document) | doc/session.txt | the lines of the document as messages, in Props/Document; the programs are those of KX |
| Handles | debug/debug.go 70-107, inidb/inidb.go 96-145, zkclient/zkclient.go 228-239, zkclient/identity.go 131-172, zkclient/mainwindow.go 300-351, zkclient/send.go 44-158, zkclient/chunk.go 32-192, zkserver/account/account.go 448-498, tools/zkimport/zkimport.go 29-59 | only opening and closing of files; ioutil functions close what they open |
| FullDisk | inidb/inidb.go 96-177, zkclient/identity.go 31-49, 131-172, 192-218, zkclient/groupchat.go 64-84, zkserver/account/account.go 312-362, debug/debug.go 70-91, zkclient/zkclient.go 228-239, zkclient/mainwindow.go 330-351 | only what becomes of files when writes come to less; no crashes; errors of Sync and Close left out |
| Leftovers | zkclient/identity.go 58-70, 131-172, zkclient/push.go 113-126, zkclient/reset.go 52-72, zkclient/zkclient.go 1804-1824, zkclient/addressbook.go 22-55 | which states of ratchets are in the directory of a contact; states are numbers |
| Deleted | inidb/inidb.go 96-177, zkserver/pending.go 16-79, zkclient/groupinvites.go 126-242 and 282-363, tools/zkservertoken/zkservertoken.go 59-96 | which entries are in the files of a table; entries are numbers, saves succeed |

Not modelled:

* The rest of the user interface: keys other than enter, up and down, net.go, and the drawing of all windows.
* TLS (outer encryption), the encoding and signature of certificates, and the dialling of connections.
* The flags -export and -version of client and server.
* Timing: time-outs are events that can happen at any time, except in the model of the heartbeat (C110).
* Exhaustion of memory (except in Memory, C137) and of the disk, except where a failing call is an event of the model.
* Computational aspects of cryptography and side channels.

## Disagreements

Where the code does not do what the property says. Every item has a theorem `Cnn_..._violated` (or an exact
characterisation) with a concrete execution of the model.

* **C06** Write advances the nonce before it checks the size; after a refused message the peer can not open any frame.
* **C09, C12** A message with empty plaintext that was overtaken is reported as corrupt when it arrives, and its key is gone.
* **C13** A counter of 2^32-1 in a header makes the expected counter wrap to 0.
* **C18** The ratchet is stored after the message was written: a crash in between loses a message, and at the start of a chain ends the conversation.
* **C19** Name and nick are hashed without a separator: a verified identity can have its name and nick cut at another place.
* **C21** Unpacking a blob shorter than its header panics.
* **C24** A stored file that ends exactly between two items is taken as complete.
* **C28** A default table that is not written first moves into the table before it; NewTable alone is not saved; names and values with special characters are not escaped.
* **C29** Between the two renames of Save there is no file.
* **C30** Files of others with the prefix of a backup are removed.
* **C31** Two messages in the same nanosecond: one overwrites the other.
* **C32** A message whose file was written in part is announced with what there is.
* **C33** A message delivered between Online and the first signal of the goroutine blocks the goroutine for ever.
* **C34** A message acknowledged while the goroutine walks an older listing leads to an error, which ends the session.
* **C35** Creating a disabled account again gives both, and neither Enable nor Disable works afterwards.
* **C36** Only listed accounts are compared: two accounts made before the first login share a nick.
* **C37** The deferred deletion removes the entry of a newer session; a failing directory entry leaves the account online for ever; a reader waiting for a dead writer never leaves.
* **C38** Tag 32 is an index out of range; an acknowledgement of a tag that is not outstanding makes the session stop announcing.
* **C39** A short write is reported as an error but leaves a file that will be announced.
* **C40** Requests at the same time use one token several times; a failed save does not delete it.
* **C41** The expiration is never looked at; rendezvous at the same time get the same PIN or lose a blob; the PIN is sent before the blob is saved.
* **C42** Hexadecimal of a wrong length: the error that is dereferenced is nil.
* **C43** An identity added under two nicks is deleted under one.
* **C44** A message is sent twice if the ratchet could not be stored, dropped without a ratchet, and waits for the next one after a failure.
* **C45** The announced file name is not checked: it may leave the directory, make the loop endless, or take the place of another transfer. An empty file is never sent.
* **C46** The announcement of the next file overtakes the chunks of the one before and replaces its description.
* **C48** A generation that does not grow is only warned about; an update may name another administrator; an empty list followed by a kill, or a mention whose upper case form has another length, panics.
* **C49** The expiration of an invitation is never looked at; an invitation outlives the group. `delJoin` refuses to delete an invitation when the file has another one to a group of the same name: it stays, and since `joinDBAdd` refuses a second invitation of the same contact to that name, later invitations of that contact are dropped (`C49_used_violated`).
* **C50** A kick installs the list as it was when the kick was sent.
* **C51** An identity that is twice in the list gets the message twice.
* **C52** The letters x and X are missing; the name `.` is accepted and denotes the directory, which is then removed.
* **C53** A negative tag depth other than -1 panics.
* **C54** After the last candidate the prefix is forgotten.
* **C55** Short packets panic; a compressed message that does not start as zlib panics; the identity in a first message is neither verified nor compared with the sender.
* **C56** An acknowledgement whose tag equals the depth panics; a reply with another tag spoils the pool; a ping on an empty pool uses tag 0; requests queued before a reconnection keep their tags.
* **C58** An identity in upper case is disabled but its session stays; so does that of a client that is just logging in.
* **C59** A crash in Create leaves a directory that makes the name unusable.
* **C61** A crash while a group is saved leaves an empty file.
* **C62** The configured size of chunks may exceed the size of messages, then every client refuses the server.
* **C63** The directory is never synced: an older ratchet may come back. A failing Sync is ignored.
* **C64** A reset rewrites the identity in place.
* **C65** The server's keys with an impostor become known when the client's private key leaks later.
* **C66** Respond completes for whoever knows the public key of a client: nothing sent by the client depends on its private key. Only the first encrypted message after the exchange does.
* **C67** handleSession goes online and displaces an existing session before reading any such message: whoever knows the public key of a user (the directory gives it out) can end their session at any time.
* **C68** CompleteKeyExchange keeps MyHalf and TheirHalf, Marshal writes them to disk, and nothing ever clears them. SHA-256 of the two is the shared key: whoever gets the file of a contact can compute every message key of the first chain, and, while the sender still holds the private value of the second chain, those of the second as well.
* **C71** step1IDKX sends the offer before it looks whether the identity exists, and handlePush gives everything to step3IDKX while a half ratchet is there. Two users who look each other up at the same time both have a half ratchet, and each takes the offer of the other for an answer and drops it. Looking up again sends another offer of which nothing was saved; reset and deletion want an entry in the address book. There is no way out short of removing files.
* **C71** Two contacts who reset at the same time end the same way, with an entry in the address book: looking up is refused ("nick already known"), reset fails for want of a ratchet, and deletion never happens because its callback hangs on a message that cacheCRPC cannot encrypt.
* **C71** Deletion leaves the ratchet of the other side in place. If the one who deleted looks the other up again, the offer is handed to the ratchet of the other, fails to decrypt and is dropped, until the other resets.
* **C71** reset removes the half ratchet before it looks whether there is a full one, also while an answer is on its way; the answer is then dropped, and the other side encrypts for nobody.
* **C72** Messages that arrive after a reset was sent, encrypted for the ratchet just removed, are acknowledged to the server and dropped.
* **C73** action turns the active window into "/m nick text", and everything after that goes by nick. A second contact with the same nick never gets what is typed in their window; the first one does. A nick with a space is cut at it. A contact called "console" is taken for window 0, so that text goes to the user's own identity; a contact with the name of an open group window gives a message to the identity of all zeros. Nothing but spaces sends the nick itself.
* **C74** groupConversation compares id.Nick and does not look at the group flag: messages of a group appear in the private window of a contact with that nick. What is typed there as an answer goes to the contact. (The loops that echo group commands in push.go and groupchat.go do the same.)
* **C74** PrintfT is given the index of a window, and the closure runs later. After /wc the index is that of another window.
* **C75** /wc of the last window leaves active out of range until focus(0) is taken from the queue. calculateStatus, called by anything printed in between, and action index with it.
* **C76** restoreConversations knows only nicks.
* **C77** addressBookAdd appends "_" to a nick that is taken, in the order of arrival; loadIdentities does so in the order of the directory, by identity.
* **C78** The nick is part of a path without a check: with "../" in it a log is written anywhere the client may write, in a file whose name ends in the server, the identity and ".log".
* **C79** handleGroupMessage looks for the nick in strings.ToUpper(message) and cuts the message at that index. Each invalid byte takes three bytes in upper case; a message with a few of them and then the nick is a slice out of range. Any member of a group can crash every other client this way.
* **C80** The accept window and zkimport show pid.Fingerprint(), which is the field Identity in hexadecimal. The other end chose it; nothing compares it with the SHA-256 of the key, and no signature is verified. Whoever is on the wire can show the fingerprint of the true server with a key of their own.
* **C80** finalizeAccountCreation sets serverIdentity before there is a session. When the session fails and the user tries again, even with another address, the client believes that it knows the server, asks nothing, and sends request and token to whoever answers. The same happens with an imported server: its certificate is not compared and is replaced by the one presented.
* **C81** The identity is saved after the account was made, the session set up and the welcome received. If anything fails before, the account exists, its token is used up, and its private key is gone with the process. Trying again in the same process sends the same identity, which the server refuses because it has an account.
* **C81**, **C82** zkimport -f replaces server, serveridentity and servercert but leaves myidentity. The client takes it for an account at the new server and never offers to make one.
* **C82** importClientRecord calls os.Stat on the directory of the user "to see if user already exists" and returns its error, so that a new client is always refused. One that exists is refused by account.Create unless forced. Without -f no client can be imported at all.
* **C84** saveKey, step2IDKX and step3IDKX open blobkeys.ini from two goroutines without a lock. Of two keys saved at once one is lost. Who opens the file between the two renames of a save finds none and puts an empty one in the place of the new one.
* **C84** pruneKey logs an error of Save and does not return it; saveKey then returns nil. The code that removes expired keys is commented out.
* **C85** When both users say yes to each other's PIN, each takes the offer for an answer (the half ratchet exists) and drops it. The identity exists but is not in the address book, so that there is no way to repair it other than removing files.
* **C85** handlePush chooses by the directory flag of the server, not by the kind of offer. With a directory the offer that follows a PIN goes to step2IDKX2, which cannot open it.
* **C85** handleResetRatchet always offers by step1IDKX, the directory kind, which step2IDKX of a client without a directory cannot open. Both are left without a ratchet.
* **C86** step2IDKX and step2IDKX2 do not compare the sender of the message with the identity in it, nor the identity with the hash of the key, and verify no signature. Whoever has a PIN (with a directory: anybody) can pose as anybody the client has no ratchet with. After a reset that includes the contacts.
* **C86** IdentityFindReply is acted upon whatever was asked, also if the server said that it has no directory, and the user is not shown a fingerprint (`C86_found_violated`, `C86_server_violated`).
* **C86** When a key was replaced the address book keeps the old one until the next start.
* kxacceptwindow.go has a branch for identities that are known already, which is never reached, as the window refuses them before.
* **C87** step2IDKX saves the ratchet before it sends the answer. Killed in between, the client drops the offer when it is delivered again (there is a ratchet, so it is taken for a message), and the other never gets an answer.
* **C87** The window that accepts a fingerprint sends the offer before it saves identity, key and half ratchet. An answer that comes before is dropped and acknowledged; a client killed in between cannot complete the exchange, and a second attempt ends with ratchets that do not fit. Killed with the offer still in the queue, the half ratchet forbids another attempt.
* **C88** `maxmsgsize`, set and documented in zkserver.conf, is never read: any value is taken without a word, and messages stay limited to 263168 bytes. The demand that it be larger than `maxchunksize` is not checked either.
* **C88** Load replaces the first `~` wherever it stands, in paths like /srv/zk~1 and in the address to listen on.
* **C88** Setting just `root` does not move the users, the log and the message of the day of the server; **C89** nor the log of the client.
* **C88** `createpolicy = Yes` is refused while `directory = Yes` is taken.
* **C89** A faulty or unreadable configuration file under the default name is taken without a word up to the fault.
* **C89** The attribute `none`, documented in the shipped file, is refused, and there is no way to ask for a colour without attributes. `reverse` is taken but not documented.
* **C90** `_main` takes any error of reading the identity, or of loading the certificate, for "there is none yet", and overwrites the file with a new one. A server started with too many files open, or by a user who may write but not read them, has another identity for good.
* **C90** The identity is written in place. Killed while writing it the first time, the server never starts again.
* **C90** `_main` removes the control socket before it tries to listen on the port. A second server started by mistake ends, but has taken the socket from the first.
* **C91** `goOnlineRetry` looks at `z.offline` before it waits for its timer and not after. The goroutine that brought the client back online waits for thirty more seconds; `/offline` typed in that time is undone when its timer comes.
* **C91** `/offline` typed while the client is not online, for instance while it waits to reconnect, does nothing, not even note the wish.
* **C92** `goOnlineRetry` is started only by the end of a connection. If the server is not there when the client starts, or when the user types `/online`, the client does not try again.
* **C92** If the client is online when the timer comes, `goOnlineRetry` waits again without restarting the timer: it waits for ever. There is one such goroutine for each reconnection.
* **C93** `writeMessage` and `welcomeUser` use `z.kx` without the lock. If the connection ends after they have seen the client online, `z.kx` is nil and the client crashes. A server can bring this about by closing the connection right after its welcome.
* **C94** `provisionalCert` is shared by all goroutines that try to connect, and printed after the lock is released. `/acceptnewcert` accepts what is there, not what was printed.
* **C95** `cacheCRPC` holds `ratchetMtx` while it writes to the network, and the reader of the client needs `ratchetMtx` for each message. If the server's buffers are full of messages for the client at that time, the server's reader waits for room in `sc.writer`, so the client's write does not end, so the client does not read. With 32 tags this needs a connection that holds no more than 28 messages, thus large ones. The server's read deadline does not run then; what ends this is the time-out of the client's ping.
* **C96** `goOnline` (zkclient.go:954) takes the lock of the client and holds it during the dial, the key exchange and the welcome; only the dial has a deadline. A server (or whoever holds the connection) that accepts the connection and then sends nothing makes the client keep the lock for ever: `printf` needs it for every line, and every key that is looked at needs it for reading. The screen is frozen (`C96_silent_violated`). Nothing else can freeze it (`C96_exact`).
* **C96** `listConversations` and others queue lines for the screen while they hold the lock that the screen needs to print. If the queue of ttk has a bound, a client with more windows than that stops for good (`C96_queue_violated`, for every bound). The source of ttk is not in the repository, so this is conditional.
* **C98** `/send nick file description` drops the description if it is the name of the file (mainwindow.go:455 tests for equality to find out whether there was one). `/gc update` is in the help but always answers that it is disabled. The usage of `/gc` names `<message>`, the client only accepts `m`.
* **C99** `appendHistory` writes line and newline at once, but a short write (full disk, crash) leaves a line without newline, and the next command is appended to it: both are lost after a restart.
* **C100** `close(sc.quit)` does not wake a goroutine that waits in `tagStack.Pop`. A client with 33 or more messages waiting that loses its connection before its first acknowledgement leaves `sessionNtfn` behind, with the messages it holds, for as long as the server runs; each such login adds one (`C100_tag_violated`). A reader waiting for room in `sc.writer` when the writer fails never ends (`C100_reader_violated`, see C37 for what follows), and `dn.work <- struct{}{}` waits for ever if a delivery came first (`C100_work_violated`, see C33).
* **C101** Entries are written with `%v` and line breaks are kept. `preSession` logs a first word it does not know (zkserver.go:713), so anybody who can connect, without account or key exchange, can add any number of lines of their choice to the log of the server, indistinguishable from its own (`C101_forged_violated`, for every line). They cannot change lines that are there (`C101_kept`).
* **C101** `log` puts time, name and text together and uses the result as format. `Log` passes a text that was formatted already, and zkclient.go:1419 passes the text of an error, which can have parts chosen by a contact: a `%` in it garbles the entry, and one at its end swallows the line break (`C101_percent_violated`). A `%` in the configured TimeFormat takes the arguments of the text (`C101_time_violated`).
* **C101** The calls at zkserver.go:324 and pending.go:61 have one argument more than their formats ask for. `Fprintf` reports it after the line break that `log` has appended, so the report is in front of the next entry (`C101_extra_violated`).
* **C103** `handleGroupInvite` gives the name in an invitation to `joinDBAdd` as it came, and inidb writes it as header of a table. A contact who invites to a group whose name has a line break can write any lines into joins.ini: an invitation of anybody else, to any group and with any token, which `/gc join` then finds and answers (`C103_forged_violated`), or a line that is no INI (`C103_broken_violated`), after which joins.ini can no longer be opened: every later invitation is refused and none is found, until the file is repaired by hand.
* **C103** `delJoin` refuses if more than one contact invited to groups of one name. `/gc join` has then joined already, so the user is told of a failure and both invitations stay.
* **C104** `/wc` removes the active window at once and queues the change to the console. A line that was queued before is printed in between: to the window that moved up, which is then the active one by number, so that it is not marked (`C104_listed_violated`). If the closed window was the last one the client crashes (`C104_safe_violated`; also C75).
* **C104** `handleGroupMessage` marks a window as one where the user is mentioned when the message arrives, but the line is printed, and the window marked as dirty, later. If the user changes away from the window in between, the status line names it in the ordinary colour (`C104_mention_violated`).
* **C104** `printf` draws no separator in an empty window and does not remember this. The second line in a window that was never looked at gets one, although the first is unseen as well (`C104_separator_violated`).
* **C104** The length of the separator is 80 less the length of the time stamp if the window is too narrow; a configured time format with more than 79 bytes makes it negative and `strings.Repeat` panics. `prevConversation` walks down from the active window without checking that it still exists (`C104_safe_violated`).
* **C105** `handleGroupList` and `handleGroupUpdate` print the difference to the known list before `updateGroupList` looks at who sent it. Anybody who can write to the user can have it said that a member of a group left or that somebody joined (`C105_forged_violated`). `diffGroupListPrint` also calls `z.query` for the group, so the same message changes the window the user is typing in.
* **C105** `handleGroupKick` prints that the named member was kicked whether or not the list that comes with it lacks them, and does not print any other difference (`C105_kick_violated`).
* **C105** The callback of `gcKick` installs the list made when the command was typed. Who joined in between is out again, without notice, while the other members keep them (`C105_late_violated`); who was never in the group "was kicked" (`C105_stranger_violated`); in a group without other members the callback is never called, and the user learns nothing (`C105_alone_violated`). If no window belongs to the group, the notice is repeated in the last window, which may be anybody's (`C105_echo_violated`).
* **C105** `handleGroupPart` changes and saves the list, and only then looks up the nick: if the member is not in the address book, nothing is said (`C105_silent_violated`). The copy in the window of the group names nobody at all: the variable `nick` is never set (outside of the model).
* **C106** `handleDisabledUser` returns from its loop at the first private window with the nick, so that windows of groups that were opened later are not told until the next message fails (`C106_first_violated`). `seenCacheError` is one counter per window: a group is told of one disabled member and never of another (`C106_second_violated`), and nothing resets it when the account is enabled again (`C106_enabled_violated`).
* **C106** Private windows are found by comparing the nick of the window, which is that of the stored identity, with the nick of the address book, which may have been changed to be unique: the notice goes to the window of a namesake (`C106_namesake_violated`). The administrator of a group is asked to kick accounts that are not in it, at every failure (`C106_where_violated`). The branch marked "should be impossible" is reached by leaving a group while its window is open, and is not limited to one notice (`C106_gone_violated`). `g.Members[0]` of a group whose administrator sent a list without members ends the client (`C106_crash_violated`).
* **C107** Server and zkservertoken read, change and rename the same file without a lock between them (the mutex is one of the server): a request that read the file before the tool saved writes it back without the new token if it had anything to remove (`C107_lost_violated`). `time.Duration(*hours) * time.Hour` overflows above 2562047 hours, and the negative time that results is printed as a number without sign, which `ParseInt` refuses (`C107_hours_violated`). `validToken` removes the token before `Create` looks whether the nick is taken (`C107_spent_violated`).
* **C108** `zkserverctl userdisable 00`, or with an empty text, ends the server with all its sessions: see C42 (`C108_crash_violated`). So does a program on the socket that leaves the identity out (`C108_missing_violated`). zkserverdump shows disabled accounts under the name of their directory, which begins with a dot; `userenable` refuses that (`C108_shown_violated`). zkserverdump returns at the first directory without a readable identity, such as `Create` leaves if the server dies within it, and shows none of the accounts after it (`C108_hidden_violated`). Nicks are whatever the client sent and are printed as they are: a line break in a nick shows accounts that do not exist (`C108_forged_violated`).
* **C109** `cacheCRPC` drops a message to a contact without a ratchet together with its callback, and says that the message cannot be delivered; the deletion was the callback. Contacts get there by an offer that is not answered (a restart puts them into the address book) or by a reset, and cannot be deleted by any sequence of commands (`C109_ratchet_violated`). Callbacks live in `tagCallback`, which every new connection replaces: the deletion is forgotten, though the contact was told that it took place (`C109_lost_violated`); `/quit` looks at the queues only (`C109_quit_violated`), and a client that ends otherwise loses every deletion under way (`C109_killed_violated`). The book is changed before the disk, from which it is read at the next start (`C109_crash_violated`). `Add` gives an identity that was renamed to be unique a second entry once the other is gone, and `Del` removes either (`C109_twice_violated`). `RemoveAll` is not under `ratchetMtx`, so that a key exchange that arrives at that time leaves a contact without files (`C109_between_violated`). Blob keys are never removed and `step2IDKX` takes any of them, so that a deleted contact introduces itself again when it likes; with a directory anybody can (`C109_back_violated`). The callback is called also if the server refused the news, so that the contact may not be told.
* **C110** `writeMessage` sets `lastTick` after each write, whether or not a ping is in progress. Data that goes into the buffer of a connection whose other end is gone counts as written: a client that writes at least one message in 5 seconds neither sends pings nor notices a missing pong until its tags are spent (`C110_busy_violated`; 32 tags are 160 seconds, in which the user is told nothing). The ping goes through the same queue as everything else: behind a message whose writing takes longer than 12 seconds (24 if a pong is still to come) it is late, and the client closes the connection in the midst of the message, which stays at the head of its queue and meets the same end in the next session. A chunk of 1 MiB does not get through at 43 kilobytes per second, and nothing behind it does (`C110_slow_violated`, `C110_alive_violated`). The server's deadline is for a whole message and would do the same after 15 seconds. `pingInProgress` is reset when a session ends and the queue is not: an old ping is written in the next session and its pong is taken for that of the new one (`C110_stale_violated`). The branch of the heartbeat that gives up when there is no tag twice in a row (zkclient.go:1257-1265) cannot be reached, as `retry` is set to 2 after each attempt, failed or not.
* **C111** `pendingIdentities` is only cleared by an answer. A lookup that was written on a connection that is then lost is never answered, and neither `/find` ("lookup already in progress") nor `/m` asks again until the client is started anew; the time that the map keeps for each name is never read (`C111_lost_violated` for all runs, `C111_stuck_violated`). `addressBookConversation` turns every error of `find` into "nick not found in directory", also that a lookup is in progress, that the client is offline, and that there is no tag (`C111_told_violated`). `handleGroupInvite` calls `find` for each member of the group that is not known; the answers begin key exchanges that the user was not asked about (`C111_typed_violated`). The answer's identity is neither compared with the name that was asked for nor with any question at all, and an answer with an empty name is acted on too (`C111_named_violated`).
* **C112** `Push` is called at every login and neither it nor `Create` takes the lock that `Find` holds. `Save` renames user.ini to a backup before it renames the new file: in between, `inidb.New` in anybody's `Find` fails and ends the whole lookup ("nick not found", `C112_lookup_violated`); so does an account that is disabled after the list was read. `Create` takes any error of `Find` for "not in use": who registers a nick while somebody whose directory sorts before that of its owner logs in (it may be the same person, logging in again and again) gets it, and if the new identity sorts first, lookups give the new identity (`C112_taken_violated`). Two registrations of a nick at the same time both succeed (`C112_both_violated`). If the account is disabled between the two renames, `Save` fails and the disabled account has no user.ini; a crash there does the same; and a client that logs in while its own registration is between the empty and the complete user.ini leaves itself listed without an identity (`C112_spoiled_violated`). Each of these makes `Find` fail for every account that sorts after it, and with that `Create` accept every such nick; directories of disabled accounts sort before all others (`C112_for_ever_violated`, `C112_all_violated`). Nothing repairs this.
* **C113** `inidb` says that there must be one context for a directory, and its lock is in the context; the server makes a new context for each request and takes no lock. Between the two renames of `Save` there is no file. A request that opens it then (a pull is enough, and anybody who is connected can send those all the time) believes that the file has yet to be made and renames an empty one to it; if that comes after the second rename of the first request, all PINs are gone (`C113_wiped_violated`), or all tokens, and a good token is refused (`C113_tokens_violated`). A rendezvous in that moment keeps an empty copy, whose `created` stays set, and so replaces everything by its own PIN without a backup (`C113_replaced_violated`). A server that dies there has no file, and the next request makes an empty one (`C113_crash_violated`); the records are in the backup, which nothing reads. Two requests at a time lose one record (`C113_lost_violated`), or one's `Save` fails, which is logged after the client was told its PIN (`C113_never_violated`); a token is taken twice (`C113_twice_violated`).
* **C114** `gcKick` makes the list without the one who is kicked, sends it, and puts it in place of its own when the last message is acknowledged, whatever its own list is by then. Somebody who is let in meanwhile is on everybody's list but that of the administrator, with the one who was kicked (`C114_joined_violated`); somebody who left is on it again (`C114_left_violated`); of two who are kicked at once the first stays on all lists (`C114_kicks_violated`). Nothing repairs this later but another change (`/gc update` does nothing, groupchat.go:542-647), and no client notices: generations that go back are only warned about. Until the acknowledgements are all there the administrator writes to the one who was kicked (`C114_unacknowledged_violated`). A list that is lost is not sent again (`C114_lost_violated`). A request that is refused is not answered, and who asked keeps a group with the administrator alone, into which they can write (`C114_refused_violated`). `/gc part <group> force` tells nobody (`C114_force_violated`).
* **C115** `regenerateEphemeral` has a mutex "to ensure noninterference", but `Initiate` reads the arrays of the process, up to three times, without it, and `zeroEphemeral` writes them without it. Of two exchanges at a time the first fails if the second makes its key after the first has sent its own (`C115_fails_violated`); if it does so before, both use the same key (`C115_shared_violated`); and if the first is over before the second sends, the second sends an array of zeros (`C115_zeros_violated`). The client avoids this, since it goes online under its lock; the package does not say that it must. A process that answers and initiates loses its key for the rest of the minute (`C115_both_violated`). `Respond` works on a copy, which it does not erase; since the server sets no deadline before the session, a client that connects and is silent makes it keep the private key of that minute for as long as it likes (`C115_kept_violated`, for any number of rotations).
* **C116** `ratchetMtx` guards each read-change-save of a ratchet, but `reset` and `handleResetRatchet` remove the files without it. A message that is being sent or received at that moment saves the ratchet again (`C116_undone_violated`): the user is told that a reset is under way, but the offer of the contact finds a ratchet, is taken for a message and dropped. On the side that is told of a reset, `step1IDKX` sends its offer first and stores its half ratchet after, and `saveIdentity` refuses if there is a ratchet: the contact completes the exchange, its answer is dropped (`C116_unanswered_violated`), and everything it writes from then on cannot be decrypted (`C116_deaf_violated`) until another reset.
* **C117** The queue of a client outlives its connections, and acknowledgements wait in it with the tag that the server gave the message in the session it came in. If a connection breaks before they are written, the next session gets them first. There the tag belongs to another message, which the server deletes though nobody has received it; if that connection breaks too it is lost for good (`C117_lost_violated`). Even if it is the same message, it is sent again and acknowledged again; the second acknowledgement puts back a tag that is there already, into a channel that is full. The reader of the session waits in `tagStack.Push` from then on: it does not notice that the connection ends, `Offline` is not called, and every later connection is refused with "already online" or "account online without a session", until another message takes a tag or the server is restarted (`C117_lockedout_violated`). The code that closes the old connection was written for such phantom sessions, but does not help against this one. What is on the connection of a sender that breaks is not sent again (`C117_sent_violated`), the queue of a sender that quits is not stored (`C117_quit_violated`), and `handlePush` saves the ratchet before the message is shown or logged, so that a client that is killed in between cannot decrypt it when it comes again (`C117_killed_violated`).
* **C118** `Deliver` and `inidb.Save` print `time.Now()` in the local zone without the zone. When summer time ends the clock shows the same hour twice: of the messages that wait for a user, those stored in the second hour are announced among or before those of the first (`C118_summer_violated`, for all pairs of moments), and so after any step back of the clock (`C118_order_violated`). The client shows them in that order, each with its time of receipt, which is to the second and may look right. Backups made while the clock shows less than at the last saves are removed by the very `Save` that made them, if there are enough of the others (`C118_backups_violated`); the depth is 10, and the token and PIN files are saved by every request.
* **C119** `completeDir` returns the empty text if `homedir.Expand` fails, and `completeDirCommandLine` puts it on the line: Tab after `/send bob ~eve/song` wipes out the path (`C119_erased_violated`). `cctx` is thrown away only by Enter, a slash at the end, or a lone tilde; until then Tab offers the contacts of the first Tab (`C119_stale_violated`). Files are looked up below what was typed, not beside it, so that the first Tab after `/send bob /t/a` does not find `/t/ab` (`C119_begun_violated`); and since the empty list it then has stays in `cctx`, nothing is found later either. Lines are cut at spaces without quoting: completing `/t/a b` makes a line that sends `/t/a` with the description `b` (`C119_other_violated`), and a nick with a space stops the cycle (`C119_stuck_violated`).
* **C120** `send` checks the size once, then the file is read for its digest and once more for its chunks. A file that holds two contents by turns is delivered as a mixture that there never was, and passes the check of the digest (`C120_mixed_violated`). If it becomes shorter after the digest was computed, the user reads `Send completed`, but the receiver waits for the rest forever: the unfinished file stays in the spool and nothing is said (`C120_completed_violated`). If it grows, as a log does, sending goes on past the allowed size, or reading for the digest goes on, without end and without a word (`C120_limit_violated`, `C120_endless_violated`; the same with a device such as /dev/zero, whose size is 0). `make([]byte, z.chunkSize)` with a chunk size of 2^63 or more, which the client accepts from a server, crashes the client (`C120_crash_violated`).
* **C121** `handleGroupInvite` opens and saves joins.ini without the lock that `gcJoin` holds. If an invitation arrives after `delJoin` has read the file, `delJoin` overwrites it: the user was shown the invitation, and `/gc join` answers that it is not there (`C121_lost_violated`). If the user joins after `joinDBAdd` has read the file, the used invitation comes back; a new one of the same person to the same group is refused as a duplicate, and the message that cannot be handled is dropped (`C121_back_violated`). If one arrives between the two renames of `Save` there is no file, `New` makes an empty one over the one just saved, and all other invitations are gone (`C121_wiped_violated`). A crash between the renames leaves no file (`C121_killed_violated`), and a list in this moment is empty (`C121_list_violated`).
* **C122** `gcMessage` sends to the list of the writer and `handleGroupMessage` drops what comes from somebody who is not on the list of the reader; the generation in the message is not looked at. Lists come from the administrator and messages from their writers, on different ways. So what a new member writes at once is not shown to those who get the list later (`C122_new_violated`); one who was kicked goes on reading what those write who have not got the kick (`C122_kicked_violated`), even when the administrator has been told that the kick is through, which only means that the server has stored the messages; what somebody wrote before a kick is shown to some of the members (`C122_left_violated`); and nothing orders the texts of different writers (`C122_order_violated`).
* **C123** There is one window for the password of a fetched blob and one place for the blob, `z.kaw.rendezvousPullReply`; every `RendezvousPullReply` replaces the blob and takes the focus. If the user has fetched two PINs, the second blob may come while the password of the first is typed: the password does not fit, and the owner of the first is not shown, unless the user knows to fetch that PIN once more (`C123_second_violated`). If it comes while a person is shown, that window never has the focus again (`C123_steal_violated`). The answer need not have been asked for, so the server can at any time take the focus from the main window; the rest of what is typed goes to the editor for the password (`C123_unasked_violated`). `Render` sets `ka.password` to nothing but not the editor, which only F10 empties: after one person was accepted the next password is appended to theirs, and is refused (`C123_leftover_violated`; this one relies on how ttk keeps the text of an editor). Enter in the window about a person sends the offer first and then writes: if writing fails, or the person has become a contact meanwhile, an offer is out whose ratchet is not kept, and another Enter sends another one (`C123_order_violated`, `C123_contact_violated`). The branch of `kxacceptwindow.go` 150-160 for a reset ratchet is never taken, as `identityExists` is false then; so the keys are not compared, as C86 has it.
* **C124** `os.Create` in chunk.go makes received files with mode 0666 less the umask, where everything else is made with 0600. They are in a directory with mode 0700, but the name they get in the end is chosen by the sender (C45), and `../x` puts them into the root directory; if the user made that with mode 0755 others may read them (`C124_received_violated`). The socket of the server has mode 0777 less the umask and no `chmod` follows; with a lax umask and a root directory that others may enter, anybody on the machine may disable accounts (`C124_socket_violated`).
* **C125** `queueDepth` puts its question with a `default`, so it fails unless the goroutine that transmits is idle, and `/quit` takes a failure as "just exit" (mainwindow.go 669-670). That goroutine is idle with something in its queues only after a transmission failed. So a user who is offline is told that the queue is not empty, and one who types `/quit` while a file or a row of messages is being sent is not told, and loses the rest (`C125_busy_violated`). What is in the channels `z.hi` and `z.lo`, or in the hands of the first goroutine, is not counted: `/quit` right after a line loses the line (`C125_just_typed_violated`). Control-Q, which no help mentions, ends the client without a question (`C125_key_violated`). After `/quit` the main loop may still take keys before it sees `quitC`; a second `/quit` then closes the channel again, which panics (`C125_twice_violated`).
* **C126** zkclient.conf.go says that savehistory "saves commands but not text to a history file"; `KeyHandler` writes every line (mainwindow.go 175-183), so all text that is typed to contacts and groups is kept in the clear, outside of the logs of conversations (`C126_text_violated`). Commands are no better: `/m`, `/gc m` and `/me` hold text and `/fetch` a PIN (`C126_command_violated`). With debug on every decrypted message that comes and every message that is sent is printed into the log with `spew.Sdump`; only pieces of files and the messages of the janitor are not, when they come (`C126_debug_violated`). So is the key with which the first message of a key exchange is encrypted (zkclient.go 1089), `C126_key_violated`.
* **C127** zkexport takes `-root`, or ~/.zkserver, both for the configuration file and for the files of the server, while the server takes the root directory from the configuration (`root = …`). If that is another one, the tool exports an identity and a certificate that it finds next to the configuration, or nothing; with `-root` set to the right directory it fails because there is no configuration, even if the address is given with `-i` (`C127_root_violated`). The README says that the exported record includes the host address; it includes the value of `listen`, so `:12345` or `0.0.0.0:12345` with a server that listens on all interfaces, and clients connect to themselves (`C127_nowhere_violated`). `FingerprintDER` gives up on a certificate with others in the same file, although the server uses it and clients compare its fingerprint (`C127_chain_violated`). For clients it is the same with the root directory.
* **C128** `welcome` fills in `rpc.SupportedServerProperties` itself: the assignment copies the slice and not the array, and there is no lock. Two logins at the same time write to the same strings. As settings are the same for all, they come out right; but if the file of the message of the day was changed between the two, the pointer of one text can meet the length of the other: the client gets the beginning of a text, or what lies behind it in the memory of the server, or the server crashes (`C128_torn_violated`). The time that is sent may be that of another login that began earlier (`C128_late_violated`); clients use it only to warn about clocks.
* **C129** Nothing ever removes a record of a rendezvous: the pruning is commented out, and a pull leaves the record. After a million requests, which one account can make, no request of anybody gets a PIN any more, whatever the expirations were (`C129_exhausted_violated`); long before, most requests fail after 25 draws, and the whole file, of which up to ten backups are kept, is read and written for each. The blob is limited to 4096 bytes, but the text of the expiration is only parsed, and `strconv.ParseUint` takes any number of leading zeros, so a record can be as long as a message (`C129_zeros_violated`). The messages that wait for an account are not limited in number (`C129_messages_violated`).
* **C130** Texts are written to the log as they come, with their line breaks. Whoever may write to a window can thereby add any lines to its log, for instance remarks of another member or of the user, of any time, which a reader cannot tell from real ones (`C130_forged_violated`, `C130_remark_violated`). The same text goes to `console.Append` of the window.
* **C130** Nicks are not checked by the address book or elsewhere. `* bob x text` is what bob did, or what one did whose nick is "bob x" (`C130_nick_violated`); one with the nick `<bob>` who leaves a group has bob say so, with a reason of their choice (`C130_left_violated`). `addressBookAdd` refuses the identity of the user, but not the nick: a contact with the nick of the user keeps it, and is logged, and but for the colour shown, as the user (`C130_taken_violated`, `C130_own_violated`).
* **C131** `welcomeUser` prints the message of the day line by line with `"%v"` and nothing in front, right after the fingerprints; the errors of `IdentityFindReply` and `ProxyReply` are printed in the same way, at any time, since the client does not check that it has asked. A server can print any line that the client could print, such as another fingerprint or a PIN (`C131_motd_violated`, `C131_error_violated`). `handleRPC` uses the text about a failed push as a format (`z.PrintfT(0, REDBOLD+ms+RESET)`), and the nick of the contact is in it: "50%%" is shown as "50%", who may be another contact (`C131_percent_violated`).
* **C132** `doHandleChunk` compares the length of the unfinished file with the announced size only for equality, after appending. After an announcement of one byte a contact can send chunks without end (`C132_size_violated`). Nothing removes an unfinished file when its sender stops, sends another file, or is removed (`C132_stays_violated`), nor one whose digest is wrong (`C132_corrupt_violated`); there is no limit to the number of announcements either, and the user is not asked.
* **C123** A blob that was fetched takes the focus from the window of `/kx` too; what was typed there stays in its edit and becomes the beginning of the next password (`C123_stale_violated`). The blob of `/kx` is sent before its key is kept; if that fails the PIN can be used, and nothing that comes in answer can be read (`C123_keyless_violated`).
* **C133** `crpc` compresses each payload before it is encrypted, if that makes it shorter. The length that the server sees therefore depends on the text and not only on its length; this is so for any lossless compression that shortens anything (`C133_compression_violated`). `gcMessage` sends the same payload to each member in turn, so the server sees a row of messages of equal length for exactly the members of the group (`C133_group_violated`).
* **C134** zkserver/cert.go:35-48: `validUntil` is compared with the clock before it is cut down to the end of 2049; from 2050 on a later `validUntil` gives a certificate that has expired, without an error (`C134_expired_violated`). zkserver/cert.go:99-107: an address in brackets without a port becomes a DNS name with brackets (`C134_bracket_violated`). The server calls the function with 2049 and without names, so neither is seen in it.
* **C135** `KX.Write` has the same limit in both directions, but the frame of `Push` has a time and is four bytes longer than the frame of `Cache` or `Proxy` that brought the message. Payloads of 263085 to 263088 bytes are thus stored and can never be written to the recipient (`C135_poison_violated`). zkserver/zkserver.go:245-251 closes the connection when a write fails and nothing removes the file, so that from then on every session of the recipient ends there and nothing behind it arrives (`C135_lockout_violated`, `C135_session_violated`). Whoever has an account can do this to anybody whose identity they know. zkclient/zkclient.go:929-931 accepts any chunk size up to the message size, without room for what is around a chunk (`C135_chunk_violated`). zkclient/msg.go:154-180 puts back what could not be written, also if it never can be; it then stops the queue until the client is started again (`C135_queue_violated`, `C135_files_violated`), and nothing limits the members of a group whose list becomes too long (`C135_group_violated`).
* **C136** `preSession` sets no deadline (the only one is in `handleSession`), so that connections that say nothing stay for ever (`C136_stays_violated`). When as many are made as the process may have open, nobody else is let in and no file can be opened (`C136_full_violated`). The loop of `listen` does not wait after an error but tries again at once, with a line in the log each time (`C136_log_violated`). The loop of `listenSocket` returns at the first error, for which it suffices that an administrator connects while there is no room: from then on nobody is answered there (`C136_control_violated`).
* **C137** The client reads everything with `xdr.Unmarshal`, which has no limit and asks for the memory of a text or a slice as soon as it has read its length; the server uses `UnmarshalLimited`. zkclient/push.go:406-430 does this with what is not encrypted, before it looks at who sent it: eight bytes from anybody with an account ask for two gigabytes (`C137_stranger_violated`). As a message is acknowledged after it was handled, a client that is not given that memory ends at each start and gets nothing that came later (`C137_for_good_violated`). Contacts can send 28 bytes for two gigabytes (`C137_contact_violated`) and 52 bytes for 64 (`C137_group_violated`), or end the client with a broken compression (C25), but only once for each message (`C137_once_partial`).
* **C138** PINs have at most six digits, and `handleRendezvousPull` answers any number of questions without delay and without a note for who left the blob; nothing is removed when it is fetched or expires. With a million questions a user gets everything that was ever left with the server (`C138_everything_violated`, `C138_found_violated`). What protects it is the password, which can be tried without the server (`C138_offline_violated`), and which the client lets be empty (`C138_empty_violated`).
* **C139** `handleAccountCreate` does not look at how long the names of an identity are, and `unmarshal` limits each field by itself. `handleIdentityFind` answers with the identity, so that the answer may be longer than what `KX.Write` takes; `sessionWriter` then ends the session of who asked (`C139_ends_violated`). The error for a name that nobody has says it twice, which is too long for names of more than 130848 bytes (`C139_unknown_violated`).
* **C140** tools/zkimport/zkimport.go:255-288 skips what cannot be read and goes on, so that the status is 0 also if nothing was imported (`C140_nothing_violated`). There is room for one server: without `-f` the second record on the command line fails whatever it is (`C140_one_violated`), with `-f` it replaces the first although "Imported" was said of both (`C140_replaced_violated`). A record carries neither its kind nor its length: that of a server cut just after the identity is read as that of a client (`C140_cut_violated`).
* **C141** handleSession (zkserver.go:354-388) closes the session that is there and then refuses the new one too, after the welcome. `goOnlineRetry` (zkclient.go:1008-1037) goes on after it has succeeded, and each lost connection starts another. So two clients of one user knock each other off within half a minute for ever (`C141_short_violated`), and the attempts may double every half minute (`C141_storm_violated`). Nothing keeps a second client from using the same directory: groups are read once and written as a whole, which brings back members that were removed (`C141_undone_violated`), and ratchets are locked only within a process (`C141_reused_violated`).
* **C142** inidb.Save renames a file over the database that was not synced, and says that it is saved: after a loss of power the database may be empty, and `New` opens that without an error (`C142_gone_violated`), so that the server forgets tokens and PINs, or accounts, and the client its server; or a value is cut short (`C142_wrong_violated`). The backup that `Save` leaves has the old contents (`C142_old_partial`), but nothing reads it. `Deliver` does not sync either, though the sender deletes the message when it is told that it was kept (`C142_message_violated`), and `_gcSaveDisk` empties the file of the group first (`C142_inplace_violated`).
* **C143** `handleSession` lists an account in the directory when its user first logs in (zkserver.go:394-400), so that anybody who looks the nick up before and after sees that they came (`C143_first_login_violated`). `Deliver` names files by the nanosecond and refuses a name that is taken, which tells the second of two senders of the first (`C143_instant_violated`). Whoever asks for a PIN that was not told to them sees whether it is in use (`C143_pins_violated`). Otherwise the answers to one user are independent of what others do (`C143_view_partial`, `C143_directory_partial`).
* **C144** handleCache and handleProxy log a delivery as `To -> from` (cache.go:68-71, 112-115), so that everybody seems to write to those who wrote to them (`C144_direction_violated`), while a failed proxy is logged the other way round (106). `delivery failed` does not say whose (53, `C144_sender_violated`). handleProxy goes on after a failure and logs a delivery of "." (`C144_failed_violated`). validToken logs tokens it does not know as they were typed (pending.go:54, `C144_token_violated`).
* **C145** `handlePush` answers the cleartext command to reset with a new offer, to anybody whose identity is on file, without asking; so every contact can see at any time whether the client runs (`C145_reset_violated`). step2IDKX and step2IDKX2 send the answer to the identity that is named in the offer rather than to its sender (`C145_third_violated`; with a directory nobody needs a PIN, `C145_directory_violated`). `step1IDKX` sends its offer before it looks whether the identity is known, and `IdentityFindReply` is not matched with a question (`C145_server_violated`). `addressBookDel` does not remove the blob key, so that a deleted contact can use the PIN once more and is back (`C145_deleted_violated`).
* **C146** gcKick sends the list without somebody to that person as well (`C146_leaver_violated`), and the group is changed only when all have acknowledged it, so that until then the one who was removed is told who joins (`C146_kicked_violated`). inviteDBAdd puts the names of all members into the invitation, before it is known whether it is accepted (`C146_invited_violated`). Leaving with force is not told to the administrator, who goes on sending the list (`C146_force_violated`).
* **C147** handleGroupInvite looks the names of an invitation up in the own address book, where they may belong to somebody else (`C147_namesake_violated`); inviteDBAdd reads names from files about others, so that the name of the administrator is empty and never shown (`C147_inviter_violated`); unknown names are not shown at all (`C147_unknown_violated`).
* **C151** The fields of a line are separated by one blank, and nicks may have blanks, so the line of a contact does not tell where the nick ends (`C151_names_violated`); a member with the nick `eve  (admin)` is seen as administrator (`C151_admin_violated`). listInvitesJoins leaves out invitations of those who are not in the address book (groupinvites.go:108-114), though they can still be used (`C151_stranger_violated`).
* **C154** doc/session.txt gives the second and third proof as `H(I_c || I_ce || I_se, k2)` and `H(I_s || I_c || I_ce || I_se, k3)`; session/kx.go:294 and 305 (374 and 385 on the server) compute `H(p1 || I_c, k2)` and `H(p2 || I_s, k3)` with p1, p2 the proofs before. Client and server agree with each other, but not with the document (`C154_server_violated`, `C154_client_violated`). In the same way doc/ratchet.txt says that keys are made with `k = k1 || k2` of 64 bytes, and ratchet/ratchet.go:205-217 uses the SHA-256 of it; this is not stated as a theorem, since keys are symbolic there.
* **C155** zkclient/send.go:66-69 returns without closing the file if it is larger than the server allows, though the two returns next to it close it; zkclient/chunk.go:113-116 returns without closing the spool if the chunk cannot be written (`C155_send_violated`, `C155_chunk_violated`).
* **C156** INIDB.Save (inidb/inidb.go:109-120) ignores the results of its writes and of Close, renames the original away and puts what was written in its place; with room for the first line only, a table of accounts, invitations or keys becomes one that is empty and can be read, and success is reported (`C156_table_violated`). `created` is never reset, so whoever created a table makes no backups (`C156_created_violated`). _gcSaveDisk writes in place, so a group that cannot be written is lost on the disk, though this is reported (`C156_group_violated`). A remedy is to look at the results of Fprintf and Close before renaming, and to write groups as ratchets are written.
* **C157** If the client dies, or marshalling or renaming fails, between ioutil.TempFile and os.Rename in updateRatchet (zkclient/identity.go:148-169), the temporary file stays in the directory of the contact, with a state that soon is a past one; nothing removes it but the deletion of the contact (`C157_left_violated`). A client that dies between saving the full ratchet and removing the half one (zkclient/push.go:113-126) keeps the half one, of which nobody makes use any more (`C157_half_violated`). A remedy is to remove both when the directory is read at the start.
* **C158** Every Save of a table keeps the table as it was before as one of ten backups, also when an entry is deleted; a token or an invitation that was used is on the disk until ten further saves, for ever if there are none (`C158_backup_violated`).

## Axioms

Result of `#print axioms` for every theorem named in MANIFEST.json.

No axioms (12):
* `Verif.Tab`: `C119_enter`
* `Verif.Cert`: `C134_end`
* `Verif.Power`: `C142_flush`
* `Verif.Blob`: `C21_short_violated`, `C22_opens_exactly`, `C22_modified`
* `Verif.Accounts`: `C36_find_sound`, `C39_short_write_violated`
* `Verif.AddressBook`: `C43_del_violated`
* `Verif.Chunks`: `C45_empty_violated`
* `Verif.GroupFiles`: `C52_letter_violated`
* `Verif.ChatLog`: `C78_groups_violated`

`Quot.sound` (2):
* `Verif.Transcript`: `C130_taken_violated`
* `Verif.Point`: `C17_key_exchange_refuses`

`propext` (149):
* `Verif.TagStack`: `C02_failure_no_effect`
* `Verif.KX`: `C08_no_disagreement`, `C08_client_authenticated`
* `Verif.Ratchet`: `C09_empty_message_violated`, `C12_empty_message_violated`, `C148_exchange`, `C15_first_message`, `C16_damaged`, `C18_lost_violated`
* `Verif.Log`: `C101_level`, `C101_quiet`, `C101_extras`, `C101_time_violated`
* `Verif.Heartbeat`: `C110_alive_violated`, `C110_stale_violated`
* `Verif.Lookup`: `C111_told_partial`, `C111_stuck_violated`, `C111_told_violated`, `C111_typed_violated`, `C111_named_violated`
* `Verif.Ephemeral`: `C115_fails_violated`, `C115_shared_violated`, `C115_zeros_violated`, `C115_both_violated`
* `Verif.RatchetFile`: `C116_undone_violated`, `C116_unanswered_violated`
* `Verif.Upload`: `C120_mixed_violated`, `C120_completed_violated`, `C120_crash_violated`
* `Verif.ClientDB`: `C121_lost_violated`, `C121_back_violated`, `C121_wiped_violated`, `C121_killed_violated`, `C121_list_violated`
* `Verif.Dialogs`: `C123_empty`, `C123_blob`, `C123_leftover_violated`, `C123_unasked_violated`, `C123_order_violated`, `C123_contact_violated`, `C123_stale_violated`, `C123_keyless_violated`, `C123_reject`
* `Verif.Quit`: `C125_force`, `C125_over`, `C125_busy_violated`, `C125_just_typed_violated`, `C125_key_violated`, `C125_twice_violated`
* `Verif.SharedProps`: `C128_torn_violated`, `C128_late_violated`
* `Verif.Chunks`: `C132_corrupt_violated`, `C45_hang_violated`, `C45_squat_violated`, `C46_overtaken_violated`
* `Verif.Cert`: `C134_port`
* `Verif.Sizes`: `C135_queue_violated`, `C135_files_violated`
* `Verif.Strangers`: `C136_served`, `C136_control_violated`
* `Verif.Memory`: `C137_elements`, `C137_same`
* `Verif.Guess`: `C138_blind`, `C138_found_violated`, `C138_empty_violated`
* `Verif.ImportAll`: `C140_identity`
* `Verif.Twice.Shared`: `C141_kept_partial`
* `Verif.Twice.Keys`: `C141_reused_violated`
* `Verif.Told`: `C146_whole`, `C147_namesake_violated`
* `Verif.KXNet`: `C149_key_needed`
* `Verif.Lists`: `C151_admin_partial`
* `Verif.Maps`: `C152_needed`
* `Verif.Document`: `C154_client_accepts_partial`, `C154_server_accepts_partial`, `C154_bound`
* `Verif.FullDisk`: `C156_group_violated`
* `Verif.Leftovers`: `C157_deleted`, `C157_apart`, `C157_reset`
* `Verif.Identity`: `C19_fresh_verifies`, `C19_verified_is_signed_partial`, `C19_tamper`
* `Verif.Blob`: `C22_wrong_nonce_or_modified`, `C22_wrong_key`
* `Verif.Crpc`: `C25_unknown_refused`, `C26_commands_differ`, `C26_others_refused`, `C26_handler_needs_command`, `C26_other_not_sent`
* `Verif.Accounts`: `C35_no_login`, `C35_restored`, `C35_not_both_partial`, `C39_unchanged_partial`, `C39_reason`, `C42_reply_partial`, `C42_violated`, `C58_upper_case_violated`, `absent_run`
* `Verif.Sessions`: `C37_table_violated`, `C37_forced_logout_violated`, `C58_race_violated`
* `Verif.Tags`: `C38_isolation`, `C38_crash_violated`, `C38_wedged_violated`
* `Verif.Policy`: `C40_no`, `C40_yes`
* `Verif.Rendezvous`: `C41_damaged`
* `Verif.AddressBook`: `C43_find_by_string`
* `Verif.Scheduler`: `C44_head_of_line`, `C44_signals`, `C44_duplicate_violated`, `C44_lost_violated`, `C44_stalled_violated`
* `Verif.Welcome`: `C53_crash_violated`
* `Verif.GroupFiles`: `C61_memory`, `C61_crash_violated`, `C61_unwritten_violated`
* `Verif.Store`: `C63_sync_violated`, `C64_reset_violated`
* `Verif.ChatLog`: `C78_appended`
* `Verif.Mention`: `C79_place_violated`
* `Verif.Enrol`: `C80_retry_violated`, `C80_import_violated`, `C81_import`
* `Verif.Records`: `C82_replace_partial`, `C82_import_violated`, `C82_import_works_violated`, `C82_import_never_violated`
* `Verif.BlobKeys`: `C84_saves`
* `Verif.Handshake`: `C87_rest_partial`, `C87_live_partial`, `C87_mismatch_violated`, `C87_lost_violated`
* `Verif.Startup`: `C90_kept_partial`, `C90_control_partial`, `C90_read_violated`, `C90_race_violated`, `C90_cut_violated`
* `Verif.Reconnect`: `C91_unheard`, `C91_waiting_violated`, `C91_ignored_violated`, `C93_held_partial`, `C93_send_violated`, `C93_greet_violated`, `C94_kept`, `C94_shown_partial`, `C94_shown_violated`
* `Verif.Commands`: `C98_asked`

`Quot.sound`, `propext` (431):
* `Verif.TagStack`: `C02_bounded_lifo`, `C02_bounded_fifo`
* `Verif.KX`: `C07_honest_agreement`, `C07_honest_termination`
* `Verif.Ends`: `C100_ends_partial`, `C100_rest`, `C100_exact`, `C100_forever`, `C100_tag_violated`, `C100_reader_violated`, `C100_work_violated`
* `Verif.Log`: `C101_lines_partial`, `C101_exact`, `C101_kept`, `C101_restart`, `C101_escape`, `C101_index`, `C101_width`, `C101_percent_violated`, `C101_extra_violated`
* `Verif.Front`: `C102_policy`
* `Verif.Status`: `C104_days`, `C104_listed_violated`, `C104_mention_violated`, `C104_separator_violated`, `C104_safe_violated`
* `Verif.Reports`: `C105_forged_violated`, `C105_kick_violated`, `C105_stranger_violated`, `C105_late_violated`, `C105_alone_violated`, `C105_silent_violated`, `C105_echo_violated`
* `Verif.Disabled`: `C106_true`, `C106_server`, `C106_named`, `C106_safe_partial`, `C106_first_violated`, `C106_enabled_violated`, `C106_where_violated`, `C106_namesake_violated`, `C106_gone_violated`, `C106_crash_violated`
* `Verif.Tokens`: `C107_lost_violated`, `C107_spent_violated`
* `Verif.Admin`: `C108_listed_partial`
* `Verif.Heartbeat`: `C110_replies`, `C110_busy_violated`
* `Verif.Lookup`: `C111_acted`, `C111_named_partial`, `C111_typed_partial`, `C111_book`
* `Verif.SharedDB`: `C113_read`, `C113_taken`, `C113_kept_partial`, `C113_restart_partial`, `C113_there_partial`, `C113_stored_partial`, `C113_wiped_violated`, `C113_tokens_violated`, `C113_replaced_violated`, `C113_crash_violated`, `C113_lost_violated`, `C113_never_violated`, `C113_twice_violated`
* `Verif.GroupNet`: `C114_joined_violated`, `C114_kicks_violated`, `C114_left_violated`, `C114_lost_violated`, `C114_unacknowledged_violated`, `C114_refused_violated`, `C114_force_violated`
* `Verif.Ephemeral`: `C115_kept_violated`
* `Verif.RatchetFile`: `C116_once_partial`, `C116_newest_partial`, `C116_anew_partial`, `C116_offer_partial`, `C116_sent_partial`, `C116_told_partial`, `C116_deaf_violated`
* `Verif.EndToEnd`: `C117_once`, `C117_lost_violated`, `C117_killed_violated`, `C117_sent_violated`, `C117_quit_violated`, `C117_lockedout_violated`
* `Verif.Clock`: `C118_taken`, `C118_login`
* `Verif.Ratchet`: `C12_reject_no_effect_partial`, `C13_storage_bounded`, `C13_far_message_refused`, `C13_far_next_chain_refused`, `C13_terminates_partial`, `C13_terminates_violated`, `C148_states`, `C15_pairing`, `C16_roundtrip`, `C18_dead_violated`
* `Verif.Upload`: `C120_messages`, `C120_type`, `C120_told`, `C120_order`, `C120_no_crash_partial`, `C120_limit_violated`, `C120_endless_violated`
* `Verif.ClientDB`: `C121_done`, `C121_locked`, `C121_removed`, `C121_nothing`, `C121_invites_partial`, `C121_made_partial`, `C121_once_partial`, `C121_invited_partial`, `C121_joins_partial`, `C121_list_partial`
* `Verif.GroupTalk`: `C122_new_violated`, `C122_kicked_violated`, `C122_left_violated`, `C122_order_violated`
* `Verif.Dialogs`: `C123_offline`, `C123_emptied`, `C123_around`, `C123_finish_partial`, `C123_unconnected`, `C123_stays`, `C123_typed`, `C123_yes`, `C123_range`
* `Verif.Perms`: `C124_client_partial`, `C124_server_partial`, `C124_root`, `C124_received_violated`, `C124_socket_violated`
* `Verif.Quit`: `C125_refused`, `C125_answered_partial`, `C125_always_answered`, `C125_patient_partial`
* `Verif.Residue`: `C126_history`, `C126_runs`, `C126_log_partial`, `C126_off_partial`, `C126_text_violated`, `C126_command_violated`, `C126_debug_violated`, `C126_debug`, `C126_key_violated`
* `Verif.Quota`: `C129_short_partial`, `C129_charged`, `C129_zeros_violated`, `C129_message`, `C129_messages_violated`
* `Verif.Chunks`: `C132_stays_violated`, `C45_name`, `C45_no_replace`, `C45_integrity`, `C45_location_violated`
* `Verif.Observer`: `C133_blind`, `C133_length_partial`, `C133_text_partial`
* `Verif.Sizes`: `C135_longer`, `C135_given_partial`, `C135_all_partial`, `C135_queue_partial`, `C135_offline`, `C135_session_violated`
* `Verif.Strangers`: `C136_idle`, `C136_left`, `C136_room_partial`, `C136_within`, `C136_given_back`, `C136_stays_violated`, `C136_full_violated`, `C136_log_violated`
* `Verif.Memory`: `C137_bound`, `C137_server`, `C137_exact`, `C137_stranger_violated`
* `Verif.Guess`: `C138_closed_partial`, `C138_offline_violated`
* `Verif.Twice.Shared`: `C141_undone_violated`
* `Verif.Twice.Keys`: `C141_fresh_partial`
* `Verif.Power`: `C142_same`, `C142_settled_partial`, `C142_message_violated`, `C142_again_violated`, `C142_inplace_violated`
* `Verif.Presence`: `C143_own`, `C143_view_partial`, `C143_directory_partial`, `C143_pins_violated`
* `Verif.Journal`: `C144_tokens`, `C144_accepted`
* `Verif.Answers`: `C145_stranger`, `C145_reset_violated`, `C145_third_violated`, `C145_directory_violated`, `C145_server_violated`, `C145_deleted_violated`
* `Verif.Told`: `C146_invitation`, `C146_leaver_violated`, `C146_kicked_violated`, `C146_invited_violated`, `C146_force_violated`, `C147_true_partial`, `C147_all_partial`, `C147_inviter_violated`, `C147_unknown_violated`
* `Verif.KXNet`: `C149_client`, `C149_same`, `C65_client`, `C65_server_partial`, `C65_server_confirmed_partial`, `C65_server_violated`, `C66_client`, `C66_client_reads`, `C66_unique`, `C66_server_partial`, `C66_server_violated`
* `Verif.Loot`: `C150_forge`, `C150_thief`
* `Verif.Lists`: `C151_contacts`, `C151_names_partial`
* `Verif.Maps`: `C152_maps`
* `Verif.Document`: `C154_client_partial`, `C154_server_partial`, `C154_server_violated`, `C154_client_violated`
* `Verif.Handles`: `C155_send_violated`, `C155_chunk_violated`
* `Verif.FullDisk`: `C156_apart`, `C156_reported_partial`, `C156_ratchet`, `C156_log`, `C156_again`, `C156_created_violated`
* `Verif.Leftovers`: `C157_past_partial`, `C157_bounded`, `C157_left_violated`, `C157_half_violated`
* `Verif.Deleted`: `C158_table`, `C158_rotated_partial`, `C158_kept`, `C158_apart`, `C158_backup_violated`
* `Verif.Point`: `C17_accepts_exactly`
* `Verif.Hex`: `C20_roundtrip`, `C20_injective`, `C20_accepts_exactly`, `C20_accepted_is_identity`
* `Verif.Blob`: `C21_roundtrip`, `C21_unpack_exact`, `C21_no_crash_partial`, `C22_roundtrip`, `C22_too_short`
* `Verif.Xdr`: `C23_group_list`, `C23_size`
* `Verif.Crpc`: `C25_transparent`
* `Verif.IniDB`: `C27_get_returns_last_value`, `C27_missing_table_fails`, `C27_listings_exact`, `C28_ineffective_partial`
* `Verif.Delivery`: `C31_kept`, `C31_same_time_violated`, `delivered_iff`, `C32_torn_violated`, `C33_halts`, `C33_stuck_violated`, `C34_violated`
* `Verif.Accounts`: `C35_no_delivery_partial`, `C35_wedged`, `C36_find_complete`, `C36_unique_partial`, `C39_proxy_stored`, `C39_kept`, `C39_exclusive`, `C42_crash_iff`, `C58_closed_partial`, `C59_partial`, `C59_usable`
* `Verif.Sessions`: `C37_one_online`, `C37_table_partial`, `C37_entries_partial`, `C37_gets_out`, `C58_disconnected_partial`
* `Verif.Tags`: `C38_no_crash_partial`, `C38_request_partial`, `C38_violated`, `C60_only_acked`, `C60_needs_ack`, `C60_acked_deleted`
* `Verif.Policy`: `C40_pruned`, `C40_concurrent_violated`, `C40_save_violated`
* `Verif.Rendezvous`: `C41_pin_unused`, `C41_distinct_partial`, `C41_expired_violated`, `C41_overlap_violated`, `C41_lost_violated`, `C41_early_violated`
* `Verif.AddressBook`: `C43_add`, `C43_nick_is_key`, `C43_nicks_distinct`, `C43_find_after_add`, `C43_find_complete`, `C43_del_partial`
* `Verif.Scheduler`: `C44_fifo`, `C44_retry`, `C44_priority`, `C44_terminates`, `C44_exact_partial`, `C44_all_sent_partial`
* `Verif.Groups`: `C47_only_admin`, `C47_all_changes`, `C48_update_partial`, `C48_no_crash_partial`, `C48_generation_violated`, `C48_hands_violated`, `C48_crash_violated`, `C48_mention_violated`, `C49_needs_invitation`, `C49_added_is_admitted`, `C49_single_use`, `C49_asks`, `C49_used_partial`, `C49_used_violated`, `C49_expired_violated`, `C49_recreated_violated`, `C50_kicks_violated`, `C50_join_violated`, `C50_pending_violated`, `C51_send`, `C51_shown`, `C51_twice_violated`
* `Verif.GroupFiles`: `C52_file_partial`, `C52_accepted_partial`, `C52_kept`, `C52_directory_violated`
* `Verif.Completion`: `C54_never_crashes`, `C54_no_candidate`, `C54_afresh`, `C54_cycle_violated`
* `Verif.Push`: `C55_stranger_partial`, `C55_contacts_kept_partial`, `C55_answer`, `C55_crash_violated`, `C55_planted_violated`, `C55_zlib_crash_violated`, `C55_full_violated`
* `Verif.ClientTags`: `C56_ack_crash_iff`, `C56_no_crash_partial`, `C56_ack_violated`, `C56_reply_violated`, `C56_ping_violated`, `C56_reconnect_violated`
* `Verif.Store`: `C57_killed`, `C63_power_partial`, `C63_unsynced`, `C63_rollback_violated`, `C64_save_partial`
* `Verif.KXServer`: `C67_violated`
* `Verif.Contact`: `C71_drains`, `C71_crossing_finds_violated`, `C72_in_order`
* `Verif.Windows`: `C73_group`, `C73_me`, `C73_white`
* `Verif.ChatLog`: `C78_contacts_separate`, `C78_groups_contacts_separate`, `C78_inside_partial`, `C78_groups_separate_partial`, `C78_inside_violated`
* `Verif.Mention`: `C79_ascii_partial`
* `Verif.Enrol`: `C80_key_partial`, `C80_shown`, `C80_fingerprint_violated`, `C81_lost_violated`, `C81_stuck_violated`
* `Verif.Records`: `C82_whole`
* `Verif.BlobKeys`: `C84_kept_partial`, `C84_tried_partial`, `C84_update_violated`, `C84_emptied_violated`, `C84_unsaved_violated`, `C84_crash_violated`, `C84_expiry_violated`
* `Verif.PinContact`: `C85_offer`, `C85_keys`, `C85_sealed`, `C85_drains`, `C85_crossing_violated`, `C85_directory_violated`
* `Verif.Intro`: `C86_filed`, `C86_stable`, `C86_origin_partial`, `C86_genuine_partial`, `C86_needs_pin`, `C86_ratchet`, `C86_claim_violated`, `C86_reuse_violated`, `C86_replace_violated`, `C86_anyone_violated`, `C86_found_violated`, `C86_server_violated`, `C86_restart_violated`
* `Verif.Handshake`: `C87_completes_partial`, `C87_ends`, `C87_answer_violated`, `C87_overtaken_violated`, `C87_offer_violated`
* `Verif.Startup`: `C90_starts_partial`, `C90_torn_violated`, `C90_control_violated`
* `Verif.Reconnect`: `C92_back_partial`, `C92_full_violated`, `C92_leak_violated`, `C94_pinned`
* `Verif.Flow`: `C95_waiting_violated`
* `Verif.Locks`: `C96_exclusive`, `C96_silent_violated`, `C96_queue_violated`, `C97_free`
* `Verif.Commands`: `C98_helped`, `C98_desc_violated`, `C98_update_violated`, `C98_message_violated`, `C99_kept_partial`, `C99_shown`, `C99_back`, `C99_entered`, `C99_off`, `C99_torn_violated`

`Classical.choice`, `Quot.sound`, `propext` (458):
* `Verif.TagStack`: `C01_tags_distinct`, `C01_no_spurious_failure`, `C01_tags_distinct_blocking`
* `Verif.Session`: `C03_nonce_is_counter`, `C03_nonce_used`, `C03_nonce_never_repeats`, `C03_bound_is_sharp`, `C04_only_what_was_written`, `C05_in_order`, `C05_all_delivered`, `C06_refused_write_violated`, `C06_refused_write_partial`
* `Verif.Ratchet`: `C09_any_order_partial`, `C09_in_order`, `C10_only_what_was_sent`, `C11_no_replay`, `C14_keys_never_reused`, `C148_forge`, `C148_message`, `C16_same_behaviour`, `C16_nothing_lost`, `C16_reachable`, `C18_outside_partial`, `C68_erased_partial`, `C68_partial`, `C68_first_chain_violated`, `C68_violated`, `C69_heals`, `C69_window`, `C70_confidential`, `C70_no_forgery`
* `Verif.Log`: `C101_stranger`, `C101_forged_violated`
* `Verif.Front`: `C102_pieces`, `C102_agree`, `C102_outcome`, `C102_ends`
* `Verif.Invites`: `C103_exact_partial`, `C103_forged_violated`, `C103_broken_violated`, `C103_full_violated`
* `Verif.Status`: `C104_listed_partial`, `C104_quiet_partial`, `C104_always_partial`, `C104_mention_partial`, `C104_separator_partial`, `C104_safe_partial`, `C104_catch_up`, `C104_back`
* `Verif.Reports`: `C105_true_partial`, `C105_complete_partial`, `C105_echo`, `C105_echo_kick_partial`
* `Verif.Disabled`: `C106_where_partial`, `C106_once_partial`, `C106_told_partial`, `C106_alone_partial`, `C106_second_violated`
* `Verif.Tokens`: `C107_printed`, `C107_hours_partial`, `C107_works_partial`, `C107_hours_violated`
* `Verif.Admin`: `C108_disable`, `C108_enable`, `C108_nonsense`, `C108_version`, `C108_unversioned`, `C108_twice`, `C108_shown_enabled`, `C108_shown_disabled_partial`, `C108_crash_violated`, `C108_shown_violated`, `C108_hidden_violated`, `C108_forged_violated`, `C108_missing_violated`
* `Verif.Deletion`: `C109_only`, `C109_unknown`, `C109_stranger`, `C109_again`, `C109_files`, `C109_gone_partial`, `C109_fate_partial`, `C109_done_partial`, `C109_ratchet_violated`, `C109_lost_violated`, `C109_quit_violated`, `C109_killed_violated`, `C109_crash_violated`, `C109_twice_violated`, `C109_between_violated`, `C109_back_violated`
* `Verif.Heartbeat`: `C110_writes`, `C110_dead_partial`, `C110_one`, `C110_kept_partial`, `C110_server_partial`, `C110_slow_violated`
* `Verif.Lookup`: `C111_once`, `C111_kept`, `C111_answered`, `C111_asks_partial`, `C111_lost_violated`
* `Verif.Listing`: `C112_sound`, `C112_ends`, `C112_found_partial`, `C112_taken_partial`, `C112_whole_partial`, `C112_lookup_violated`, `C112_taken_violated`, `C112_both_violated`, `C112_spoiled_violated`, `C112_for_ever_violated`, `C112_all_violated`
* `Verif.GroupNet`: `C114_agree_partial`, `C114_others_partial`, `C114_during_partial`, `C114_outside_partial`
* `Verif.Ephemeral`: `C115_answers_partial`, `C115_erased_partial`, `C115_own_partial`, `C115_succeeds_partial`
* `Verif.EndToEnd`: `C117_kept_partial`, `C117_connects_partial`, `C117_drains_partial`, `C117_same_partial`, `C117_seen_partial`
* `Verif.Clock`: `C118_names`, `C118_calendar`, `C118_order_partial`, `C118_steady_partial`, `C118_backups_partial`, `C118_order_violated`, `C118_summer_violated`, `C118_backups_violated`
* `Verif.Tab`: `C119_kept_partial`, `C119_first`, `C119_file`, `C119_cycle_partial`, `C119_sent_partial`, `C119_erased_violated`, `C119_stale_violated`, `C119_begun_violated`, `C119_other_violated`, `C119_stuck_violated`
* `Verif.Upload`: `C120_received`, `C120_completed_partial`, `C120_limit_partial`, `C120_ends_partial`
* `Verif.GroupTalk`: `C122_once`, `C122_members_partial`, `C122_others_partial`, `C122_same_partial`
* `Verif.Dialogs`: `C123_agreed`, `C123_line`, `C123_own`, `C123_rejected`, `C123_no_crash`, `C123_focus`, `C123_gone`, `C123_back`, `C123_whole_partial`, `C123_numbers`, `C123_second_violated`, `C123_steal_violated`, `C123_contacts`
* `Verif.Perms`: `C124_fresh`
* `Verif.Quit`: `C125_quiet_partial`
* `Verif.Export`: `C127_export_partial`, `C127_address`, `C127_arrives_partial`, `C127_fingerprint_partial`, `C127_client_partial`, `C127_client_line`, `C127_b64cert`, `C127_root_violated`, `C127_nowhere_violated`, `C127_chain_violated`
* `Verif.SharedProps`: `C128_words`, `C128_all`, `C128_whole_partial`, `C128_settings`, `C128_time_partial`, `C128_motd_partial`, `C128_alone_partial`
* `Verif.Quota`: `C129_count`, `C129_exhausted_violated`, `C129_free_partial`
* `Verif.Transcript`: `C130_read_partial`, `C130_who_partial`, `C130_kept`, `C130_day`, `C130_forged_violated`, `C130_remark_violated`, `C130_nick_violated`, `C130_own_violated`, `C130_left_violated`
* `Verif.Voice`: `C131_shown_partial`, `C131_read`, `C131_said_partial`, `C131_fingerprint_partial`, `C131_blame_partial`, `C131_motd`, `C131_motd_violated`, `C131_error_violated`, `C131_percent_violated`
* `Verif.Chunks`: `C132_room`, `C132_size_partial`, `C132_landed`, `C132_size_violated`, `C45_reassembly`, `C45_announced`, `C45_location_partial`, `C46_sequential_partial`
* `Verif.Observer`: `C133_compression_violated`, `C133_group_violated`
* `Verif.Cert`: `C134_names`, `C134_time`, `C134_missing`, `C134_valid_partial`, `C134_server`, `C134_bracket_violated`, `C134_expired_violated`
* `Verif.Sizes`: `C135_payload_partial`, `C135_text_partial`, `C135_chunk_partial`, `C135_group_partial`, `C135_poison_violated`, `C135_lockout_violated`, `C135_chunk_violated`, `C135_group_violated`
* `Verif.Memory`: `C137_used`, `C137_message`, `C137_unknown`, `C137_header_violated`, `C137_once_partial`, `C137_handled_partial`, `C137_contact_violated`, `C137_group_violated`, `C137_for_good_violated`
* `Verif.Guess`: `C138_guesses_partial`, `C138_even`, `C138_chance_partial`, `C138_everything_violated`
* `Verif.Replies`: `C139_pulled`, `C139_short`, `C139_found`, `C139_unknown`, `C139_same`, `C139_search`, `C139_order`, `C139_tag`, `C139_all_partial`, `C139_ends_violated`, `C139_unknown_violated`
* `Verif.ImportAll`: `C140_status`, `C140_later`, `C140_true`, `C140_steps`, `C140_all_partial`, `C140_nothing_violated`, `C140_one_violated`, `C140_replaced_violated`, `C140_cut_violated`
* `Verif.Twice`: `C141_one`, `C141_short_violated`, `C141_alone_partial`, `C141_storm_violated`
* `Verif.Power`: `C142_old_partial`, `C142_gone_violated`, `C142_wrong_violated`
* `Verif.Presence`: `C143_first_login_violated`, `C143_instant_violated`
* `Verif.Journal`: `C144_noted_partial`, `C144_logins`, `C144_private`, `C144_contents`, `C144_used`, `C144_direction_violated`, `C144_sender_violated`, `C144_failed_violated`, `C144_token_violated`
* `Verif.Answers`: `C145_reasons_partial`, `C145_contact`
* `Verif.Told`: `C146_lists_partial`, `C146_gone_partial`, `C146_left`, `C146_removed`
* `Verif.KXNet`: `C149_server`
* `Verif.Loot`: `C150_client`, `C150_server`
* `Verif.Lists`: `C151_names_violated`, `C151_windows`, `C151_window_names_partial`, `C151_members`, `C151_member_nicks`, `C151_admin_violated`, `C151_invitations_partial`, `C151_usable_partial`, `C151_stranger_violated`
* `Verif.Slices`: `C153_values`, `C153_queue`, `C153_others`
* `Verif.Handles`: `C155_bounded_partial`, `C155_closed_partial`, `C155_returns`
* `Verif.FullDisk`: `C156_backup_partial`, `C156_table_violated`
* `Verif.Identity`: `C19_name_nick_violated`
* `Verif.Xdr`: `C23_roundtrip`, `C23_prefix_fails`, `C23_prefix_free`, `C23_sequence`, `C23_read`
* `Verif.Stored`: `C24_roundtrip`, `C24_old_format`, `C24_truncation_partial`, `C24_truncated_delivered_violated`
* `Verif.Crpc`: `C26_agree`
* `Verif.IniDB`: `C28_save_reopen_partial`, `C28_default_table_order_partial`, `C28_history_partial`, `C28_clean_save_noop_partial`, `C28_default_table_moves_violated`, `C28_new_table_lost_violated`, `C28_special_characters_violated`, `C28_full_violated`, `C29_no_data_lost_partial`, `C29_reopen_after_crash_partial`, `C29_crash_between_renames_violated`, `C29_full_violated`, `C30_rotation_partial`, `C30_foreign_file_removed_violated`
* `Verif.Delivery`: `C31_kept_partial`, `C32_once_partial`, `C32_one_login`, `C32_between_partial`, `C32_contents_partial`, `C32_order`, `C32_again_partial`, `C33_idle_partial`, `C33_signal`, `C33_bounded`, `C33_all_announced_partial`, `C33_stuck_forever`, `C34_partial`, `C34_errors_partial`
* `Verif.Accounts`: `C35_recreate_violated`, `C36_violated`, `C39_stored`, `C59_violated`
* `Verif.Sessions`: `C37_relogin_partial`, `C37_relogin_push_violated`, `C37_relogin_blocked_violated`
* `Verif.Tags`: `C38_polite_partial`
* `Verif.Policy`: `C40_token_valid`, `C40_token_accepted`, `C40_token`, `C40_words`, `C40_once_partial`
* `Verif.Rendezvous`: `C41_refused`, `C41_accepted`, `C41_sound`, `C41_pull_exact_partial`, `C41_file`
* `Verif.AddressBook`: `C43_add_terminates`
* `Verif.Scheduler`: `C44_room`
* `Verif.Groups`: `C50_calm_partial`, `C51_once_partial`
* `Verif.Welcome`: `C53_accepts_iff`, `C53_no_crash_partial`, `C53_bytes_partial`, `C62_agree_partial`, `C62_unwelcome`, `C62_configured`, `C62_refused_violated`
* `Verif.Completion`: `C54_cycle_partial`, `C54_cycle_common_prefix`
* `Verif.ClientTags`: `C56_distinct_partial`, `C56_callback_partial`
* `Verif.GroupFiles`: `C61_restart_partial`
* `Verif.KXServer`: `C67_messages_partial`, `C67_requests_partial`, `C67_same_account_partial`
* `Verif.Contact`: `C71_agree_partial`, `C71_find_partial`, `C71_reset_partial`, `C71_crossing_resets_violated`, `C71_delete_violated`, `C71_impatient_violated`, `C72_no_loss_partial`, `C72_violated`
* `Verif.Windows`: `C73_recipient`, `C73_private_partial`, `C73_nobody`, `C73_nick_violated`, `C73_space_violated`, `C73_console_violated`, `C73_group_name_violated`, `C73_blank_violated`, `C74_private_partial`, `C74_group_partial`, `C74_private_arrives`, `C74_group_arrives`, `C74_members`, `C74_group_violated`, `C74_close_violated`, `C75_no_crash_partial`, `C75_close_violated`, `C75_type_violated`, `C76_restore_partial`, `C76_nick_violated`, `C76_group_violated`, `C77_restart_partial`, `C77_restart_violated`
* `Verif.Mention`: `C79_rune`, `C79_upper`, `C79_utf8_partial`, `C79_crash_violated`
* `Verif.Enrol`: `C80_cert_partial`, `C80_pin_partial`, `C81_kept`, `C81_saved_partial`, `C81_import_violated`
* `Verif.Records`: `C82_server`, `C82_client`, `C82_imported`, `C82_asks`, `C82_forced_partial`, `C82_forced_violated`, `C83_saved`
* `Verif.PinContact`: `C85_agree_partial`, `C85_yes_partial`, `C85_reset_violated`
* `Verif.Settings`: `C88_obeyed_partial`, `C88_accepted`, `C88_closed`, `C88_reason`, `C88_size_violated`, `C88_tilde_violated`, `C88_root_violated`, `C89_obeyed`, `C89_named`, `C89_first`, `C89_faulty_violated`, `C89_none_violated`, `C89_root_violated`, `C89_shipped`
* `Verif.Reconnect`: `C91_stays_partial`, `C91_exact`, `C92_start_violated`, `C92_online_violated`
* `Verif.Flow`: `C95_answered_partial`, `C95_exact`
* `Verif.Locks`: `C96_answers_partial`, `C96_silent_partial`, `C96_exact`, `C97_served`
* `Verif.Commands`: `C98_obeyed_partial`
