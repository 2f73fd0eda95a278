{
 "claims": [
  {
   "property": "C01",
   "status": "proved",
   "theorems": [
    "Verif.TagStack.C01_tags_distinct",
    "Verif.TagStack.C01_no_spurious_failure",
    "Verif.TagStack.C01_tags_distinct_blocking"
   ],
   "note": "Induction over all histories of take/give by well-behaved users, both pool variants, depth up to 2^32."
  },
  {
   "property": "C02",
   "status": "proved",
   "theorems": [
    "Verif.TagStack.C02_bounded_lifo",
    "Verif.TagStack.C02_failure_no_effect",
    "Verif.TagStack.C02_bounded_fifo"
   ],
   "note": "Trace refinement of the array-and-index stack and of the channel to a bounded stack/queue."
  },
  {
   "property": "C03",
   "status": "proved",
   "theorems": [
    "Verif.Session.C03_nonce_is_counter",
    "Verif.Session.C03_nonce_used",
    "Verif.Session.C03_nonce_never_repeats",
    "Verif.Session.C03_bound_is_sharp"
   ],
   "note": "Byte-level carry loop; holds for every n; nonces repeat only after 2^64 frames."
  },
  {
   "property": "C04",
   "status": "proved",
   "theorems": [
    "Verif.Session.C04_only_what_was_written"
   ],
   "note": "Byte-stream model with arbitrary attacker; the only assumption about the attacker is NoForgery (a frame that opens was sealed by the writer under that nonce)."
  },
  {
   "property": "C05",
   "status": "proved",
   "theorems": [
    "Verif.Session.C05_in_order",
    "Verif.Session.C05_all_delivered"
   ],
   "note": "All interleavings of Write, partial byte transfer and Read."
  },
  {
   "property": "C06",
   "status": "partial",
   "theorems": [
    "Verif.Session.C06_refused_write_violated",
    "Verif.Session.C06_refused_write_partial"
   ],
   "note": "Violated by the code: writeWithKey advances the nonce before the size check, so everything written after a refused message is undecryptable. Partial: nothing reaches the wire and earlier messages are unaffected."
  },
  {
   "property": "C07",
   "status": "proved",
   "theorems": [
    "Verif.KX.C07_honest_agreement",
    "Verif.KX.C07_honest_termination"
   ],
   "note": "Both programs as processes over FIFO connections; all interleavings via strong confluence."
  },
  {
   "property": "C08",
   "status": "proved",
   "theorems": [
    "Verif.KX.C08_no_disagreement",
    "Verif.KX.C08_client_authenticated"
   ],
   "note": "Arbitrary network; assumes collision free HMAC and boxes that open only under their own key; symbolic instance shows satisfiability. Secrecy of the long-term keys is not modelled: the statement is about runs whose confirmation messages match."
  },
  {
   "property": "C09",
   "status": "partial",
   "theorems": [
    "Verif.Ratchet.C09_any_order_partial",
    "Verif.Ratchet.C09_in_order",
    "Verif.Ratchet.C09_empty_message_violated"
   ],
   "note": "All reachable conversations, any order of delivery, any attacker traffic. The full claim is false of the code: an empty message that was overtaken is refused (C09_empty_message_violated). The partial theorem excludes the empty message for overtaken messages; fewer than 2^32-1 messages in total."
  },
  {
   "property": "C10",
   "status": "proved",
   "theorems": [
    "Verif.Ratchet.C10_only_what_was_sent"
   ],
   "note": "Ideal secretbox; the attacker assembles ciphertexts from parts of those sent and from keys not derived from the shared secret."
  },
  {
   "property": "C100",
   "status": "partial",
   "theorems": [
    "Verif.Ends.C100_ends_partial",
    "Verif.Ends.C100_rest",
    "Verif.Ends.C100_exact",
    "Verif.Ends.C100_forever",
    "Verif.Ends.C100_tag_violated",
    "Verif.Ends.C100_reader_violated",
    "Verif.Ends.C100_work_violated"
   ],
   "note": "Violated in three ways, each proved to be for ever. Proved if, when the connection is closed, there are free tags and room in the queue for all messages that may still come; and the exact list of reasons for which a goroutine may be left."
  },
  {
   "property": "C101",
   "status": "partial",
   "theorems": [
    "Verif.Log.C101_lines_partial",
    "Verif.Log.C101_exact",
    "Verif.Log.C101_kept",
    "Verif.Log.C101_restart",
    "Verif.Log.C101_level",
    "Verif.Log.C101_escape",
    "Verif.Log.C101_stranger",
    "Verif.Log.C101_quiet",
    "Verif.Log.C101_index",
    "Verif.Log.C101_extras",
    "Verif.Log.C101_width",
    "Verif.Log.C101_forged_violated",
    "Verif.Log.C101_percent_violated",
    "Verif.Log.C101_time_violated",
    "Verif.Log.C101_extra_violated"
   ],
   "note": "Violated: whoever can connect to the server can make it log any line. Proved if no text has a line break and no text, time or name that is used as a format has a percent sign; without percent signs the condition on line breaks is exact."
  },
  {
   "property": "C102",
   "status": "proved",
   "theorems": [
    "Verif.Front.C102_pieces",
    "Verif.Front.C102_policy",
    "Verif.Front.C102_agree",
    "Verif.Front.C102_outcome",
    "Verif.Front.C102_ends"
   ],
   "note": "Bytes on both sides. validToken and account.Create answer anything, at any time (they are the matter of C40 and C36). Identities are values of Go that fit the encoding; for the outcome the server's limit on sizes must let the request pass."
  },
  {
   "property": "C103",
   "status": "partial",
   "theorems": [
    "Verif.Invites.C103_exact_partial",
    "Verif.Invites.C103_forged_violated",
    "Verif.Invites.C103_broken_violated",
    "Verif.Invites.C103_full_violated"
   ],
   "note": "Violated: one invitation with a line break in the name of the group puts an invitation of anybody else into joins.ini, or makes joins.ini unreadable so that no invitation is ever found or kept again. Proved for names that are not empty and have no line break, equals sign or outer blanks; the file is modelled as text, records as base64 of XDR."
  },
  {
   "property": "C104",
   "status": "partial",
   "theorems": [
    "Verif.Status.C104_listed_partial",
    "Verif.Status.C104_quiet_partial",
    "Verif.Status.C104_always_partial",
    "Verif.Status.C104_mention_partial",
    "Verif.Status.C104_separator_partial",
    "Verif.Status.C104_days",
    "Verif.Status.C104_safe_partial",
    "Verif.Status.C104_catch_up",
    "Verif.Status.C104_back",
    "Verif.Status.C104_listed_violated",
    "Verif.Status.C104_mention_violated",
    "Verif.Status.C104_separator_violated",
    "Verif.Status.C104_safe_violated"
   ],
   "note": "Violated: a line that waits while a window is closed goes unnoticed, a mention is lost if the user changes the window at that moment, the separator of a window never looked at is misplaced, and three crashes. Proved: the list is exact unless a line is printed between closing a window and the change to the console; mentions if in addition they arrive while no change of the window waits; the separator for windows that were looked at before; days, and going through all windows, without conditions. Rows are modelled by kind, scrolling is not."
  },
  {
   "property": "C105",
   "status": "partial",
   "theorems": [
    "Verif.Reports.C105_true_partial",
    "Verif.Reports.C105_complete_partial",
    "Verif.Reports.C105_forged_violated",
    "Verif.Reports.C105_kick_violated",
    "Verif.Reports.C105_stranger_violated",
    "Verif.Reports.C105_late_violated",
    "Verif.Reports.C105_alone_violated",
    "Verif.Reports.C105_silent_violated",
    "Verif.Reports.C105_echo",
    "Verif.Reports.C105_echo_kick_partial",
    "Verif.Reports.C105_echo_violated"
   ],
   "note": "Violated: everybody who can write to the user can have it said that any member of any group left, or that anybody joined. Proved: notices are true if lists come from the administrator, and the lists of kicks fit; and they are complete for everything that comes from others if kicks change only what they say and the user knows who leaves."
  },
  {
   "property": "C106",
   "status": "partial",
   "theorems": [
    "Verif.Disabled.C106_true",
    "Verif.Disabled.C106_server",
    "Verif.Disabled.C106_named",
    "Verif.Disabled.C106_where_partial",
    "Verif.Disabled.C106_once_partial",
    "Verif.Disabled.C106_told_partial",
    "Verif.Disabled.C106_alone_partial",
    "Verif.Disabled.C106_safe_partial",
    "Verif.Disabled.C106_first_violated",
    "Verif.Disabled.C106_second_violated",
    "Verif.Disabled.C106_enabled_violated",
    "Verif.Disabled.C106_where_violated",
    "Verif.Disabled.C106_namesake_violated",
    "Verif.Disabled.C106_gone_violated",
    "Verif.Disabled.C106_crash_violated"
   ],
   "note": "Violated in where, whether and how often the user is told, and by a crash on a group without members. Proved: every notice is about an account the server called disabled, which it does exactly for those; the windows are right if nicks of windows are those of the address book, up to groups that are gone and requests to administrators; at most one notice per window while groups exist; everybody concerned is told once one message more failed than there are windows of that nick."
  },
  {
   "property": "C107",
   "status": "partial",
   "theorems": [
    "Verif.Tokens.C107_printed",
    "Verif.Tokens.C107_hours_partial",
    "Verif.Tokens.C107_works_partial",
    "Verif.Tokens.C107_hours_violated",
    "Verif.Tokens.C107_lost_violated",
    "Verif.Tokens.C107_spent_violated"
   ],
   "note": "Violated: tokens are lost if the tool runs during a request, spent if the account is not made, and refused if made for more than 292 years. Proved: what is printed, without conditions; the time up to 2562047 hours; and that the token passes the check within its time if the file has one user at a time and can be saved."
  },
  {
   "property": "C108",
   "status": "partial",
   "theorems": [
    "Verif.Admin.C108_disable",
    "Verif.Admin.C108_enable",
    "Verif.Admin.C108_nonsense",
    "Verif.Admin.C108_version",
    "Verif.Admin.C108_unversioned",
    "Verif.Admin.C108_twice",
    "Verif.Admin.C108_shown_enabled",
    "Verif.Admin.C108_listed_partial",
    "Verif.Admin.C108_shown_disabled_partial",
    "Verif.Admin.C108_crash_violated",
    "Verif.Admin.C108_shown_violated",
    "Verif.Admin.C108_hidden_violated",
    "Verif.Admin.C108_forged_violated",
    "Verif.Admin.C108_missing_violated"
   ],
   "note": "Violated in four ways, see the disagreements. Proved over the bytes on the socket: for every spelling of an identity, OK is said exactly if the account was moved, unchanged and alone; text that is not hexadecimal changes nothing; the listing is exact if every directory has an identity and no nick a line break."
  },
  {
   "property": "C109",
   "status": "partial",
   "theorems": [
    "Verif.Deletion.C109_only",
    "Verif.Deletion.C109_unknown",
    "Verif.Deletion.C109_stranger",
    "Verif.Deletion.C109_again",
    "Verif.Deletion.C109_files",
    "Verif.Deletion.C109_gone_partial",
    "Verif.Deletion.C109_fate_partial",
    "Verif.Deletion.C109_done_partial",
    "Verif.Deletion.C109_ratchet_violated",
    "Verif.Deletion.C109_lost_violated",
    "Verif.Deletion.C109_quit_violated",
    "Verif.Deletion.C109_killed_violated",
    "Verif.Deletion.C109_crash_violated",
    "Verif.Deletion.C109_twice_violated",
    "Verif.Deletion.C109_between_violated",
    "Verif.Deletion.C109_back_violated"
   ],
   "note": "Violated in seven ways, see the disagreements; for contacts without a ratchet it is proved that no run deletes them. Proved without conditions: nobody is deleted whom the user did not delete, and after \"deleted user\" no file is left and nothing is shown until a key exchange. With conditions: the address book, that the deletion is done, and that every deletion is accounted for while the connection lasts."
  },
  {
   "property": "C11",
   "status": "proved",
   "theorems": [
    "Verif.Ratchet.C11_no_replay"
   ],
   "note": ""
  },
  {
   "property": "C110",
   "status": "partial",
   "theorems": [
    "Verif.Heartbeat.C110_writes",
    "Verif.Heartbeat.C110_replies",
    "Verif.Heartbeat.C110_dead_partial",
    "Verif.Heartbeat.C110_one",
    "Verif.Heartbeat.C110_kept_partial",
    "Verif.Heartbeat.C110_server_partial",
    "Verif.Heartbeat.C110_busy_violated",
    "Verif.Heartbeat.C110_slow_violated",
    "Verif.Heartbeat.C110_alive_violated",
    "Verif.Heartbeat.C110_stale_violated"
   ],
   "note": "Violated: the time depends on what the user writes, and large messages over slow connections are cut off in every session. Proved for all runs: the bound on the time with what is queued and the tags, that no write outlasts 12 seconds per ping, the conditions under which the client closes, and that the server's deadline is met."
  },
  {
   "property": "C111",
   "status": "partial",
   "theorems": [
    "Verif.Lookup.C111_once",
    "Verif.Lookup.C111_kept",
    "Verif.Lookup.C111_answered",
    "Verif.Lookup.C111_acted",
    "Verif.Lookup.C111_asks_partial",
    "Verif.Lookup.C111_named_partial",
    "Verif.Lookup.C111_typed_partial",
    "Verif.Lookup.C111_told_partial",
    "Verif.Lookup.C111_lost_violated",
    "Verif.Lookup.C111_stuck_violated",
    "Verif.Lookup.C111_told_violated",
    "Verif.Lookup.C111_typed_violated",
    "Verif.Lookup.C111_named_violated",
    "Verif.Lookup.C111_book"
   ],
   "note": "Violated in four ways, see the disagreements; that a lost lookup blocks its name until a restart is proved for all runs. Proved: with an honest server no name is asked for twice at a time, without conditions that queued lookups keep their place over lost connections and that an answer is acted on; the rest with the conditions named."
  },
  {
   "property": "C112",
   "status": "partial",
   "theorems": [
    "Verif.Listing.C112_sound",
    "Verif.Listing.C112_ends",
    "Verif.Listing.C112_found_partial",
    "Verif.Listing.C112_taken_partial",
    "Verif.Listing.C112_whole_partial",
    "Verif.Listing.C112_lookup_violated",
    "Verif.Listing.C112_taken_violated",
    "Verif.Listing.C112_both_violated",
    "Verif.Listing.C112_spoiled_violated",
    "Verif.Listing.C112_for_ever_violated",
    "Verif.Listing.C112_all_violated"
   ],
   "note": "Violated, see the disagreements; that a spoiled directory of a disabled account hides all enabled accounts is proved for all runs. Proved without conditions: lookups end and find only what was listed at a moment of the call. With conditions: what is listed is found and cannot be registered again if all directories are readable during the call, and when they are."
  },
  {
   "property": "C113",
   "status": "partial",
   "theorems": [
    "Verif.SharedDB.C113_read",
    "Verif.SharedDB.C113_taken",
    "Verif.SharedDB.C113_kept_partial",
    "Verif.SharedDB.C113_restart_partial",
    "Verif.SharedDB.C113_there_partial",
    "Verif.SharedDB.C113_stored_partial",
    "Verif.SharedDB.C113_wiped_violated",
    "Verif.SharedDB.C113_tokens_violated",
    "Verif.SharedDB.C113_replaced_violated",
    "Verif.SharedDB.C113_crash_violated",
    "Verif.SharedDB.C113_lost_violated",
    "Verif.SharedDB.C113_never_violated",
    "Verif.SharedDB.C113_twice_violated"
   ],
   "note": "Violated for all contents of the file, see the disagreements. Proved without conditions: what a pull returns was in the file at a moment of the pull. With conditions: records stay under any number of requests at a time if none reads the file while there is none; a request that is alone stores its record."
  },
  {
   "property": "C114",
   "status": "partial",
   "theorems": [
    "Verif.GroupNet.C114_agree_partial",
    "Verif.GroupNet.C114_others_partial",
    "Verif.GroupNet.C114_during_partial",
    "Verif.GroupNet.C114_outside_partial",
    "Verif.GroupNet.C114_joined_violated",
    "Verif.GroupNet.C114_kicks_violated",
    "Verif.GroupNet.C114_left_violated",
    "Verif.GroupNet.C114_lost_violated",
    "Verif.GroupNet.C114_unacknowledged_violated",
    "Verif.GroupNet.C114_refused_violated",
    "Verif.GroupNet.C114_force_violated"
   ],
   "note": "Violated, see the disagreements. Proved for any number of clients and all runs in which nothing is lost, nobody leaves by force, and nothing else happens to the group at its administrator while a kick is under way: who is on the list has that list once it has arrived, and who is not has no group or only asked for it."
  },
  {
   "property": "C115",
   "status": "partial",
   "theorems": [
    "Verif.Ephemeral.C115_answers_partial",
    "Verif.Ephemeral.C115_erased_partial",
    "Verif.Ephemeral.C115_own_partial",
    "Verif.Ephemeral.C115_succeeds_partial",
    "Verif.Ephemeral.C115_fails_violated",
    "Verif.Ephemeral.C115_shared_violated",
    "Verif.Ephemeral.C115_zeros_violated",
    "Verif.Ephemeral.C115_both_violated",
    "Verif.Ephemeral.C115_kept_violated"
   ],
   "note": "Violated for two calls of Initiate at a time, and by Respond, which keeps its copy. Proved for all interleavings: pairs of those who answer fit if the process only answers; nothing is left if it only initiates; with one Initiate at a time, as in the client, each has its own key and fails only with the connection."
  },
  {
   "property": "C116",
   "status": "partial",
   "theorems": [
    "Verif.RatchetFile.C116_once_partial",
    "Verif.RatchetFile.C116_newest_partial",
    "Verif.RatchetFile.C116_anew_partial",
    "Verif.RatchetFile.C116_offer_partial",
    "Verif.RatchetFile.C116_sent_partial",
    "Verif.RatchetFile.C116_told_partial",
    "Verif.RatchetFile.C116_undone_violated",
    "Verif.RatchetFile.C116_unanswered_violated",
    "Verif.RatchetFile.C116_deaf_violated"
   ],
   "note": "The reset is undone by a message that is being sent or received, see the disagreements. Proved for all interleavings: no state is used twice and each use is of the newest exchange. With conditions: after a reset that nobody is in the way of, nothing from before it comes back, and the exchange it leads to is completed."
  },
  {
   "property": "C117",
   "status": "partial",
   "theorems": [
    "Verif.EndToEnd.C117_once",
    "Verif.EndToEnd.C117_kept_partial",
    "Verif.EndToEnd.C117_connects_partial",
    "Verif.EndToEnd.C117_drains_partial",
    "Verif.EndToEnd.C117_same_partial",
    "Verif.EndToEnd.C117_seen_partial",
    "Verif.EndToEnd.C117_lost_violated",
    "Verif.EndToEnd.C117_killed_violated",
    "Verif.EndToEnd.C117_sent_violated",
    "Verif.EndToEnd.C117_quit_violated",
    "Verif.EndToEnd.C117_lockedout_violated"
   ],
   "note": "Violated, see the disagreements. Proved for all runs: what is shown was written, once and in order. For runs in which the recipient connects with no acknowledgements left over: what is stored stays until it is decrypted, the recipient can always connect, and what is stored is decrypted and deleted while they are connected. If also no message is lost at the sender and nobody is killed: from every state the recipient can come to see exactly what was written."
  },
  {
   "property": "C118",
   "status": "partial",
   "theorems": [
    "Verif.Clock.C118_names",
    "Verif.Clock.C118_calendar",
    "Verif.Clock.C118_taken",
    "Verif.Clock.C118_login",
    "Verif.Clock.C118_order_partial",
    "Verif.Clock.C118_steady_partial",
    "Verif.Clock.C118_backups_partial",
    "Verif.Clock.C118_order_violated",
    "Verif.Clock.C118_summer_violated",
    "Verif.Clock.C118_backups_violated"
   ],
   "note": "Violated whenever the local clock goes back, see the disagreements. Proved for all moments: names sort exactly as the local clock. While that does not go back: each session announces in the order of storing, and the newest backups are kept, for all runs."
  },
  {
   "property": "C119",
   "status": "partial",
   "theorems": [
    "Verif.Tab.C119_kept_partial",
    "Verif.Tab.C119_enter",
    "Verif.Tab.C119_first",
    "Verif.Tab.C119_file",
    "Verif.Tab.C119_cycle_partial",
    "Verif.Tab.C119_sent_partial",
    "Verif.Tab.C119_erased_violated",
    "Verif.Tab.C119_stale_violated",
    "Verif.Tab.C119_begun_violated",
    "Verif.Tab.C119_other_violated",
    "Verif.Tab.C119_stuck_violated"
   ],
   "note": "Violated, see the disagreements. Proved for all runs: no crash, and only the last word changes, to a contact, file or home there was, or (the violation) to nothing. The first Tab after a command gives the least match; further ones go through all nicks without spaces; and completed words without spaces are what is asked for."
  },
  {
   "property": "C12",
   "status": "partial",
   "theorems": [
    "Verif.Ratchet.C12_reject_no_effect_partial",
    "Verif.Ratchet.C12_empty_message_violated"
   ],
   "note": "False of the code for ciphertexts carrying an empty message, for which the negation is proved; proved for all others and every state."
  },
  {
   "property": "C120",
   "status": "partial",
   "theorems": [
    "Verif.Upload.C120_messages",
    "Verif.Upload.C120_type",
    "Verif.Upload.C120_received",
    "Verif.Upload.C120_told",
    "Verif.Upload.C120_order",
    "Verif.Upload.C120_completed_partial",
    "Verif.Upload.C120_limit_partial",
    "Verif.Upload.C120_ends_partial",
    "Verif.Upload.C120_no_crash_partial",
    "Verif.Upload.C120_mixed_violated",
    "Verif.Upload.C120_completed_violated",
    "Verif.Upload.C120_limit_violated",
    "Verif.Upload.C120_endless_violated",
    "Verif.Upload.C120_crash_violated"
   ],
   "note": "Violated, see the disagreements. Proved whatever is done to the file: every byte that is received was at its place in the file at some time, the length is one that the file had and is allowed, the messages are an announcement and consecutive chunks, and the user is told one thing at the end. If nobody changes the file: what was reported as sent arrives, the limit is kept, and sending ends. With chunk sizes below 2^63 there is no crash."
  },
  {
   "property": "C121",
   "status": "partial",
   "theorems": [
    "Verif.ClientDB.C121_done",
    "Verif.ClientDB.C121_locked",
    "Verif.ClientDB.C121_removed",
    "Verif.ClientDB.C121_nothing",
    "Verif.ClientDB.C121_invites_partial",
    "Verif.ClientDB.C121_made_partial",
    "Verif.ClientDB.C121_once_partial",
    "Verif.ClientDB.C121_invited_partial",
    "Verif.ClientDB.C121_joins_partial",
    "Verif.ClientDB.C121_list_partial",
    "Verif.ClientDB.C121_lost_violated",
    "Verif.ClientDB.C121_back_violated",
    "Verif.ClientDB.C121_wiped_violated",
    "Verif.ClientDB.C121_killed_violated",
    "Verif.ClientDB.C121_list_violated"
   ],
   "note": "Violated for the invitations that arrive, see the disagreements. Proved for those the user has made, for all interleavings without a crash between the two renames of Save: the answers and the file are those of one operation after the other. For those that arrive: if none does while the user joins."
  },
  {
   "property": "C122",
   "status": "partial",
   "theorems": [
    "Verif.GroupTalk.C122_once",
    "Verif.GroupTalk.C122_members_partial",
    "Verif.GroupTalk.C122_others_partial",
    "Verif.GroupTalk.C122_same_partial",
    "Verif.GroupTalk.C122_new_violated",
    "Verif.GroupTalk.C122_kicked_violated",
    "Verif.GroupTalk.C122_left_violated",
    "Verif.GroupTalk.C122_order_violated"
   ],
   "note": "Violated while members change, and for the order of different writers. Proved for all runs: what is shown is what its writer wrote with the reader on their list, once and in order. From any moment at which an orderly group is at rest, as long as nobody comes or goes and nothing is lost: members see all of it, others none."
  },
  {
   "property": "C123",
   "status": "partial",
   "theorems": [
    "Verif.Dialogs.C123_agreed",
    "Verif.Dialogs.C123_line",
    "Verif.Dialogs.C123_empty",
    "Verif.Dialogs.C123_offline",
    "Verif.Dialogs.C123_blob",
    "Verif.Dialogs.C123_emptied",
    "Verif.Dialogs.C123_own",
    "Verif.Dialogs.C123_rejected",
    "Verif.Dialogs.C123_no_crash",
    "Verif.Dialogs.C123_focus",
    "Verif.Dialogs.C123_gone",
    "Verif.Dialogs.C123_back",
    "Verif.Dialogs.C123_around",
    "Verif.Dialogs.C123_finish_partial",
    "Verif.Dialogs.C123_whole_partial",
    "Verif.Dialogs.C123_numbers",
    "Verif.Dialogs.C123_second_violated",
    "Verif.Dialogs.C123_steal_violated",
    "Verif.Dialogs.C123_leftover_violated",
    "Verif.Dialogs.C123_unasked_violated",
    "Verif.Dialogs.C123_order_violated",
    "Verif.Dialogs.C123_contact_violated",
    "Verif.Dialogs.C123_stale_violated",
    "Verif.Dialogs.C123_keyless_violated",
    "Verif.Dialogs.C123_contacts",
    "Verif.Dialogs.C123_unconnected",
    "Verif.Dialogs.C123_stays",
    "Verif.Dialogs.C123_typed",
    "Verif.Dialogs.C123_yes",
    "Verif.Dialogs.C123_reject",
    "Verif.Dialogs.C123_range"
   ],
   "note": "That everybody was agreed to, that all text is what was typed into its window, that there is no crash and always a way back is proved for all runs. That each fetched PIN can be answered is violated, see the disagreements; proved when the editor for the password is empty, no second blob comes, and the disk does not fail."
  },
  {
   "property": "C124",
   "status": "partial",
   "theorems": [
    "Verif.Perms.C124_client_partial",
    "Verif.Perms.C124_server_partial",
    "Verif.Perms.C124_root",
    "Verif.Perms.C124_fresh",
    "Verif.Perms.C124_received_violated",
    "Verif.Perms.C124_socket_violated"
   ],
   "note": "If the root directory is shut, as it is when the programs make it, everything below it is unreachable for others, for all runs. If others may enter the root directory this is violated for received files with names that lead out of their directory, and for the socket if the umask lets others write; proved without these two."
  },
  {
   "property": "C125",
   "status": "partial",
   "theorems": [
    "Verif.Quit.C125_refused",
    "Verif.Quit.C125_answered_partial",
    "Verif.Quit.C125_always_answered",
    "Verif.Quit.C125_force",
    "Verif.Quit.C125_over",
    "Verif.Quit.C125_quiet_partial",
    "Verif.Quit.C125_patient_partial",
    "Verif.Quit.C125_busy_violated",
    "Verif.Quit.C125_just_typed_violated",
    "Verif.Quit.C125_key_violated",
    "Verif.Quit.C125_twice_violated"
   ],
   "note": "Violated while something is being sent, see the disagreements. For all runs: the user is told that something waits only if it does, and is always answered. Proved in full for a user who leaves while nothing moves and types the command once."
  },
  {
   "property": "C126",
   "status": "partial",
   "theorems": [
    "Verif.Residue.C126_history",
    "Verif.Residue.C126_runs",
    "Verif.Residue.C126_log_partial",
    "Verif.Residue.C126_off_partial",
    "Verif.Residue.C126_text_violated",
    "Verif.Residue.C126_command_violated",
    "Verif.Residue.C126_debug_violated",
    "Verif.Residue.C126_debug",
    "Verif.Residue.C126_key_violated"
   ],
   "note": "What is in the history file and in the log is stated exactly, for all runs. That text is not in the history file, as the configuration says, is violated; so is, with debug on, that messages are not in the log. With both settings off, as they come, nothing typed, sent or received is left in these two files."
  },
  {
   "property": "C127",
   "status": "partial",
   "theorems": [
    "Verif.Export.C127_export_partial",
    "Verif.Export.C127_address",
    "Verif.Export.C127_arrives_partial",
    "Verif.Export.C127_fingerprint_partial",
    "Verif.Export.C127_client_partial",
    "Verif.Export.C127_client_line",
    "Verif.Export.C127_b64cert",
    "Verif.Export.C127_root_violated",
    "Verif.Export.C127_nowhere_violated",
    "Verif.Export.C127_chain_violated"
   ],
   "note": "Proved for a tool that looks into the root directory of the program, up to what a new client has after the import. Violated if the configuration names another root directory, if it names an address that is none to connect to, and for the fingerprint of a chained certificate."
  },
  {
   "property": "C128",
   "status": "partial",
   "theorems": [
    "Verif.SharedProps.C128_words",
    "Verif.SharedProps.C128_all",
    "Verif.SharedProps.C128_whole_partial",
    "Verif.SharedProps.C128_settings",
    "Verif.SharedProps.C128_time_partial",
    "Verif.SharedProps.C128_motd_partial",
    "Verif.SharedProps.C128_alone_partial",
    "Verif.SharedProps.C128_torn_violated",
    "Verif.SharedProps.C128_late_violated"
   ],
   "note": "Proved in full for the settings, for all interleavings; for the message of the day while its file is not changed, and for the time up to which login it is of. For a login that no other one meets all is proved. Violated for a message of the day that is changed between two logins, and for the time."
  },
  {
   "property": "C129",
   "status": "partial",
   "theorems": [
    "Verif.Quota.C129_count",
    "Verif.Quota.C129_short_partial",
    "Verif.Quota.C129_charged",
    "Verif.Quota.C129_zeros_violated",
    "Verif.Quota.C129_exhausted_violated",
    "Verif.Quota.C129_free_partial",
    "Verif.Quota.C129_message",
    "Verif.Quota.C129_messages_violated"
   ],
   "note": "That the file for rendezvous has at most a million records, one for each PIN issued, is proved for all interleavings and failures, and that whatever is kept is at most a third longer than what was sent. That PINs are given back, that records are short, and that waiting messages are limited is violated. No probabilities are modelled: a request gets a PIN if a free one is drawn."
  },
  {
   "property": "C13",
   "status": "partial",
   "theorems": [
    "Verif.Ratchet.C13_storage_bounded",
    "Verif.Ratchet.C13_far_message_refused",
    "Verif.Ratchet.C13_far_next_chain_refused",
    "Verif.Ratchet.C13_terminates_partial",
    "Verif.Ratchet.C13_terminates_violated"
   ],
   "note": "Storage bound and refusal for every state and input. Termination is false when a header counter is 2^32-1 (reachable conversation exhibited), proved otherwise."
  },
  {
   "property": "C130",
   "status": "partial",
   "theorems": [
    "Verif.Transcript.C130_read_partial",
    "Verif.Transcript.C130_who_partial",
    "Verif.Transcript.C130_kept",
    "Verif.Transcript.C130_day",
    "Verif.Transcript.C130_forged_violated",
    "Verif.Transcript.C130_remark_violated",
    "Verif.Transcript.C130_nick_violated",
    "Verif.Transcript.C130_taken_violated",
    "Verif.Transcript.C130_own_violated",
    "Verif.Transcript.C130_left_violated"
   ],
   "note": "Proved for nicks and texts without line breaks and escape characters, nicks without spaces and angle brackets, and if no member has the nick of another or of the user. That ttk.Unescape removes the colours is an assumption (`Strips`, with an instance). Violated for texts with line breaks, for nicks with spaces or angle brackets, and for contacts with the nick of the user. That no message ends the client (`Lives`) is C79."
  },
  {
   "property": "C131",
   "status": "partial",
   "theorems": [
    "Verif.Voice.C131_shown_partial",
    "Verif.Voice.C131_read",
    "Verif.Voice.C131_said_partial",
    "Verif.Voice.C131_fingerprint_partial",
    "Verif.Voice.C131_blame_partial",
    "Verif.Voice.C131_motd",
    "Verif.Voice.C131_motd_violated",
    "Verif.Voice.C131_error_violated",
    "Verif.Voice.C131_percent_violated"
   ],
   "note": "Violated: the message of the day, errors of lookups and of resets are printed as they come, and a text with a nick in it is used as a format. Proved without these: every line is one that the client meant, and can be read in one way only; the fingerprint is that of the server. That the colours of ttk begin with an escape character and have no percent sign is an assumption (`Codes`)."
  },
  {
   "property": "C132",
   "status": "partial",
   "theorems": [
    "Verif.Chunks.C132_room",
    "Verif.Chunks.C132_size_partial",
    "Verif.Chunks.C132_landed",
    "Verif.Chunks.C132_size_violated",
    "Verif.Chunks.C132_stays_violated",
    "Verif.Chunks.C132_corrupt_violated"
   ],
   "note": "Proved without conditions: room and entries grow by no more than what was sent (`C132_room`). Violated: the announced size is no limit, unfinished and corrupt files are never removed. `C132_size_partial` is for senders whose chunks keep to a length."
  },
  {
   "property": "C133",
   "status": "partial",
   "theorems": [
    "Verif.Observer.C133_blind",
    "Verif.Observer.C133_length_partial",
    "Verif.Observer.C133_text_partial",
    "Verif.Observer.C133_compression_violated",
    "Verif.Observer.C133_group_violated"
   ],
   "note": "`C133_blind` is for any two sequences of messages with the same recipients, times and lengths of plaintexts. Violated: what the length tells (compression), and groups. That streams are random and not used twice is C14 and C70; that the server sees nothing else of a message is what is modelled (`wire`)."
  },
  {
   "property": "C134",
   "status": "partial",
   "theorems": [
    "Verif.Cert.C134_names",
    "Verif.Cert.C134_port",
    "Verif.Cert.C134_time",
    "Verif.Cert.C134_end",
    "Verif.Cert.C134_missing",
    "Verif.Cert.C134_valid_partial",
    "Verif.Cert.C134_server",
    "Verif.Cert.C134_bracket_violated",
    "Verif.Cert.C134_expired_violated"
   ],
   "note": "For the server as it calls the function the claim holds without conditions (`C134_server`). Violated for other calls: later than 2049 the certificate has expired when it is made, and `[::1]` without a port becomes a name. That addresses are read back from their text is an assumption on package net (`Net.back`, with an instance)."
  },
  {
   "property": "C135",
   "status": "partial",
   "theorems": [
    "Verif.Sizes.C135_longer",
    "Verif.Sizes.C135_given_partial",
    "Verif.Sizes.C135_all_partial",
    "Verif.Sizes.C135_payload_partial",
    "Verif.Sizes.C135_text_partial",
    "Verif.Sizes.C135_chunk_partial",
    "Verif.Sizes.C135_group_partial",
    "Verif.Sizes.C135_queue_partial",
    "Verif.Sizes.C135_offline",
    "Verif.Sizes.C135_poison_violated",
    "Verif.Sizes.C135_lockout_violated",
    "Verif.Sizes.C135_session_violated",
    "Verif.Sizes.C135_chunk_violated",
    "Verif.Sizes.C135_group_violated",
    "Verif.Sizes.C135_queue_violated",
    "Verif.Sizes.C135_files_violated"
   ],
   "note": "The claim is false for payloads of 263085 to 263088 bytes (`C135_poison_violated` is an equivalence) and for what a client queues without looking at its length. Proved for all messages that are shorter, with exact bounds. Tags are left out (C33, C34); the order of files is that of arrival (C118)."
  },
  {
   "property": "C136",
   "status": "partial",
   "theorems": [
    "Verif.Strangers.C136_idle",
    "Verif.Strangers.C136_left",
    "Verif.Strangers.C136_room_partial",
    "Verif.Strangers.C136_within",
    "Verif.Strangers.C136_served",
    "Verif.Strangers.C136_given_back",
    "Verif.Strangers.C136_stays_violated",
    "Verif.Strangers.C136_full_violated",
    "Verif.Strangers.C136_log_violated",
    "Verif.Strangers.C136_control_violated"
   ],
   "note": "Sessions are given up after 15 seconds of silence (`C136_idle`). Violated before the session, where there is no deadline, and for the control socket, whose loop ends at the first error. That Accept and open fail when the limit is reached is what operating systems do; that Accept returns this error to its caller is an assumption on package net."
  },
  {
   "property": "C137",
   "status": "partial",
   "theorems": [
    "Verif.Memory.C137_bound",
    "Verif.Memory.C137_server",
    "Verif.Memory.C137_used",
    "Verif.Memory.C137_exact",
    "Verif.Memory.C137_elements",
    "Verif.Memory.C137_message",
    "Verif.Memory.C137_same",
    "Verif.Memory.C137_unknown",
    "Verif.Memory.C137_header_violated",
    "Verif.Memory.C137_once_partial",
    "Verif.Memory.C137_handled_partial",
    "Verif.Memory.C137_stranger_violated",
    "Verif.Memory.C137_contact_violated",
    "Verif.Memory.C137_group_violated",
    "Verif.Memory.C137_for_good_violated"
   ],
   "note": "True of the server and of whatever can be read. Violated in the client, whose xdr.Unmarshal has no limit. That the library asks for the memory before it reads is an assumption on davecgh/go-xdr. Whether a program that asks for so much and does not use it is ended depends on the system: `mem` is what it is given."
  },
  {
   "property": "C138",
   "status": "partial",
   "theorems": [
    "Verif.Guess.C138_blind",
    "Verif.Guess.C138_guesses_partial",
    "Verif.Guess.C138_even",
    "Verif.Guess.C138_chance_partial",
    "Verif.Guess.C138_closed_partial",
    "Verif.Guess.C138_found_violated",
    "Verif.Guess.C138_everything_violated",
    "Verif.Guess.C138_offline_violated",
    "Verif.Guess.C138_empty_violated"
   ],
   "note": "Exact for a given number of questions, for all adaptive strategies. That they cannot ask for all PINs is false, as nothing limits the questions. That wrong passwords give keys for which nothing was forged is the assumption on scrypt and secretbox (as in C22)."
  },
  {
   "property": "C139",
   "status": "partial",
   "theorems": [
    "Verif.Replies.C139_pulled",
    "Verif.Replies.C139_short",
    "Verif.Replies.C139_found",
    "Verif.Replies.C139_unknown",
    "Verif.Replies.C139_same",
    "Verif.Replies.C139_search",
    "Verif.Replies.C139_order",
    "Verif.Replies.C139_tag",
    "Verif.Replies.C139_all_partial",
    "Verif.Replies.C139_ends_violated",
    "Verif.Replies.C139_unknown_violated"
   ],
   "note": "True of all requests but searches, and of these with exact bounds (`C139_found`, `C139_unknown`). The bound of `C139_all_partial` is chosen so that the three names fit together."
  },
  {
   "property": "C14",
   "status": "proved",
   "theorems": [
    "Verif.Ratchet.C14_keys_never_reused"
   ],
   "note": ""
  },
  {
   "property": "C140",
   "status": "partial",
   "theorems": [
    "Verif.ImportAll.C140_identity",
    "Verif.ImportAll.C140_status",
    "Verif.ImportAll.C140_later",
    "Verif.ImportAll.C140_true",
    "Verif.ImportAll.C140_steps",
    "Verif.ImportAll.C140_all_partial",
    "Verif.ImportAll.C140_nothing_violated",
    "Verif.ImportAll.C140_one_violated",
    "Verif.ImportAll.C140_replaced_violated",
    "Verif.ImportAll.C140_cut_violated"
   ],
   "note": "What is said is true of each file at its turn (`C140_true`); status 0 means that all were imported only if all can be read (`C140_all_partial`), and says nothing of whether an earlier one is still there (`C140_replaced_violated`)."
  },
  {
   "property": "C141",
   "status": "partial",
   "theorems": [
    "Verif.Twice.C141_one",
    "Verif.Twice.C141_short_violated",
    "Verif.Twice.C141_alone_partial",
    "Verif.Twice.C141_storm_violated",
    "Verif.Twice.Shared.C141_kept_partial",
    "Verif.Twice.Shared.C141_undone_violated",
    "Verif.Twice.Keys.C141_fresh_partial",
    "Verif.Twice.Keys.C141_reused_violated"
   ],
   "note": "All four parts fail if both run at the same time; all hold if they run in turn. `C141_short_violated` is about all runs, `C141_storm_violated` about one for each k."
  },
  {
   "property": "C142",
   "status": "partial",
   "theorems": [
    "Verif.Power.C142_same",
    "Verif.Power.C142_flush",
    "Verif.Power.C142_settled_partial",
    "Verif.Power.C142_old_partial",
    "Verif.Power.C142_gone_violated",
    "Verif.Power.C142_wrong_violated",
    "Verif.Power.C142_message_violated",
    "Verif.Power.C142_again_violated",
    "Verif.Power.C142_inplace_violated"
   ],
   "note": "No file but those of ratchets is synced (C63). The partial claims are about what the system wrote to the disk by itself, and about the copy that Save leaves, which nothing reads."
  },
  {
   "property": "C143",
   "status": "partial",
   "theorems": [
    "Verif.Presence.C143_own",
    "Verif.Presence.C143_view_partial",
    "Verif.Presence.C143_directory_partial",
    "Verif.Presence.C143_first_login_violated",
    "Verif.Presence.C143_instant_violated",
    "Verif.Presence.C143_pins_violated"
   ],
   "note": "The partial claims compare any two histories that agree in what may be seen; not hidden are the PINs that others draw, first logins if there is a directory, and events at the same nanosecond. How long answers take is not modelled."
  },
  {
   "property": "C144",
   "status": "partial",
   "theorems": [
    "Verif.Journal.C144_noted_partial",
    "Verif.Journal.C144_logins",
    "Verif.Journal.C144_private",
    "Verif.Journal.C144_contents",
    "Verif.Journal.C144_tokens",
    "Verif.Journal.C144_accepted",
    "Verif.Journal.C144_used",
    "Verif.Journal.C144_direction_violated",
    "Verif.Journal.C144_sender_violated",
    "Verif.Journal.C144_failed_violated",
    "Verif.Journal.C144_token_violated"
   ],
   "note": "Entries, not lines: that a stranger can put line breaks into an entry is in C101. Tokens that are named are no longer in the file that is then saved."
  },
  {
   "property": "C145",
   "status": "partial",
   "theorems": [
    "Verif.Answers.C145_reasons_partial",
    "Verif.Answers.C145_contact",
    "Verif.Answers.C145_stranger",
    "Verif.Answers.C145_reset_violated",
    "Verif.Answers.C145_third_violated",
    "Verif.Answers.C145_directory_violated",
    "Verif.Answers.C145_server_violated",
    "Verif.Answers.C145_deleted_violated"
   ],
   "note": "Recipients, not contents. What the client confirms and asks the server is left out; that an invitation to a group makes it look up names, the answers to which begin key exchanges, is in C111. The theorems still hold in models in which somebody with a half ratchet only is heard, nobody is heard, or the groups take those on file for those in the address book; the log of wrong models has these as not caught."
  },
  {
   "property": "C146",
   "status": "partial",
   "theorems": [
    "Verif.Told.C146_lists_partial",
    "Verif.Told.C146_whole",
    "Verif.Told.C146_invitation",
    "Verif.Told.C146_gone_partial",
    "Verif.Told.C146_left",
    "Verif.Told.C146_removed",
    "Verif.Told.C146_leaver_violated",
    "Verif.Told.C146_kicked_violated",
    "Verif.Told.C146_invited_violated",
    "Verif.Told.C146_force_violated"
   ],
   "note": "What one client sends; that messages are delivered is in C114."
  },
  {
   "property": "C147",
   "status": "partial",
   "theorems": [
    "Verif.Told.C147_true_partial",
    "Verif.Told.C147_all_partial",
    "Verif.Told.C147_namesake_violated",
    "Verif.Told.C147_inviter_violated",
    "Verif.Told.C147_unknown_violated"
   ],
   "note": "A fingerprint stands for the identity it is computed from. Lookups for names that are not known are in C111."
  },
  {
   "property": "C148",
   "status": "proved",
   "theorems": [
    "Verif.Ratchet.C148_forge",
    "Verif.Ratchet.C148_exchange",
    "Verif.Ratchet.C148_states",
    "Verif.Ratchet.C148_message"
   ],
   "note": "In the symbolic model of ciphertexts, where lengths do not count; below 2^32 messages. A message that is empty cannot be told from one that is not found (C09), so empty messages stay empty."
  },
  {
   "property": "C149",
   "status": "proved",
   "theorems": [
    "Verif.KXNet.C149_client",
    "Verif.KXNet.C149_server",
    "Verif.KXNet.C149_same",
    "Verif.KXNet.C149_key_needed"
   ],
   "note": "In the symbolic model of C65. Of the exchange only: addresses, times and the amount of what is written later are not hidden. That the key of the server is the right one when it is first seen is C94."
  },
  {
   "property": "C15",
   "status": "proved",
   "theorems": [
    "Verif.Ratchet.C15_pairing",
    "Verif.Ratchet.C15_first_message"
   ],
   "note": ""
  },
  {
   "property": "C150",
   "status": "proved",
   "theorems": [
    "Verif.Loot.C150_client",
    "Verif.Loot.C150_server",
    "Verif.Loot.C150_forge",
    "Verif.Loot.C150_thief"
   ],
   "note": "In the symbolic model of C65. Before the session is made the attacker has no ephemeral keys and not the key of the server (of the client, for `C150_server`). The session keys themselves, and the four random values, are not stolen; when ephemeral keys are erased is C115."
  },
  {
   "property": "C151",
   "status": "partial",
   "theorems": [
    "Verif.Lists.C151_contacts",
    "Verif.Lists.C151_names_partial",
    "Verif.Lists.C151_names_violated",
    "Verif.Lists.C151_windows",
    "Verif.Lists.C151_window_names_partial",
    "Verif.Lists.C151_members",
    "Verif.Lists.C151_member_nicks",
    "Verif.Lists.C151_admin_partial",
    "Verif.Lists.C151_admin_violated",
    "Verif.Lists.C151_invitations_partial",
    "Verif.Lists.C151_usable_partial",
    "Verif.Lists.C151_stranger_violated"
   ],
   "note": "Missing: nicks with blanks, what is seen of the administrator without colours, invitations of those who are no contacts, and names of groups with line breaks (C103). How a time is printed and the list of groups without members are not modelled."
  },
  {
   "property": "C152",
   "status": "proved",
   "theorems": [
    "Verif.Maps.C152_maps",
    "Verif.Maps.C152_needed"
   ],
   "note": "Of maps only, for which Go ends the program; the flags `debug` and `trace`, which the source lets race, and other variables are not meant. Uses that the list of calls does not have are not covered: it was made by a search for the names of the maps."
  },
  {
   "property": "C153",
   "status": "proved",
   "theorems": [
    "Verif.Slices.C153_values",
    "Verif.Slices.C153_queue",
    "Verif.Slices.C153_others"
   ],
   "note": "Of lists of members and recipients taken from them; the other recipients are variables of their own call. Generations, times and texts are numbers; whether an invitation lets somebody in is part of the event."
  },
  {
   "property": "C154",
   "status": "partial",
   "theorems": [
    "Verif.Document.C154_client_partial",
    "Verif.Document.C154_server_partial",
    "Verif.Document.C154_client_accepts_partial",
    "Verif.Document.C154_server_accepts_partial",
    "Verif.Document.C154_bound",
    "Verif.Document.C154_server_violated",
    "Verif.Document.C154_client_violated"
   ],
   "note": "Missing: the second and third proof, which differ from the document. The document does not say that the halves are the other way round on the server, nor what the nonces are. HMAC is over parts; the concatenations of the document and of the code have different lengths."
  },
  {
   "property": "C155",
   "status": "partial",
   "theorems": [
    "Verif.Handles.C155_bounded_partial",
    "Verif.Handles.C155_closed_partial",
    "Verif.Handles.C155_returns",
    "Verif.Handles.C155_send_violated",
    "Verif.Handles.C155_chunk_violated"
   ],
   "note": "Missing: files that are too large to be sent, and chunks that cannot be written. Go closes files that it collects, at a time that is not specified; this is not counted on. Connections are in C100 and C136. Loops over chunks and lines, which open nothing, are left out; for `C155_returns` they end with their files."
  },
  {
   "property": "C156",
   "status": "partial",
   "theorems": [
    "Verif.FullDisk.C156_apart",
    "Verif.FullDisk.C156_reported_partial",
    "Verif.FullDisk.C156_ratchet",
    "Verif.FullDisk.C156_backup_partial",
    "Verif.FullDisk.C156_log",
    "Verif.FullDisk.C156_again",
    "Verif.FullDisk.C156_table_violated",
    "Verif.FullDisk.C156_created_violated",
    "Verif.FullDisk.C156_group_violated"
   ],
   "note": "Missing: tables, whose writes are not looked at (what was there is kept as a backup for nine further saves, unless the same process created the table), and groups and identities, which are emptied before they are written. Errors that a system reports only when a file is synced or closed are left out; the code ignores them. Logs report nothing."
  },
  {
   "property": "C157",
   "status": "partial",
   "theorems": [
    "Verif.Leftovers.C157_past_partial",
    "Verif.Leftovers.C157_bounded",
    "Verif.Leftovers.C157_deleted",
    "Verif.Leftovers.C157_apart",
    "Verif.Leftovers.C157_reset",
    "Verif.Leftovers.C157_left_violated",
    "Verif.Leftovers.C157_half_violated"
   ],
   "note": "Missing: saves that are interrupted or fail after the temporary file was made. States are numbers; what a file system keeps of replaced files is left out, as are backups that the user makes. Keys of PINs, which are never deleted, are in C84."
  },
  {
   "property": "C158",
   "status": "partial",
   "theorems": [
    "Verif.Deleted.C158_table",
    "Verif.Deleted.C158_rotated_partial",
    "Verif.Deleted.C158_kept",
    "Verif.Deleted.C158_apart",
    "Verif.Deleted.C158_backup_violated"
   ],
   "note": "Missing: the time until ten other entries were added. Entries are numbers; all saves succeed and calls on one table do not overlap (C113, C121, C156). What a file system keeps of removed files is left out. Blobs under PINs and their keys are never deleted (C84, C138)."
  },
  {
   "property": "C16",
   "status": "proved",
   "theorems": [
    "Verif.Ratchet.C16_roundtrip",
    "Verif.Ratchet.C16_same_behaviour",
    "Verif.Ratchet.C16_nothing_lost",
    "Verif.Ratchet.C16_reachable",
    "Verif.Ratchet.C16_damaged"
   ],
   "note": "Field contents and observational equivalence for all later encrypt and decrypt calls."
  },
  {
   "property": "C17",
   "status": "proved",
   "theorems": [
    "Verif.Point.C17_accepts_exactly",
    "Verif.Point.C17_key_exchange_refuses"
   ],
   "note": ""
  },
  {
   "property": "C18",
   "status": "partial",
   "theorems": [
    "Verif.Ratchet.C18_outside_partial",
    "Verif.Ratchet.C18_lost_violated",
    "Verif.Ratchet.C18_dead_violated"
   ],
   "note": "Violated: a death between writing the message and storing the ratchet loses a message, and at the start of a chain makes everything either side sends later undecryptable, for all later executions. Proved for all crash points outside this window."
  },
  {
   "property": "C19",
   "status": "partial",
   "theorems": [
    "Verif.Identity.C19_fresh_verifies",
    "Verif.Identity.C19_verified_is_signed_partial",
    "Verif.Identity.C19_name_nick_violated",
    "Verif.Identity.C19_tamper"
   ],
   "note": "The full claim is false: name and nick are hashed without a separator, so bytes can move between them (C19_name_nick_violated, for every hash and signature scheme). Proved for the keys, the identity and the concatenation, given that the signature is not a forgery and the hash does not collide on the records concerned."
  },
  {
   "property": "C20",
   "status": "proved",
   "theorems": [
    "Verif.Hex.C20_roundtrip",
    "Verif.Hex.C20_injective",
    "Verif.Hex.C20_accepts_exactly",
    "Verif.Hex.C20_accepted_is_identity"
   ],
   "note": ""
  },
  {
   "property": "C21",
   "status": "partial",
   "theorems": [
    "Verif.Blob.C21_roundtrip",
    "Verif.Blob.C21_unpack_exact",
    "Verif.Blob.C21_no_crash_partial",
    "Verif.Blob.C21_short_violated"
   ],
   "note": "Round trip proved; the no-crash part is false for short input (proved for every short string)."
  },
  {
   "property": "C22",
   "status": "proved",
   "theorems": [
    "Verif.Blob.C22_roundtrip",
    "Verif.Blob.C22_opens_exactly",
    "Verif.Blob.C22_modified",
    "Verif.Blob.C22_too_short",
    "Verif.Blob.C22_wrong_nonce_or_modified",
    "Verif.Blob.C22_wrong_key"
   ],
   "note": "secretbox and scrypt are parameters; that a modified or foreign ciphertext is not a forgery is a hypothesis about that ciphertext."
  },
  {
   "property": "C23",
   "status": "proved",
   "theorems": [
    "Verif.Xdr.C23_roundtrip",
    "Verif.Xdr.C23_prefix_fails",
    "Verif.Xdr.C23_prefix_free",
    "Verif.Xdr.C23_sequence",
    "Verif.Xdr.C23_group_list",
    "Verif.Xdr.C23_size",
    "Verif.Xdr.C23_read"
   ],
   "note": "For a universe of XDR types that contains every message of rpc.go; int fields are sent as 32 bits."
  },
  {
   "property": "C24",
   "status": "partial",
   "theorems": [
    "Verif.Stored.C24_roundtrip",
    "Verif.Stored.C24_old_format",
    "Verif.Stored.C24_truncation_partial",
    "Verif.Stored.C24_truncated_delivered_violated"
   ],
   "note": "Round trip and old-format reading are proved for every message. A stored file cut off between two items is taken for a complete message (the reader ignores an end of file), so the truncation half is proved only for cuts inside an item; the violation is witnessed."
  },
  {
   "property": "C25",
   "status": "proved",
   "theorems": [
    "Verif.Crpc.C25_transparent",
    "Verif.Crpc.C25_unknown_refused"
   ],
   "note": "For any lossless compressor."
  },
  {
   "property": "C26",
   "status": "proved",
   "theorems": [
    "Verif.Crpc.C26_agree",
    "Verif.Crpc.C26_commands_differ",
    "Verif.Crpc.C26_others_refused",
    "Verif.Crpc.C26_handler_needs_command",
    "Verif.Crpc.C26_other_not_sent"
   ],
   "note": "The time in the header arrives unchanged; the handlers do not look at it and show the server's time."
  },
  {
   "property": "C27",
   "status": "proved",
   "theorems": [
    "Verif.IniDB.C27_get_returns_last_value",
    "Verif.IniDB.C27_missing_table_fails",
    "Verif.IniDB.C27_listings_exact"
   ],
   "note": "Against a history specification, from any starting database."
  },
  {
   "property": "C28",
   "status": "partial",
   "theorems": [
    "Verif.IniDB.C28_save_reopen_partial",
    "Verif.IniDB.C28_default_table_order_partial",
    "Verif.IniDB.C28_history_partial",
    "Verif.IniDB.C28_ineffective_partial",
    "Verif.IniDB.C28_clean_save_noop_partial",
    "Verif.IniDB.C28_default_table_moves_violated",
    "Verif.IniDB.C28_new_table_lost_violated",
    "Verif.IniDB.C28_special_characters_violated",
    "Verif.IniDB.C28_full_violated"
   ],
   "note": "Violated: a non-empty default table written after another table moves into it, NewTable alone is not saved, special characters are not escaped. The round trip is proved for all content that survives the format, with an exact condition on the walking order."
  },
  {
   "property": "C29",
   "status": "partial",
   "theorems": [
    "Verif.IniDB.C29_no_data_lost_partial",
    "Verif.IniDB.C29_reopen_after_crash_partial",
    "Verif.IniDB.C29_crash_between_renames_violated",
    "Verif.IniDB.C29_full_violated"
   ],
   "note": "Violated between the two renames; proved at every other crash point, and nothing is lost at that one either."
  },
  {
   "property": "C30",
   "status": "partial",
   "theorems": [
    "Verif.IniDB.C30_rotation_partial",
    "Verif.IniDB.C30_foreign_file_removed_violated"
   ],
   "note": "Count, age order and untouched files are proved for backups recognised by name prefix; the prefix also matches foreign files, which are removed."
  },
  {
   "property": "C31",
   "status": "partial",
   "theorems": [
    "Verif.Delivery.C31_kept",
    "Verif.Delivery.C31_kept_partial",
    "Verif.Delivery.C31_same_time_violated"
   ],
   "note": "Two calls of Deliver that read the same nanosecond both succeed and the first message is lost. Proved for clocks that never repeat a time; crashes in the middle of other deliveries are included."
  },
  {
   "property": "C32",
   "status": "partial",
   "theorems": [
    "Verif.Delivery.C32_once_partial",
    "Verif.Delivery.C32_one_login",
    "Verif.Delivery.C32_between_partial",
    "Verif.Delivery.C32_contents_partial",
    "Verif.Delivery.C32_order",
    "Verif.Delivery.C32_again_partial",
    "Verif.Delivery.delivered_iff",
    "Verif.Delivery.C32_torn_violated"
   ],
   "note": "A message half written when the server dies can be announced with missing fields. Proved without such crashes and with a clock that never repeats; the order within a scan needs no assumption."
  },
  {
   "property": "C33",
   "status": "partial",
   "theorems": [
    "Verif.Delivery.C33_idle_partial",
    "Verif.Delivery.C33_signal",
    "Verif.Delivery.C33_bounded",
    "Verif.Delivery.C33_halts",
    "Verif.Delivery.C33_all_announced_partial",
    "Verif.Delivery.C33_stuck_violated",
    "Verif.Delivery.C33_stuck_forever"
   ],
   "note": "If Deliver signals before the delivery goroutine's own first send, that goroutine blocks for good and nothing is announced in that login. Proved otherwise: idle means everything stored was announced, and the goroutine reaches idle in a bounded number of steps."
  },
  {
   "property": "C34",
   "status": "partial",
   "theorems": [
    "Verif.Delivery.C34_partial",
    "Verif.Delivery.C34_errors_partial",
    "Verif.Delivery.C34_violated"
   ],
   "note": "Acknowledging a message that a later scan has listed but not passed makes that scan announce an error, which closes the session. Proved if no message is acknowledged while the running scan still lists it."
  },
  {
   "property": "C35",
   "status": "partial",
   "theorems": [
    "Verif.Accounts.C35_no_login",
    "Verif.Accounts.C35_restored",
    "Verif.Accounts.C35_not_both_partial",
    "Verif.Accounts.C35_no_delivery_partial",
    "Verif.Accounts.C35_recreate_violated",
    "Verif.Accounts.C35_wedged"
   ],
   "note": "The owner of a disabled account can create it again; it is then enabled and disabled at once, receives messages, and can never be enabled or disabled again. Login stays refused and a successful Enable restores exactly the old account in all histories; the rest holds if disabled identities are not created again."
  },
  {
   "property": "C36",
   "status": "partial",
   "theorems": [
    "Verif.Accounts.C36_find_sound",
    "Verif.Accounts.C36_find_complete",
    "Verif.Accounts.C36_unique_partial",
    "Verif.Accounts.C36_violated"
   ],
   "note": "Two users can register the same nick before their first login and are then both listed. Find is proved sound always and complete if all user files are readable; uniqueness holds if everyone is listed before the next registration and nobody is taken off the list."
  },
  {
   "property": "C37",
   "status": "partial",
   "theorems": [
    "Verif.Sessions.C37_one_online",
    "Verif.Sessions.C37_table_partial",
    "Verif.Sessions.C37_entries_partial",
    "Verif.Sessions.C37_relogin_partial",
    "Verif.Sessions.C37_gets_out",
    "Verif.Sessions.C37_table_violated",
    "Verif.Sessions.C37_forced_logout_violated",
    "Verif.Sessions.C37_relogin_push_violated",
    "Verif.Sessions.C37_relogin_blocked_violated"
   ],
   "note": "At most one session is online in all executions. The table and logging in again are right only if no login overlaps the last step of the old session, the directory listing can be written, and no reader blocks on a full queue; each of the three is necessary."
  },
  {
   "property": "C38",
   "status": "partial",
   "theorems": [
    "Verif.Tags.C38_no_crash_partial",
    "Verif.Tags.C38_isolation",
    "Verif.Tags.C38_request_partial",
    "Verif.Tags.C38_polite_partial",
    "Verif.Tags.C38_violated",
    "Verif.Tags.C38_crash_violated",
    "Verif.Tags.C38_wedged_violated"
   ],
   "note": "Tag 32 crashes the server in every state; every other value is processed or closes the session. An acknowledgement of a tag that is not outstanding can block the session for ever; for clients that acknowledge only what is outstanding this can not happen."
  },
  {
   "property": "C39",
   "status": "partial",
   "theorems": [
    "Verif.Accounts.C39_stored",
    "Verif.Accounts.C39_proxy_stored",
    "Verif.Accounts.C39_unchanged_partial",
    "Verif.Accounts.C39_reason",
    "Verif.Accounts.C39_kept",
    "Verif.Accounts.C39_exclusive",
    "Verif.Accounts.C39_short_write_violated"
   ],
   "note": "A write that fails in the middle is acknowledged with an error but leaves part of a message behind. All else is proved."
  },
  {
   "property": "C40",
   "status": "partial",
   "theorems": [
    "Verif.Policy.C40_no",
    "Verif.Policy.C40_token_valid",
    "Verif.Policy.C40_token_accepted",
    "Verif.Policy.C40_token",
    "Verif.Policy.C40_yes",
    "Verif.Policy.C40_words",
    "Verif.Policy.C40_pruned",
    "Verif.Policy.C40_once_partial",
    "Verif.Policy.C40_concurrent_violated",
    "Verif.Policy.C40_save_violated"
   ],
   "note": "All of it holds except that a token can be used twice: by two connections that read the file before either saves it, and if saving fails. With one user of the file at a time and working saves it is used at most as often as it was put on file."
  },
  {
   "property": "C41",
   "status": "partial",
   "theorems": [
    "Verif.Rendezvous.C41_pin_unused",
    "Verif.Rendezvous.C41_refused",
    "Verif.Rendezvous.C41_accepted",
    "Verif.Rendezvous.C41_sound",
    "Verif.Rendezvous.C41_damaged",
    "Verif.Rendezvous.C41_pull_exact_partial",
    "Verif.Rendezvous.C41_distinct_partial",
    "Verif.Rendezvous.C41_file",
    "Verif.Rendezvous.C41_expired_violated",
    "Verif.Rendezvous.C41_overlap_violated",
    "Verif.Rendezvous.C41_lost_violated",
    "Verif.Rendezvous.C41_early_violated"
   ],
   "note": "Expiration is never checked; overlapping calls can get the same PIN or lose a blob; the PIN is sent before the blob is saved. Refusal, unused PINs and that every blob returned was issued under that PIN hold in all histories; exactness holds if calls do not overlap and saving succeeds."
  },
  {
   "property": "C42",
   "status": "partial",
   "theorems": [
    "Verif.Accounts.C42_crash_iff",
    "Verif.Accounts.C42_reply_partial",
    "Verif.Accounts.C42_violated"
   ],
   "note": "Hexadecimal text that is not 32 bytes long crashes the server; proved to be the only such texts."
  },
  {
   "property": "C43",
   "status": "partial",
   "theorems": [
    "Verif.AddressBook.C43_add_terminates",
    "Verif.AddressBook.C43_add",
    "Verif.AddressBook.C43_nick_is_key",
    "Verif.AddressBook.C43_nicks_distinct",
    "Verif.AddressBook.C43_find_after_add",
    "Verif.AddressBook.C43_find_complete",
    "Verif.AddressBook.C43_del_partial",
    "Verif.AddressBook.C43_del_violated",
    "Verif.AddressBook.C43_find_by_string"
   ],
   "note": "Deletion is incomplete when one identity is stored under two nicks (violated, with a reachable witness); everything else proved for all call histories and map orders."
  },
  {
   "property": "C44",
   "status": "partial",
   "theorems": [
    "Verif.Scheduler.C44_fifo",
    "Verif.Scheduler.C44_retry",
    "Verif.Scheduler.C44_priority",
    "Verif.Scheduler.C44_terminates",
    "Verif.Scheduler.C44_head_of_line",
    "Verif.Scheduler.C44_room",
    "Verif.Scheduler.C44_signals",
    "Verif.Scheduler.C44_exact_partial",
    "Verif.Scheduler.C44_all_sent_partial",
    "Verif.Scheduler.C44_duplicate_violated",
    "Verif.Scheduler.C44_lost_violated",
    "Verif.Scheduler.C44_stalled_violated"
   ],
   "note": "Order, retrying the same message and priority hold in all executions. A message whose ratchet can not be saved after writing is written twice, one without a ratchet is dropped, and after a failure nothing is retried until another message is queued."
  },
  {
   "property": "C45",
   "status": "partial",
   "theorems": [
    "Verif.Chunks.C45_reassembly",
    "Verif.Chunks.C45_name",
    "Verif.Chunks.C45_no_replace",
    "Verif.Chunks.C45_integrity",
    "Verif.Chunks.C45_announced",
    "Verif.Chunks.C45_location_partial",
    "Verif.Chunks.C45_location_violated",
    "Verif.Chunks.C45_hang_violated",
    "Verif.Chunks.C45_squat_violated",
    "Verif.Chunks.C45_empty_violated"
   ],
   "note": "Reassembly, integrity and no replacement hold for all files, splits and interleavings with other senders. Location holds for plain names only: a name with '..' leaves the directory, 'x/..' makes the receiver loop for ever, the hexadecimal identity of another contact blocks that contact's files, an empty file is never sent."
  },
  {
   "property": "C46",
   "status": "partial",
   "theorems": [
    "Verif.Chunks.C46_sequential_partial",
    "Verif.Chunks.C46_overtaken_violated"
   ],
   "note": "Proved for transfers that do not overlap. Violated in general: the announcement of the second file overtakes the chunks of the first and replaces the only descriptor."
  },
  {
   "property": "C47",
   "status": "proved",
   "theorems": [
    "Verif.Groups.C47_only_admin",
    "Verif.Groups.C47_all_changes"
   ],
   "note": "For all states, senders, messages; for the user's own kicks over all executions."
  },
  {
   "property": "C48",
   "status": "partial",
   "theorems": [
    "Verif.Groups.C48_update_partial",
    "Verif.Groups.C48_no_crash_partial",
    "Verif.Groups.C48_generation_violated",
    "Verif.Groups.C48_hands_violated",
    "Verif.Groups.C48_crash_violated",
    "Verif.Groups.C48_mention_violated"
   ],
   "note": "The receiver checks neither generation (only a warning) nor that the new first member is the sender; proved for senders that keep to the protocol. Two crashes: after an empty list from the administrator, anybody's kill; and a mention of the nick after a letter whose upper case form is longer. Without them no event crashes the client in any execution."
  },
  {
   "property": "C49",
   "status": "partial",
   "theorems": [
    "Verif.Groups.C49_needs_invitation",
    "Verif.Groups.C49_added_is_admitted",
    "Verif.Groups.C49_single_use",
    "Verif.Groups.C49_asks",
    "Verif.Groups.C49_used_partial",
    "Verif.Groups.C49_used_violated",
    "Verif.Groups.C49_expired_violated",
    "Verif.Groups.C49_recreated_violated"
   ],
   "note": "Token, identity and single use hold over all executions. Violated: expiration is never looked at, an invitation survives the group, and the invited keeps an invitation that it used if there is another to a group of that name."
  },
  {
   "property": "C50",
   "status": "partial",
   "theorems": [
    "Verif.Groups.C50_calm_partial",
    "Verif.Groups.C50_kicks_violated",
    "Verif.Groups.C50_join_violated",
    "Verif.Groups.C50_pending_violated"
   ],
   "note": "Proved for executions in which nothing else happens to a group while a kick of it is under way. Violated otherwise: the list computed when the kick was ordered replaces whatever the group has become."
  },
  {
   "property": "C51",
   "status": "partial",
   "theorems": [
    "Verif.Groups.C51_send",
    "Verif.Groups.C51_once_partial",
    "Verif.Groups.C51_shown",
    "Verif.Groups.C51_twice_violated"
   ],
   "note": "Exactly once for each other member if no list from an administrator names somebody twice, which is not checked. What is shown: proved for all events."
  },
  {
   "property": "C52",
   "status": "partial",
   "theorems": [
    "Verif.GroupFiles.C52_file_partial",
    "Verif.GroupFiles.C52_accepted_partial",
    "Verif.GroupFiles.C52_kept",
    "Verif.GroupFiles.C52_letter_violated",
    "Verif.GroupFiles.C52_directory_violated"
   ],
   "note": "The letters x and X are missing from the table. The names '', '.', '..' are accepted; '.' denotes the directory itself, which is removed when such a group is killed and there is no other."
  },
  {
   "property": "C53",
   "status": "partial",
   "theorems": [
    "Verif.Welcome.C53_accepts_iff",
    "Verif.Welcome.C53_no_crash_partial",
    "Verif.Welcome.C53_bytes_partial",
    "Verif.Welcome.C53_crash_violated"
   ],
   "note": "Acceptance is characterised for all welcome messages. Violated: a tag depth below -1 crashes the client; that is the only crash."
  },
  {
   "property": "C54",
   "status": "partial",
   "theorems": [
    "Verif.Completion.C54_never_crashes",
    "Verif.Completion.C54_cycle_partial",
    "Verif.Completion.C54_cycle_common_prefix",
    "Verif.Completion.C54_no_candidate",
    "Verif.Completion.C54_afresh",
    "Verif.Completion.C54_cycle_violated"
   ],
   "note": "The cycle runs through the whole list, not only the candidates with the prefix (violated); what it does is proved exactly, also that a line which is not the last offer is completed afresh."
  },
  {
   "property": "C55",
   "status": "partial",
   "theorems": [
    "Verif.Push.C55_stranger_partial",
    "Verif.Push.C55_contacts_kept_partial",
    "Verif.Push.C55_answer",
    "Verif.Push.C55_crash_violated",
    "Verif.Push.C55_planted_violated",
    "Verif.Push.C55_zlib_crash_violated",
    "Verif.Push.C55_full_violated"
   ],
   "note": "Short packets crash the client and a holder of a blob key can plant a contact under any new identity. Proved: exactly which packets crash, that a stranger's packet otherwise has no effect or adds exactly the contact named inside it, and that usable contacts are never altered by others."
  },
  {
   "property": "C56",
   "status": "partial",
   "theorems": [
    "Verif.ClientTags.C56_ack_crash_iff",
    "Verif.ClientTags.C56_no_crash_partial",
    "Verif.ClientTags.C56_distinct_partial",
    "Verif.ClientTags.C56_callback_partial",
    "Verif.ClientTags.C56_ack_violated",
    "Verif.ClientTags.C56_reply_violated",
    "Verif.ClientTags.C56_ping_violated",
    "Verif.ClientTags.C56_reconnect_violated"
   ],
   "note": "Violated in four independent ways (each with a witness run). Proved: the exact crashing tag of an acknowledgement; no crash for any server as long as tags are in range; distinct tags and right callbacks with an honest server, a pool that is not empty at a ping and no request pending at a reconnection."
  },
  {
   "property": "C57",
   "status": "proved",
   "theorems": [
    "Verif.Store.C57_killed"
   ],
   "note": "For all states, all splittings of the data into writes and all crash points of the process. Loss of power is C63."
  },
  {
   "property": "C58",
   "status": "partial",
   "theorems": [
    "Verif.Accounts.C58_closed_partial",
    "Verif.Accounts.C58_upper_case_violated",
    "Verif.Sessions.C58_disconnected_partial",
    "Verif.Sessions.C58_race_violated"
   ],
   "note": "Sessions are looked up by the text typed; upper case text disables the account but does not close its session. A connection between the check and its registration is not disconnected."
  },
  {
   "property": "C59",
   "status": "partial",
   "theorems": [
    "Verif.Accounts.C59_partial",
    "Verif.Accounts.C59_usable",
    "Verif.Accounts.C59_violated",
    "Verif.Accounts.absent_run"
   ],
   "note": "A crash inside Create leaves a directory that makes every later attempt fail."
  },
  {
   "property": "C60",
   "status": "proved",
   "theorems": [
    "Verif.Tags.C60_only_acked",
    "Verif.Tags.C60_needs_ack",
    "Verif.Tags.C60_acked_deleted"
   ],
   "note": ""
  },
  {
   "property": "C61",
   "status": "partial",
   "theorems": [
    "Verif.GroupFiles.C61_restart_partial",
    "Verif.GroupFiles.C61_memory",
    "Verif.GroupFiles.C61_crash_violated",
    "Verif.GroupFiles.C61_unwritten_violated"
   ],
   "note": "Proved for all histories of operations without a crash inside a write; the file is emptied before it is written."
  },
  {
   "property": "C62",
   "status": "partial",
   "theorems": [
    "Verif.Welcome.C62_agree_partial",
    "Verif.Welcome.C62_unwelcome",
    "Verif.Welcome.C62_configured",
    "Verif.Welcome.C62_refused_violated"
   ],
   "note": "Agreement is characterised for all settings; a chunk size above the fixed message size is accepted by the server and refused by every client."
  },
  {
   "property": "C63",
   "status": "partial",
   "theorems": [
    "Verif.Store.C63_power_partial",
    "Verif.Store.C63_unsynced",
    "Verif.Store.C63_rollback_violated",
    "Verif.Store.C63_sync_violated"
   ],
   "note": "Proved for all histories: some complete state, if every Sync succeeds. Violated: it may be older than the previous one; a failed Sync is ignored and leaves a torn file."
  },
  {
   "property": "C64",
   "status": "partial",
   "theorems": [
    "Verif.Store.C64_save_partial",
    "Verif.Store.C64_reset_violated"
   ],
   "note": "Violated by a reset of a known contact. Proved: what saveIdentity leaves at every crash point, and that it never touches ratchets or contacts with a ratchet."
  },
  {
   "property": "C65",
   "status": "partial",
   "theorems": [
    "Verif.KXNet.C65_client",
    "Verif.KXNet.C65_server_partial",
    "Verif.KXNet.C65_server_confirmed_partial",
    "Verif.KXNet.C65_server_violated"
   ],
   "note": "Client: proved with forward secrecy, for every attacker. Server: violated, the keys of a session with an impostor become known when the private key of the client leaks later. Proved for the server: secret as long as that key is, and for ever once anything readable has been written."
  },
  {
   "property": "C66",
   "status": "partial",
   "theorems": [
    "Verif.KXNet.C66_client",
    "Verif.KXNet.C66_client_reads",
    "Verif.KXNet.C66_unique",
    "Verif.KXNet.C66_server_partial",
    "Verif.KXNet.C66_server_violated"
   ],
   "note": "Client: proved, injective agreement on keys, identities and frame numbers, and on all later messages. Server: violated, Respond completes without the client. Proved for the server: agreement as soon as there is anything it can read."
  },
  {
   "property": "C67",
   "status": "partial",
   "theorems": [
    "Verif.KXServer.C67_messages_partial",
    "Verif.KXServer.C67_requests_partial",
    "Verif.KXServer.C67_same_account_partial",
    "Verif.KXServer.C67_violated"
   ],
   "note": "Violated: the session of a user is ended by a connection of somebody who only knows the public key. Proved: messages processed are those of the user, a prefix in order, and so is every single request the server handles; only sessions of the account claimed are ended."
  },
  {
   "property": "C68",
   "status": "partial",
   "theorems": [
    "Verif.Ratchet.C68_erased_partial",
    "Verif.Ratchet.C68_partial",
    "Verif.Ratchet.C68_first_chain_violated",
    "Verif.Ratchet.C68_violated"
   ],
   "note": "Violated: both halves of the shared key are kept for ever, so the keys of all messages of the first chain can be computed from either ratchet at any later time. Proved: forward secrecy for all later chains once the private values beginning the second chain are gone, and for all chains if the halves were erased."
  },
  {
   "property": "C69",
   "status": "proved",
   "theorems": [
    "Verif.Ratchet.C69_heals",
    "Verif.Ratchet.C69_window"
   ],
   "note": "For a thief that collects any number of copies of both ratchets and then only listens."
  },
  {
   "property": "C70",
   "status": "proved",
   "theorems": [
    "Verif.Ratchet.C70_confidential",
    "Verif.Ratchet.C70_no_forgery"
   ],
   "note": "Against an outsider that may even know all DH private values; symbolic cryptography."
  },
  {
   "property": "C71",
   "status": "partial",
   "theorems": [
    "Verif.Contact.C71_agree_partial",
    "Verif.Contact.C71_find_partial",
    "Verif.Contact.C71_reset_partial",
    "Verif.Contact.C71_drains",
    "Verif.Contact.C71_crossing_finds_violated",
    "Verif.Contact.C71_crossing_resets_violated",
    "Verif.Contact.C71_delete_violated",
    "Verif.Contact.C71_impatient_violated"
   ],
   "note": "Violated: two users who look each other up, or reset, at the same time are without a ratchet for ever; a deleted contact cannot be found again until the other side resets; a reset during a reset of the other leaves one side without a ratchet. Proved: for users who start no attempt at contact while another is unfinished; the bound on answers holds for all."
  },
  {
   "property": "C72",
   "status": "partial",
   "theorems": [
    "Verif.Contact.C72_in_order",
    "Verif.Contact.C72_no_loss_partial",
    "Verif.Contact.C72_violated"
   ],
   "note": "Violated: messages on their way to a user who resets are lost. Proved: order, authenticity and uniqueness for all behaviours; completeness for polite users towards one who has not reset."
  },
  {
   "property": "C73",
   "status": "partial",
   "theorems": [
    "Verif.Windows.C73_recipient",
    "Verif.Windows.C73_private_partial",
    "Verif.Windows.C73_group",
    "Verif.Windows.C73_me",
    "Verif.Windows.C73_nobody",
    "Verif.Windows.C73_white",
    "Verif.Windows.C73_nick_violated",
    "Verif.Windows.C73_space_violated",
    "Verif.Windows.C73_console_violated",
    "Verif.Windows.C73_group_name_violated",
    "Verif.Windows.C73_blank_violated"
   ],
   "note": "Violated: duplicate nicks, nicks with spaces, the nick console, a group of the same name, blank text. Proved: the exact recipient for plain nicks; the right one when no earlier window has the nick; groups."
  },
  {
   "property": "C74",
   "status": "partial",
   "theorems": [
    "Verif.Windows.C74_private_partial",
    "Verif.Windows.C74_group_partial",
    "Verif.Windows.C74_private_arrives",
    "Verif.Windows.C74_group_arrives",
    "Verif.Windows.C74_members",
    "Verif.Windows.C74_group_violated",
    "Verif.Windows.C74_close_violated"
   ],
   "note": "Violated: group messages shown in the window of a contact of that nick; prints queued while a window is closed. Proved: while no window is closed; every private message, and every message of a member to a group, does appear; those of others do not."
  },
  {
   "property": "C75",
   "status": "partial",
   "theorems": [
    "Verif.Windows.C75_no_crash_partial",
    "Verif.Windows.C75_close_violated",
    "Verif.Windows.C75_type_violated"
   ],
   "note": "Violated: index out of range when something is printed or typed right after the last window was closed. Proved: when commands are given while nothing is queued."
  },
  {
   "property": "C76",
   "status": "partial",
   "theorems": [
    "Verif.Windows.C76_restore_partial",
    "Verif.Windows.C76_nick_violated",
    "Verif.Windows.C76_group_violated"
   ],
   "note": "Violated: windows are found again by nick only. Proved: when nicks identify them."
  },
  {
   "property": "C77",
   "status": "partial",
   "theorems": [
    "Verif.Windows.C77_restart_partial",
    "Verif.Windows.C77_restart_violated"
   ],
   "note": "Violated: two contacts of the same nick may be exchanged. Proved: when every nick was free when it came, for every order of the directory."
  },
  {
   "property": "C78",
   "status": "partial",
   "theorems": [
    "Verif.ChatLog.C78_contacts_separate",
    "Verif.ChatLog.C78_groups_contacts_separate",
    "Verif.ChatLog.C78_appended",
    "Verif.ChatLog.C78_inside_partial",
    "Verif.ChatLog.C78_groups_separate_partial",
    "Verif.ChatLog.C78_inside_violated",
    "Verif.ChatLog.C78_groups_violated"
   ],
   "note": "Violated: logs outside of the directory, two groups with one log. Proved: separation of contacts from each other and from groups for all nicks; the rest for names without slashes."
  },
  {
   "property": "C79",
   "status": "partial",
   "theorems": [
    "Verif.Mention.C79_ascii_partial",
    "Verif.Mention.C79_rune",
    "Verif.Mention.C79_upper",
    "Verif.Mention.C79_utf8_partial",
    "Verif.Mention.C79_crash_violated",
    "Verif.Mention.C79_place_violated"
   ],
   "note": "Violated: for every ASCII nick a message that crashes the client, and valid text that is marked in the wrong place. Proved: ASCII, and UTF-8 whose characters take as many bytes in upper case."
  },
  {
   "property": "C80",
   "status": "partial",
   "theorems": [
    "Verif.Enrol.C80_key_partial",
    "Verif.Enrol.C80_cert_partial",
    "Verif.Enrol.C80_pin_partial",
    "Verif.Enrol.C80_shown",
    "Verif.Enrol.C80_fingerprint_violated",
    "Verif.Enrol.C80_retry_violated",
    "Verif.Enrol.C80_import_violated"
   ],
   "note": "Violated: the fingerprint shown is not computed from the key; an attempt after a failed one does not ask; the certificate of an imported server is not checked when an account is made. Proved: every key exchange is for a key that was accepted; certificates when the user was asked; a client with an account stays with its server and certificate."
  },
  {
   "property": "C81",
   "status": "partial",
   "theorems": [
    "Verif.Enrol.C81_kept",
    "Verif.Enrol.C81_import",
    "Verif.Enrol.C81_saved_partial",
    "Verif.Enrol.C81_lost_violated",
    "Verif.Enrol.C81_stuck_violated",
    "Verif.Enrol.C81_import_violated"
   ],
   "note": "Violated: an account made but not saved is lost for good; retrying is refused forever; importing another server over an account. Proved: what is saved is kept and, with servers that stick to the protocol, has an account."
  },
  {
   "property": "C82",
   "status": "partial",
   "theorems": [
    "Verif.Records.C82_server",
    "Verif.Records.C82_client",
    "Verif.Records.C82_whole",
    "Verif.Records.C82_imported",
    "Verif.Records.C82_asks",
    "Verif.Records.C82_forced_partial",
    "Verif.Records.C82_replace_partial",
    "Verif.Records.C82_forced_violated",
    "Verif.Records.C82_import_violated",
    "Verif.Records.C82_import_works_violated",
    "Verif.Records.C82_import_never_violated"
   ],
   "note": "Violated: a client without account can never be imported into a server; a forced import of a server keeps the identity made for the old one. Proved: the format, from the bytes of the file to what the client reads when it starts."
  },
  {
   "property": "C83",
   "status": "proved",
   "theorems": [
    "Verif.Records.C83_saved"
   ],
   "note": "From the values to the text of the file and back, through XDR, base64 and the INI file, for all values that fit."
  },
  {
   "property": "C84",
   "status": "partial",
   "theorems": [
    "Verif.BlobKeys.C84_kept_partial",
    "Verif.BlobKeys.C84_tried_partial",
    "Verif.BlobKeys.C84_saves",
    "Verif.BlobKeys.C84_update_violated",
    "Verif.BlobKeys.C84_emptied_violated",
    "Verif.BlobKeys.C84_unsaved_violated",
    "Verif.BlobKeys.C84_crash_violated",
    "Verif.BlobKeys.C84_expiry_violated"
   ],
   "note": "Violated by two goroutines at once (lost update, emptied file, success without saving), by a kill between the renames, and keys never expire. Proved: with calls one at a time every saved key is kept and tried."
  },
  {
   "property": "C85",
   "status": "partial",
   "theorems": [
    "Verif.PinContact.C85_agree_partial",
    "Verif.PinContact.C85_yes_partial",
    "Verif.PinContact.C85_offer",
    "Verif.PinContact.C85_keys",
    "Verif.PinContact.C85_sealed",
    "Verif.PinContact.C85_drains",
    "Verif.PinContact.C85_crossing_violated",
    "Verif.PinContact.C85_directory_violated",
    "Verif.PinContact.C85_reset_violated"
   ],
   "note": "Violated when both say yes to each other, with any server that has a directory, and by a reset without one; never to be repaired, as is proved. Proved: without a directory, with one attempt at a time, yes leads to contacts whatever the order of events. At most 2^32 messages."
  },
  {
   "property": "C86",
   "status": "partial",
   "theorems": [
    "Verif.Intro.C86_filed",
    "Verif.Intro.C86_stable",
    "Verif.Intro.C86_origin_partial",
    "Verif.Intro.C86_genuine_partial",
    "Verif.Intro.C86_needs_pin",
    "Verif.Intro.C86_ratchet",
    "Verif.Intro.C86_claim_violated",
    "Verif.Intro.C86_reuse_violated",
    "Verif.Intro.C86_replace_violated",
    "Verif.Intro.C86_anyone_violated",
    "Verif.Intro.C86_found_violated",
    "Verif.Intro.C86_server_violated",
    "Verif.Intro.C86_restart_violated"
   ],
   "note": "Violated: identities are believed. Neither the sender nor the hash of the key is compared with the identity in an offer, and whatever the server says that it looked up is taken, directory or not. Proved: why each entry is there, that it is genuine if those with a PIN and the fingerprints agreed to are and the server makes up nobody, and that the key stays while there is a ratchet."
  },
  {
   "property": "C87",
   "status": "partial",
   "theorems": [
    "Verif.Handshake.C87_rest_partial",
    "Verif.Handshake.C87_completes_partial",
    "Verif.Handshake.C87_live_partial",
    "Verif.Handshake.C87_ends",
    "Verif.Handshake.C87_answer_violated",
    "Verif.Handshake.C87_overtaken_violated",
    "Verif.Handshake.C87_offer_violated",
    "Verif.Handshake.C87_mismatch_violated",
    "Verif.Handshake.C87_lost_violated"
   ],
   "note": "Violated in four windows between two steps, one of which needs nobody to be killed. Proved: outside of them all kills and interleavings end with contacts, or with nothing and a further attempt possible."
  },
  {
   "property": "C88",
   "status": "partial",
   "theorems": [
    "Verif.Settings.C88_obeyed_partial",
    "Verif.Settings.C88_accepted",
    "Verif.Settings.C88_closed",
    "Verif.Settings.C88_reason",
    "Verif.Settings.C88_size_violated",
    "Verif.Settings.C88_tilde_violated",
    "Verif.Settings.C88_root_violated"
   ],
   "note": "Violated: maxmsgsize is never read, a ~ within a path is replaced, root does not move what is under it. Proved for all other settings; which files are taken and what errors say is exact."
  },
  {
   "property": "C89",
   "status": "partial",
   "theorems": [
    "Verif.Settings.C89_obeyed",
    "Verif.Settings.C89_named",
    "Verif.Settings.C89_first",
    "Verif.Settings.C89_faulty_violated",
    "Verif.Settings.C89_none_violated",
    "Verif.Settings.C89_root_violated",
    "Verif.Settings.C89_shipped"
   ],
   "note": "Exact for files in order and for all files not under the default name. Violated for faulty files under the default name, for the documented attribute none, and for the log when root is set."
  },
  {
   "property": "C90",
   "status": "partial",
   "theorems": [
    "Verif.Startup.C90_kept_partial",
    "Verif.Startup.C90_control_partial",
    "Verif.Startup.C90_starts_partial",
    "Verif.Startup.C90_read_violated",
    "Verif.Startup.C90_race_violated",
    "Verif.Startup.C90_cut_violated",
    "Verif.Startup.C90_torn_violated",
    "Verif.Startup.C90_control_violated"
   ],
   "note": "Violated by a read that fails, by two servers started together, by a kill within the write of the identity, and by a second server started by mistake. Proved for one server at a time, with kills anywhere."
  },
  {
   "property": "C91",
   "status": "partial",
   "theorems": [
    "Verif.Reconnect.C91_stays_partial",
    "Verif.Reconnect.C91_exact",
    "Verif.Reconnect.C91_unheard",
    "Verif.Reconnect.C91_waiting_violated",
    "Verif.Reconnect.C91_ignored_violated"
   ],
   "note": "Violated shortly after the client reconnected by itself, and while it waits to do so. Proved exactly: an online client stays offline if and only if no goroutine is past its last look at the flag."
  },
  {
   "property": "C92",
   "status": "partial",
   "theorems": [
    "Verif.Reconnect.C92_back_partial",
    "Verif.Reconnect.C92_start_violated",
    "Verif.Reconnect.C92_online_violated",
    "Verif.Reconnect.C92_full_violated",
    "Verif.Reconnect.C92_leak_violated"
   ],
   "note": "Violated for first connections and for /online: an attempt that fails is not repeated; goroutines can be left behind without bound. Proved for connections that are lost."
  },
  {
   "property": "C93",
   "status": "partial",
   "theorems": [
    "Verif.Reconnect.C93_held_partial",
    "Verif.Reconnect.C93_send_violated",
    "Verif.Reconnect.C93_greet_violated"
   ],
   "note": "Violated: a connection lost while a message is sent, or right after the welcome, crashes the client. Proved if connections are not lost in these moments."
  },
  {
   "property": "C94",
   "status": "partial",
   "theorems": [
    "Verif.Reconnect.C94_pinned",
    "Verif.Reconnect.C94_kept",
    "Verif.Reconnect.C94_shown_partial",
    "Verif.Reconnect.C94_shown_violated"
   ],
   "note": "That only the certificate on record is talked to, and when it changes, is proved in full. Violated: that what is accepted was printed before; proved if no goroutine is about to print."
  },
  {
   "property": "C95",
   "status": "partial",
   "theorems": [
    "Verif.Flow.C95_answered_partial",
    "Verif.Flow.C95_waiting_violated",
    "Verif.Flow.C95_exact"
   ],
   "note": "Violated when the connection holds few messages. Proved exactly: it holds if and only if the connection holds at least tags - 3 messages in both directions together."
  },
  {
   "property": "C96",
   "status": "partial",
   "theorems": [
    "Verif.Locks.C96_answers_partial",
    "Verif.Locks.C96_silent_partial",
    "Verif.Locks.C96_exact",
    "Verif.Locks.C96_exclusive",
    "Verif.Locks.C96_silent_violated",
    "Verif.Locks.C96_queue_violated"
   ],
   "note": "Violated when a server accepts the connection and then says nothing. Proved in full for servers that answer, and for silent servers unless the client is going online; exactly goOnline can stop the screen. That the queue of the screen is unbounded is assumed; with any bound a violation is proved."
  },
  {
   "property": "C97",
   "status": "proved",
   "theorems": [
    "Verif.Locks.C97_served",
    "Verif.Locks.C97_free"
   ],
   "note": "For all goroutines built of the parts of the server's code that take locks."
  },
  {
   "property": "C98",
   "status": "partial",
   "theorems": [
    "Verif.Commands.C98_obeyed_partial",
    "Verif.Commands.C98_asked",
    "Verif.Commands.C98_helped",
    "Verif.Commands.C98_desc_violated",
    "Verif.Commands.C98_update_violated",
    "Verif.Commands.C98_message_violated"
   ],
   "note": "Violated by /send with a description equal to the file name, and by two group commands the help names but the client refuses. Proved for all others; that nothing is done which was not asked for is proved in full."
  },
  {
   "property": "C99",
   "status": "partial",
   "theorems": [
    "Verif.Commands.C99_kept_partial",
    "Verif.Commands.C99_shown",
    "Verif.Commands.C99_back",
    "Verif.Commands.C99_entered",
    "Verif.Commands.C99_off",
    "Verif.Commands.C99_torn_violated"
   ],
   "note": "Violated when a line reaches the file only in part. Moving in the history is proved in full; that nothing is lost over restarts if every line reaches the file whole, has no newline inside and does not end in a carriage return."
  }
 ]
}