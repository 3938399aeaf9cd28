C06 | proved | C06_head_names C06_update_touches_one_peer C06_peer_listing C06_addr |
C07 | proved | C07_autocrypt_timestamp_monotone |
C08 | proved | C08_newest_key_wins C08_order_irrelevant C08_messages C08_messages_order |
C09 | proved | C09_older_changes_nothing C09_message |
C10 | proved | C10_no_key_no_change C10_last_seen_is_maximum C10_message |
C11 | proved | C11_timestamps_ordered |
C12 | partial | C12_refuted C12_last_seen_monotone_partial | False of the code; the partial theorem gives the exact condition under which last_seen drops.
C13 | proved | C13_gossip_keeps_direct_key C13_message |
C14 | partial | C14_refuted C14_newest_gossip_partial | False of the code: gossip is ordered by arrival, not by date.
C15 | partial | C15_refuted_failed_import C15_refuted_future_date C15_refuted_no_key C15_mail_partial C15_encrypted_partial C15_reprocessing_partial C15_reprocessing_gossip_partial C15_no_key_twice_partial | False for failed imports, future-dated mail and mail without key.
C16 | partial | C16_known_message_skipped_partial C16_refuted | Nothing is changed and nothing is run for any known message. False that None is returned if mktime raises OverflowError for the Date, which isn't caught.
C17 | partial | C17_refuted C17_new_messages_processed_partial | False for messages without Message-Id.
C18 | proved | C18_incoming_date C18_import_date C18_no_future_dates | Calls of update_from_msg with a date given directly by the caller are excluded, as in the statement.
C19 | partial | C19_refuted C19_failed_import_partial | False of the code: a failed import hides a usable direct key.
C20 | proved | C20_logs_grow C20_scope C20_scope_result |
C21 | proved | C21_direct_key_origin |
C22 | proved | C22_gossip_origin |
C23 | partial | C23_refuted C23_no_outer_gossip_partial | False of the code: outer headers are merged before gossip is read.
C24 | partial | C24_refuted C24_parse_error C24_autocrypt_partial C24_gossip_partial | False of the code: IndexError, TypeError and AssertionError are reachable.
C25 | proved | C25_round_trip |
C26 | proved | C26_folding |
C27 | proved | C27_parse_iff C27_no_error |
C28 | proved | C28_non_critical C28_critical |
C29 | partial | C29_refuted C29_several_partial | False of the code if another header has an attribute without a name (IndexError); proved for all other lists of headers.
C30 | proved | C30_single_peer |
C31 | proved | C31_weakest C31_set_of_addresses |
C32 | proved | C32_always_computable |
C33 | proved | C33_yes_encrypts |
C34 | proved | C34_no_is_obeyed |
C35 | proved | C35_no_control_header |
C36 | partial | C36_existing_kept C36_added_partial C36_other_headers C36_refuted | False for sender addresses with a semicolon in a quoted local part: the added header does not parse. Proved for all others.
C37 | proved | C37_recipients C37_outgoing |
C38 | proved | C38_no_key C38_outgoing |
C39 | partial | C39_gossip_partial C39_refuted | False for addresses with a semicolon in a quoted local part: the gossip header does not parse. Proved for all others.
C40 | proved | C40_shape |
C41 | proved | C41_written_back C41_round_trip | The hypotheses about gpg and serialisation are those of the statement. C41_round_trip also says how the gossip headers are read, for addresses as in C39.
C42 | proved | C42_passed_through |
C43 | proved | C43_reads C43_lookup |
C44 | proved | C44_exists |
C45 | proved | C45_added |
C46 | partial | C46_failed_partial C46_refuted | False for lookups by address and for incoming mail, which fail after a failed creation. Proved for lookup by name and for what is stored.
C47 | partial | C47_modified_partial C47_refuted | False for the key handle, which is accepted and ignored. Proved for all other settings.
C48 | partial | C48_deleted_partial C48_refuted | Out-of-band verifications of a deleted account, with their keys, remain. Proved for settings, keys and peers.
C49 | partial | C49_sound C49_lookup_partial C49_total C49_refuted | False if some account has an invalid pattern, which is accepted at creation: lookups raise. Proved if all patterns are valid.
C50 | partial | C50_sound C50_routing_partial C50_refuted | As for C46 and C49: half-created accounts and invalid patterns make the lookup raise. Proved without these.
C51 | proved | C51_listed C51_sorted C51_stays C51_source C51_deleted | A creation that failed because the name was in use is not counted as failed.
C52 | proved | C52_once |
C53 | proved | C53_isolated |
C54 | proved | C54_append_only |
C55 | partial | C55_imported_partial C55_running_partial C55_refuted | False if the clock shows the same time twice and another key was recorded at that time in between. Proved if the import is later than all recorded keys, and for all histories if each reading of the clock is later than the one before.
C56 | proved | C56_latest C56_kept C56_recorded C56_source |
C57 | partial | C57_failure_partial C57_calls C57_incoming C57_export C57_refuted | False if gpg's output is not utf-8: UnicodeDecodeError instead of InvocationFailure. Processing of incoming mail catches failed imports of keys; C57_incoming says that it catches nothing else and that they show in the result.
C58 | partial | C58_removed_partial C58_verify_partial C58_commands_partial C58_refuted | a file which was made but could not be written is left (the write is outside of the try); for every other one the removal is tried (it can fail)
C59 | proved | C59_match C59_refl_symm | An empty id only matches an empty id (C59_match_partial, C59_refuted).
C60 | partial | C60_search C60_none C60_handle_partial C60_fails C60_refuted | A listed id shorter than the one in the message is accepted as well, if it is a suffix of it.
C61 | partial | C61_listing_partial C61_orphan C61_refuted | A user id field in the key line itself is attached to that key as well.
C01 | proved | C01_refinement C01_history C01_api C01_interrupted | Assumes a serializer which can be read back and no hash collision during the history; both are stated as hypotheses.
C02 | proved | C02_blocks C02_heads | Same hypotheses as C01.
C03 | partial | C03_crash_partial C03_torn_heads C03_refuted C03_refuted_shared | False of the code: the heads file is rewritten in place, so every append has a crash point after which no chain can be read; a shared block file can be torn as well. Proved: without hash collision every crash leaves the state before or after the append, or a torn heads file, on which reads raise, or a torn file of a block which existed before with the same content, time and parent.
C04 | partial | C04_serial_partial C04_visible_partial C04_refuted | False of the code: a process writes back the heads it has read before and so drops the append of another one. Proved if no other write of the heads file happens between the start of a call and its own write.
C05 | proved | C05_sound C05_calls | Whole-file reads and writes are atomic, as the claim says; no hash collision.
C62 | proved | C62_once C62_stable C62_assigned C62_refuted_reentrant | For properties which do not depend on themselves; a function which reads its own property is called twice.
C65 | proved | C65_sections C65_restored | Traceback texts are arbitrary.
C66 | proved | C66_truncated |
C67 | partial | C67_unmodified C67_matching C67_bounced_partial C67_refuted | False of the code: a half-created account makes the lookup fail also for senders of another account. Proved without half-created accounts.
C68 | proved | C68_file C68_scan C68_nothing_due | Reading and parsing files is outside the model; a file is given by its modification time and message.
C69 | partial | C69_found_partial C69_refuted | False of the code: 'found' is also reported if both timestamps are 0, as for a first message without Date and key.
C70 | partial | C70_unconfirmed C70_destroyed_partial C70_again C70_refuted | False in a corner: peers stored by an account object in a directory which isn't initialised are not removed. Proved for accounts and settings, and for peers if the directory is initialised or has any account.
C71 | proved | C71_decision |
C73 | partial | C73_modified_partial C73_refuted | False of the code: without --gpgbin the program is reset to gpg, and --use-key is ignored. Proved for the other options.
C74 | proved | C74_commands |
C72 | proved | C72_home C72_others C125_commands | C72_home for calls; for commands C125_commands
C63 | partial | C63_partial C63_refuted | Proved: a reply is sent only if the address to which the message was delivered is a substring of the first To header. Missing: the address needn't be one of the To addresses, since the code tests for a substring (C63_refuted: mail to robot@x.org delivered to bot@x.org is answered).
C64 | partial | C64_partial C64_smtp C64_fields C64_refuted | Proved: From, To, Cc, Subject, In-Reply-To of every reply, the names of all its fields, encryption exactly by the recommendation for the sender in the state after processing the mail, recipients of the SMTP transaction. Missing: the bot can be among the recipients, if it is the sender of the mail or if its address appears in other case (C64_refuted).
C75 | proved | C75_unknown_value C75_accepted_values |
C76 | proved | C76_one_sender |
C77 | proved | C77_newer_key |
C78 | proved | C78_no_failure_ignored C78_incoming C78_commands C78_incoming_commands |
C79 | proved | C79_key_exchange |
C80 | proved | C80_mutual_encrypts |
C81 | proved | C81_gossip_recorded |
C82 | proved | C82_gossip_exchange |
C83 | proved | C83_process_outgoing C83_sendmail |
C84 | proved | C84_find_account C84_make_header C84_recommend |
C85 | proved | C85_export_public C85_export_secret |
C86 | partial | C86_peerstate_partial C86_refuted | false of the code: the line last_ac_msg shows the id of the newest message even if that message has no key; all other lines are as claimed
C87 | proved | C87_add C87_mod C87_del C87_import |
C88 | proved | C88_unknown C88_exists |
C89 | partial | C89_account_partial C89_status_partial C89_refuted | false of the code: a peer known only by gossip is listed as last-was-autocrypt, as is one whose newest message without a key has the date of the newest key; described for peers with another date, and addresses in normal form
C90 | proved | C90_keys |
C91 | proved | C91_state |
C92 | proved | C92_sign C92_verify |
C93 | proved | C93_minimize |
C94 | proved | C94_export C94_encrypt C94_decrypt C94_generate C94_account C92_sign C125_calls C125_commands C125_sign | C94_* for calls which succeed, C125_* for all
C95 | partial | C95_packets_partial C95_listed C95_eddsa C95_refuted | false of the code: a line which begins with ':' but is no first line of a packet is dropped; all other lines are returned
C96 | partial | C96_interrupted_partial C96_refuted C96_refuted_failure | false of the code: the message is recorded before it is decrypted, and skipped as known when it is processed again, so its gossip is lost. Proved: what is stored is a part of what complete processing stores; either nothing is recorded yet or only gossip is missing.
C97 | partial | C97_call_partial C97_commands_partial C97_torn C97_refuted C97_refuted_commands C03_refuted_shared | false of the code, for every call which changes the store: the heads file is rewritten in place. Proved: otherwise the next process reads the state after some of the operations, or a block file which existed before is torn. After an interrupted remove_all or destroy-all it reads the newest parts of the logs, or none.
C98 | proved | C98_process_incoming |
C99 | proved | C99_scandir |
C100 | proved | C100_result |
C101 | proved | C101_drawn C101_total | 
C102 | partial | C102_keys_partial C102_parts C102_recognised C102_refuted | false of the code: a key named without a user id gets the one of the key before, and a key named right after it is lost. Proved: the keys returned are named by lines, in order; if each line with a key is followed by one with a user id then the whole statement holds.
C103 | proved | C103_report | the keys listed are those of C102
C104 | proved | C104_program C125_commands |
C105 | proved | C105_compare C105_none C105_loopback C105_unattended C105_agent | python's int is assumed to read the usual notation of numbers
C106 | partial | C106_found C106_none C106_account C106_direct_partial C106_refuted | false of the code: a relative path with separators is looked up below the directories of PATH, not used directly. Proved for absolute paths; names without separators as stated.
C107 | proved | C107_peers C107_own C107_encrypted C107_outgoing |
C108 | proved | C108_search C108_search_damaged C108_getters C108_length C108_contains C108_last_parent C108_dump | the serializer is assumed to read back what it wrote
C109 | partial | C109_whole_partial C109_calls_partial C109_refuted | false if two processes write the same file in pieces at the same time; proved if a process which writes a file in pieces is the only one which has it open; no hash collision, the serializer rejects truncated data and ignores what follows complete data, reading a file is one step, no process dies (see C112)
C110 | proved | C110_lower C110_strip C110_removeSpace C110_split C110_split1 C110_splitlines C110_join C110_parts C110_sorted C110_number C110_base64 C110_base64_decode C110_ascii C110_get_all C110_get C110_change C110_content_type | the functions of python's library as the model defines them, compared with separate descriptions; letters outside ASCII in header names are not changed by lower()
C111 | proved | C111_reads C111_kept C111_again C111_after | assumes no hash collision and, for programs afterwards, that no block with the name of a removed one is written
C112 | partial | C112_whole_partial C112_calls_partial C112_refuted C112_refuted_block | false if the process dies with the heads file open, or with a block file open which had been written before; proved for all other moments, with the assumptions of C109
C113 | proved | C113_calls C113_commands C113_words | the first command word counts; gpg itself is not modelled, a key handle which begins with '-' is passed to it like any other
C114 | partial | C114_encrypted C114_again_partial C114_refuted | false for ENCRYPT: no: the field is removed the first time, so the message may be encrypted the second time; proved for all other messages
C115 | partial | C115_raises C115_commands C115_files_partial C115_refuted C115_refuted_unseen | false if the heads file, or a block file which existed before, was emptied and cannot be written again, and if os.path.exists cannot look at a file which exists; proved: the exception, that nothing is written afterwards, and what can be read in all other cases
C116 | proved | C116_clear C116_encrypted C116_routing C116_other_fields C116_order C116_case | plugins which use the decrypted message may see the difference, C116_encrypted excludes them
C117 | proved | C117_outgoing C117_encrypted C117_commands | for gpg whose answers to --encrypt do not depend on the content, plugins which do not use it, and messages which can be flattened
C118 | proved | C118_incoming C118_commands C118_only | plugins which use the decrypted message are excluded; bot-reply, which answers with parts of the message, is the subject of other claims
C119 | partial | C119_readers_partial C119_refuted | proved for To, Cc and the sender; false for Bcc, which is not looked at
C120 | proved | C120_remembered C120_code C120_forgotten | C120_code applies it to three programs of the code; C120_forgotten shows that what is remembered becomes wrong if the account is configured anew
C121 | proved | C121_accesses C121_recommendation C121_messages | 
C122 | partial | C122_apart_partial C122_peers_partial C122_moments_partial C122_refuted C122_refuted_recommendation C122_refuted_encryption | false of the code: nothing is locked between a check and the append which depends on it, nor between accesses. Proved if the others work on other chains; and each fact on which a recommendation to encrypt rests was true at some moment
C123 | proved | C123_yes C123_no C123_control_header C123_keys C123_plugins C123_own_header C123_store C123_runs | 
C124 | proved | C124_learned C124_known C124_runs | 
C125 | proved | C125_calls C125_commands C125_sign C125_runs | 
C126 | proved | C126_calls C126_commands C126_results C126_history | gpg itself is trusted not to write secret keys elsewhere: environments may differ only in what --export-secret-key gives
C127 | proved | C127_calls C127_commands C127_results C127_history | 
C128 | proved | C128_calls C128_commands C128_results C128_killed | 
C129 | proved | C129_calls C129_commands C129_results C129_history C129_past C129_scan C129_import C129_import_recorded | 
C130 | proved | C130_two C130_all | 
C131 | proved | C131_displayable C131_shortrepr C131_failure | 
C132 | proved | C132_recommendation C132_knowledge C132_settings | 
C133 | partial | C133_updates_partial C133_mails_partial C133_in_order C133_recommendation_partial C133_refuted_late C133_refuted_gossip C133_refuted_mutual | holds if all is learned in time, e.g. in order of dates, and keys can be imported, for mails with gossip too if one mail does not gossip different keys for an address. False for mail and gossip which come late, and for the preference of a peer whose last mail had no key
C134 | partial | C134_found_partial C134_backslash C134_refuted | holds if SYSTEMROOT has no backslash; otherwise re.sub takes it as a template, and for names like C:\WINDOWS raises an exception
C135 | proved | C135_calls C135_incoming C135_import C135_no_mail C135_commands C135_killed C135_history_mails C135_history_keys | runs of gpg for --version are not counted; for an import without an address the limit by addresses is for imports which succeed
C136 | proved | C136_calls C136_commands C136_runs C136_options C136_incoming C136_ever C136_ever_commands | the program and the home of gpg on the command line are the matter of C125; a key which the user gives can be an option; stored handles can be empty when a mail has no key
C137 | proved | C137_header C137_incoming C137_encrypted C137_key_exchange | errors are compared as such, not their texts; for encrypted mail plugins must not look at the decrypted message, which has the header in it
C138 | partial | C138_people_partial C138_two_partial C138_refuted | false if the sender of a mail is itself a bot: then both answer each other without end, since no header marks the replies as automatic and no mail is refused. Holds if no address of a bot is part of the text of From. In general only two bots can go on, in turns, if no address of a bot is part of another one
C139 | proved | C139_header C139_incoming C139_encrypted | errors are compared as such, not their texts; for encrypted mail plugins must not look at the decrypted message, which has the header in it
C140 | partial | C140_key_partial C140_gossip_partial C140_recommendation_partial C140_refuted_recommendation C140_refuted_key | holds for the key if the peer sent one and the mails with the newest date agree, and for the recommendation if the peer's newest mail had a key or none had one; false if the newest mail had none but came before others, and for the key if there is only gossip
C141 | partial | C141_lasts C141_used C141_heals_partial C141_refuted | holds whenever the peer's mail is processed and not skipped as known; false if the forged mail has the same Message-Id: then the genuine mail is skipped and the forged key stays
C142 | proved | C142_kept C142_sent | gpg itself is outside: what it exports under a handle may change
C143 | proved | C143_recorded C143_encrypted | if the user imports a key without an address then the addresses are those which it names (see C55); gossip headers outside of the encrypted part count as well, see C23
C144 | partial | C144_untouched_partial C144_newer_partial C144_unreadable_partial C144_hashed_partial C144_refuted | holds for chains whose own block files and heads file are as they were, for the newer part of other chains, for files the serializer cannot read, and would hold up to missing files if hashes were compared; false of the code: replaced, missing and older files are read without notice, and a block which names itself is read forever
C145 | proved | C145_ignored C145_passed C145_alike C145_sent | the commands also look at Resent-From; C145_sent is about what they pass on
C146 | proved | C146_listed C146_run C146_main C146_replaced | click's dictionary of commands and its sorted list are part of the model
C147 | proved | C147_header C147_outgoing C147_sent C147_bot C147_lines | that python's address functions keep lines together is a hypothesis (KeepsLines), with an instance; what a plugin makes of the message is not covered
C148 | proved | C148_alike C148_incoming C148_leaving | the text of exceptions is not part of the model: that of an InvocationFailure contains what gpg wrote (see findings)
C149 | proved | C149_kept C149_recommended C149_call | that a refused key takes a known one away is C19_refuted
