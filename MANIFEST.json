{
 "claims": [
  {
   "property": "C06",
   "status": "proved",
   "theorems": [
    "Verif.C06_head_names",
    "Verif.C06_update_touches_one_peer",
    "Verif.C06_peer_listing",
    "Verif.C06_addr"
   ],
   "note": ""
  },
  {
   "property": "C07",
   "status": "proved",
   "theorems": [
    "Verif.C07_autocrypt_timestamp_monotone"
   ],
   "note": ""
  },
  {
   "property": "C08",
   "status": "proved",
   "theorems": [
    "Verif.C08_newest_key_wins",
    "Verif.C08_order_irrelevant",
    "Verif.C08_messages",
    "Verif.C08_messages_order"
   ],
   "note": ""
  },
  {
   "property": "C09",
   "status": "proved",
   "theorems": [
    "Verif.C09_older_changes_nothing",
    "Verif.C09_message"
   ],
   "note": ""
  },
  {
   "property": "C10",
   "status": "proved",
   "theorems": [
    "Verif.C10_no_key_no_change",
    "Verif.C10_last_seen_is_maximum",
    "Verif.C10_message"
   ],
   "note": ""
  },
  {
   "property": "C11",
   "status": "proved",
   "theorems": [
    "Verif.C11_timestamps_ordered"
   ],
   "note": ""
  },
  {
   "property": "C12",
   "status": "partial",
   "theorems": [
    "Verif.C12_refuted",
    "Verif.C12_last_seen_monotone_partial"
   ],
   "note": "False of the code; the partial theorem gives the exact condition under which last_seen drops."
  },
  {
   "property": "C13",
   "status": "proved",
   "theorems": [
    "Verif.C13_gossip_keeps_direct_key",
    "Verif.C13_message"
   ],
   "note": ""
  },
  {
   "property": "C14",
   "status": "partial",
   "theorems": [
    "Verif.C14_refuted",
    "Verif.C14_newest_gossip_partial"
   ],
   "note": "False of the code: gossip is ordered by arrival, not by date."
  },
  {
   "property": "C15",
   "status": "partial",
   "theorems": [
    "Verif.C15_refuted_failed_import",
    "Verif.C15_refuted_future_date",
    "Verif.C15_refuted_no_key",
    "Verif.C15_mail_partial",
    "Verif.C15_encrypted_partial",
    "Verif.C15_reprocessing_partial",
    "Verif.C15_reprocessing_gossip_partial",
    "Verif.C15_no_key_twice_partial"
   ],
   "note": "False for failed imports, future-dated mail and mail without key."
  },
  {
   "property": "C16",
   "status": "partial",
   "theorems": [
    "Verif.C16_known_message_skipped_partial",
    "Verif.C16_refuted"
   ],
   "note": "Nothing is changed and nothing is run for any known message. False that None is returned if mktime raises OverflowError for the Date, which isn't caught."
  },
  {
   "property": "C17",
   "status": "partial",
   "theorems": [
    "Verif.C17_refuted",
    "Verif.C17_new_messages_processed_partial"
   ],
   "note": "False for messages without Message-Id."
  },
  {
   "property": "C18",
   "status": "proved",
   "theorems": [
    "Verif.C18_incoming_date",
    "Verif.C18_import_date",
    "Verif.C18_no_future_dates"
   ],
   "note": "Calls of update_from_msg with a date given directly by the caller are excluded, as in the statement."
  },
  {
   "property": "C19",
   "status": "partial",
   "theorems": [
    "Verif.C19_refuted",
    "Verif.C19_failed_import_partial"
   ],
   "note": "False of the code: a failed import hides a usable direct key."
  },
  {
   "property": "C20",
   "status": "proved",
   "theorems": [
    "Verif.C20_logs_grow",
    "Verif.C20_scope",
    "Verif.C20_scope_result"
   ],
   "note": ""
  },
  {
   "property": "C21",
   "status": "proved",
   "theorems": [
    "Verif.C21_direct_key_origin"
   ],
   "note": ""
  },
  {
   "property": "C22",
   "status": "proved",
   "theorems": [
    "Verif.C22_gossip_origin"
   ],
   "note": ""
  },
  {
   "property": "C23",
   "status": "partial",
   "theorems": [
    "Verif.C23_refuted",
    "Verif.C23_no_outer_gossip_partial"
   ],
   "note": "False of the code: outer headers are merged before gossip is read."
  },
  {
   "property": "C24",
   "status": "partial",
   "theorems": [
    "Verif.C24_refuted",
    "Verif.C24_parse_error",
    "Verif.C24_autocrypt_partial",
    "Verif.C24_gossip_partial"
   ],
   "note": "False of the code: IndexError, TypeError and AssertionError are reachable."
  },
  {
   "property": "C25",
   "status": "proved",
   "theorems": [
    "Verif.C25_round_trip"
   ],
   "note": ""
  },
  {
   "property": "C26",
   "status": "proved",
   "theorems": [
    "Verif.C26_folding"
   ],
   "note": ""
  },
  {
   "property": "C27",
   "status": "proved",
   "theorems": [
    "Verif.C27_parse_iff",
    "Verif.C27_no_error"
   ],
   "note": ""
  },
  {
   "property": "C28",
   "status": "proved",
   "theorems": [
    "Verif.C28_non_critical",
    "Verif.C28_critical"
   ],
   "note": ""
  },
  {
   "property": "C29",
   "status": "partial",
   "theorems": [
    "Verif.C29_refuted",
    "Verif.C29_several_partial"
   ],
   "note": "False of the code if another header has an attribute without a name (IndexError); proved for all other lists of headers."
  },
  {
   "property": "C30",
   "status": "proved",
   "theorems": [
    "Verif.C30_single_peer"
   ],
   "note": ""
  },
  {
   "property": "C31",
   "status": "proved",
   "theorems": [
    "Verif.C31_weakest",
    "Verif.C31_set_of_addresses"
   ],
   "note": ""
  },
  {
   "property": "C32",
   "status": "proved",
   "theorems": [
    "Verif.C32_always_computable"
   ],
   "note": ""
  },
  {
   "property": "C33",
   "status": "proved",
   "theorems": [
    "Verif.C33_yes_encrypts"
   ],
   "note": ""
  },
  {
   "property": "C34",
   "status": "proved",
   "theorems": [
    "Verif.C34_no_is_obeyed"
   ],
   "note": ""
  },
  {
   "property": "C35",
   "status": "proved",
   "theorems": [
    "Verif.C35_no_control_header"
   ],
   "note": ""
  },
  {
   "property": "C36",
   "status": "partial",
   "theorems": [
    "Verif.C36_existing_kept",
    "Verif.C36_added_partial",
    "Verif.C36_other_headers",
    "Verif.C36_refuted"
   ],
   "note": "False for sender addresses with a semicolon in a quoted local part: the added header does not parse. Proved for all others."
  },
  {
   "property": "C37",
   "status": "proved",
   "theorems": [
    "Verif.C37_recipients",
    "Verif.C37_outgoing"
   ],
   "note": ""
  },
  {
   "property": "C38",
   "status": "proved",
   "theorems": [
    "Verif.C38_no_key",
    "Verif.C38_outgoing"
   ],
   "note": ""
  },
  {
   "property": "C39",
   "status": "partial",
   "theorems": [
    "Verif.C39_gossip_partial",
    "Verif.C39_refuted"
   ],
   "note": "False for addresses with a semicolon in a quoted local part: the gossip header does not parse. Proved for all others."
  },
  {
   "property": "C40",
   "status": "proved",
   "theorems": [
    "Verif.C40_shape"
   ],
   "note": ""
  },
  {
   "property": "C41",
   "status": "proved",
   "theorems": [
    "Verif.C41_written_back",
    "Verif.C41_round_trip"
   ],
   "note": "The hypotheses about gpg and serialisation are those of the statement. C41_round_trip also says how the gossip headers are read, for addresses as in C39."
  },
  {
   "property": "C42",
   "status": "proved",
   "theorems": [
    "Verif.C42_passed_through"
   ],
   "note": ""
  },
  {
   "property": "C43",
   "status": "proved",
   "theorems": [
    "Verif.C43_reads",
    "Verif.C43_lookup"
   ],
   "note": ""
  },
  {
   "property": "C44",
   "status": "proved",
   "theorems": [
    "Verif.C44_exists"
   ],
   "note": ""
  },
  {
   "property": "C45",
   "status": "proved",
   "theorems": [
    "Verif.C45_added"
   ],
   "note": ""
  },
  {
   "property": "C46",
   "status": "partial",
   "theorems": [
    "Verif.C46_failed_partial",
    "Verif.C46_refuted"
   ],
   "note": "False for lookups by address and for incoming mail, which fail after a failed creation. Proved for lookup by name and for what is stored."
  },
  {
   "property": "C47",
   "status": "partial",
   "theorems": [
    "Verif.C47_modified_partial",
    "Verif.C47_refuted"
   ],
   "note": "False for the key handle, which is accepted and ignored. Proved for all other settings."
  },
  {
   "property": "C48",
   "status": "partial",
   "theorems": [
    "Verif.C48_deleted_partial",
    "Verif.C48_refuted"
   ],
   "note": "Out-of-band verifications of a deleted account, with their keys, remain. Proved for settings, keys and peers."
  },
  {
   "property": "C49",
   "status": "partial",
   "theorems": [
    "Verif.C49_sound",
    "Verif.C49_lookup_partial",
    "Verif.C49_total",
    "Verif.C49_refuted"
   ],
   "note": "False if some account has an invalid pattern, which is accepted at creation: lookups raise. Proved if all patterns are valid."
  },
  {
   "property": "C50",
   "status": "partial",
   "theorems": [
    "Verif.C50_sound",
    "Verif.C50_routing_partial",
    "Verif.C50_refuted"
   ],
   "note": "As for C46 and C49: half-created accounts and invalid patterns make the lookup raise. Proved without these."
  },
  {
   "property": "C51",
   "status": "proved",
   "theorems": [
    "Verif.C51_listed",
    "Verif.C51_sorted",
    "Verif.C51_stays",
    "Verif.C51_source",
    "Verif.C51_deleted"
   ],
   "note": "A creation that failed because the name was in use is not counted as failed."
  },
  {
   "property": "C52",
   "status": "proved",
   "theorems": [
    "Verif.C52_once"
   ],
   "note": ""
  },
  {
   "property": "C53",
   "status": "proved",
   "theorems": [
    "Verif.C53_isolated"
   ],
   "note": ""
  },
  {
   "property": "C54",
   "status": "proved",
   "theorems": [
    "Verif.C54_append_only"
   ],
   "note": ""
  },
  {
   "property": "C55",
   "status": "partial",
   "theorems": [
    "Verif.C55_imported_partial",
    "Verif.C55_running_partial",
    "Verif.C55_refuted"
   ],
   "note": "False if the clock shows the same time twice and another key was recorded at that time in between. Proved if the import is later than all recorded keys, and for all histories if each reading of the clock is later than the one before."
  },
  {
   "property": "C56",
   "status": "proved",
   "theorems": [
    "Verif.C56_latest",
    "Verif.C56_kept",
    "Verif.C56_recorded",
    "Verif.C56_source"
   ],
   "note": ""
  },
  {
   "property": "C57",
   "status": "partial",
   "theorems": [
    "Verif.C57_failure_partial",
    "Verif.C57_calls",
    "Verif.C57_incoming",
    "Verif.C57_export",
    "Verif.C57_refuted"
   ],
   "note": "False if gpg's output is not utf-8: UnicodeDecodeError instead of InvocationFailure. Processing of incoming mail catches failed imports of keys; C57_incoming says that it catches nothing else and that they show in the result."
  },
  {
   "property": "C58",
   "status": "partial",
   "theorems": [
    "Verif.C58_removed_partial",
    "Verif.C58_verify_partial",
    "Verif.C58_commands_partial",
    "Verif.C58_refuted"
   ],
   "note": "a file which was made but could not be written is left (the write is outside of the try); for every other one the removal is tried (it can fail)"
  },
  {
   "property": "C59",
   "status": "proved",
   "theorems": [
    "Verif.C59_match",
    "Verif.C59_refl_symm"
   ],
   "note": "An empty id only matches an empty id (C59_match_partial, C59_refuted)."
  },
  {
   "property": "C60",
   "status": "partial",
   "theorems": [
    "Verif.C60_search",
    "Verif.C60_none",
    "Verif.C60_handle_partial",
    "Verif.C60_fails",
    "Verif.C60_refuted"
   ],
   "note": "A listed id shorter than the one in the message is accepted as well, if it is a suffix of it."
  },
  {
   "property": "C61",
   "status": "partial",
   "theorems": [
    "Verif.C61_listing_partial",
    "Verif.C61_orphan",
    "Verif.C61_refuted"
   ],
   "note": "A user id field in the key line itself is attached to that key as well."
  },
  {
   "property": "C01",
   "status": "proved",
   "theorems": [
    "Verif.C01_refinement",
    "Verif.C01_history",
    "Verif.C01_api",
    "Verif.C01_interrupted"
   ],
   "note": "Assumes a serializer which can be read back and no hash collision during the history; both are stated as hypotheses."
  },
  {
   "property": "C02",
   "status": "proved",
   "theorems": [
    "Verif.C02_blocks",
    "Verif.C02_heads"
   ],
   "note": "Same hypotheses as C01."
  },
  {
   "property": "C03",
   "status": "partial",
   "theorems": [
    "Verif.C03_crash_partial",
    "Verif.C03_torn_heads",
    "Verif.C03_refuted",
    "Verif.C03_refuted_shared"
   ],
   "note": "False of the code: the heads file is rewritten in place, so every append has a crash point after which no chain can be read; a shared block file can be torn as well. Proved: without hash collision every crash leaves the state before or after the append, or a torn heads file, on which reads raise, or a torn file of a block which existed before with the same content, time and parent."
  },
  {
   "property": "C04",
   "status": "partial",
   "theorems": [
    "Verif.C04_serial_partial",
    "Verif.C04_visible_partial",
    "Verif.C04_refuted"
   ],
   "note": "False of the code: a process writes back the heads it has read before and so drops the append of another one. Proved if no other write of the heads file happens between the start of a call and its own write."
  },
  {
   "property": "C05",
   "status": "proved",
   "theorems": [
    "Verif.C05_sound",
    "Verif.C05_calls"
   ],
   "note": "Whole-file reads and writes are atomic, as the claim says; no hash collision."
  },
  {
   "property": "C62",
   "status": "proved",
   "theorems": [
    "Verif.C62_once",
    "Verif.C62_stable",
    "Verif.C62_assigned",
    "Verif.C62_refuted_reentrant"
   ],
   "note": "For properties which do not depend on themselves; a function which reads its own property is called twice."
  },
  {
   "property": "C65",
   "status": "proved",
   "theorems": [
    "Verif.C65_sections",
    "Verif.C65_restored"
   ],
   "note": "Traceback texts are arbitrary."
  },
  {
   "property": "C66",
   "status": "proved",
   "theorems": [
    "Verif.C66_truncated"
   ],
   "note": ""
  },
  {
   "property": "C67",
   "status": "partial",
   "theorems": [
    "Verif.C67_unmodified",
    "Verif.C67_matching",
    "Verif.C67_bounced_partial",
    "Verif.C67_refuted"
   ],
   "note": "False of the code: a half-created account makes the lookup fail also for senders of another account. Proved without half-created accounts."
  },
  {
   "property": "C68",
   "status": "proved",
   "theorems": [
    "Verif.C68_file",
    "Verif.C68_scan",
    "Verif.C68_nothing_due"
   ],
   "note": "Reading and parsing files is outside the model; a file is given by its modification time and message."
  },
  {
   "property": "C69",
   "status": "partial",
   "theorems": [
    "Verif.C69_found_partial",
    "Verif.C69_refuted"
   ],
   "note": "False of the code: 'found' is also reported if both timestamps are 0, as for a first message without Date and key."
  },
  {
   "property": "C70",
   "status": "partial",
   "theorems": [
    "Verif.C70_unconfirmed",
    "Verif.C70_destroyed_partial",
    "Verif.C70_again",
    "Verif.C70_refuted"
   ],
   "note": "False in a corner: peers stored by an account object in a directory which isn't initialised are not removed. Proved for accounts and settings, and for peers if the directory is initialised or has any account."
  },
  {
   "property": "C71",
   "status": "proved",
   "theorems": [
    "Verif.C71_decision"
   ],
   "note": ""
  },
  {
   "property": "C73",
   "status": "partial",
   "theorems": [
    "Verif.C73_modified_partial",
    "Verif.C73_refuted"
   ],
   "note": "False of the code: without --gpgbin the program is reset to gpg, and --use-key is ignored. Proved for the other options."
  },
  {
   "property": "C74",
   "status": "proved",
   "theorems": [
    "Verif.C74_commands"
   ],
   "note": ""
  },
  {
   "property": "C72",
   "status": "proved",
   "theorems": [
    "Verif.C72_home",
    "Verif.C72_others",
    "Verif.C125_commands"
   ],
   "note": "C72_home for calls; for commands C125_commands"
  },
  {
   "property": "C63",
   "status": "partial",
   "theorems": [
    "Verif.C63_partial",
    "Verif.C63_refuted"
   ],
   "note": "Proved: a reply is sent only if the address to which the message was delivered is a substring of the first To header. Missing: the address needn't be one of the To addresses, since the code tests for a substring (C63_refuted: mail to robot@x.org delivered to bot@x.org is answered)."
  },
  {
   "property": "C64",
   "status": "partial",
   "theorems": [
    "Verif.C64_partial",
    "Verif.C64_smtp",
    "Verif.C64_fields",
    "Verif.C64_refuted"
   ],
   "note": "Proved: From, To, Cc, Subject, In-Reply-To of every reply, the names of all its fields, encryption exactly by the recommendation for the sender in the state after processing the mail, recipients of the SMTP transaction. Missing: the bot can be among the recipients, if it is the sender of the mail or if its address appears in other case (C64_refuted)."
  },
  {
   "property": "C75",
   "status": "proved",
   "theorems": [
    "Verif.C75_unknown_value",
    "Verif.C75_accepted_values"
   ],
   "note": ""
  },
  {
   "property": "C76",
   "status": "proved",
   "theorems": [
    "Verif.C76_one_sender"
   ],
   "note": ""
  },
  {
   "property": "C77",
   "status": "proved",
   "theorems": [
    "Verif.C77_newer_key"
   ],
   "note": ""
  },
  {
   "property": "C78",
   "status": "proved",
   "theorems": [
    "Verif.C78_no_failure_ignored",
    "Verif.C78_incoming",
    "Verif.C78_commands",
    "Verif.C78_incoming_commands"
   ],
   "note": ""
  },
  {
   "property": "C79",
   "status": "proved",
   "theorems": [
    "Verif.C79_key_exchange"
   ],
   "note": ""
  },
  {
   "property": "C80",
   "status": "proved",
   "theorems": [
    "Verif.C80_mutual_encrypts"
   ],
   "note": ""
  },
  {
   "property": "C81",
   "status": "proved",
   "theorems": [
    "Verif.C81_gossip_recorded"
   ],
   "note": ""
  },
  {
   "property": "C82",
   "status": "proved",
   "theorems": [
    "Verif.C82_gossip_exchange"
   ],
   "note": ""
  },
  {
   "property": "C83",
   "status": "proved",
   "theorems": [
    "Verif.C83_process_outgoing",
    "Verif.C83_sendmail"
   ],
   "note": ""
  },
  {
   "property": "C84",
   "status": "proved",
   "theorems": [
    "Verif.C84_find_account",
    "Verif.C84_make_header",
    "Verif.C84_recommend"
   ],
   "note": ""
  },
  {
   "property": "C85",
   "status": "proved",
   "theorems": [
    "Verif.C85_export_public",
    "Verif.C85_export_secret"
   ],
   "note": ""
  },
  {
   "property": "C86",
   "status": "partial",
   "theorems": [
    "Verif.C86_peerstate_partial",
    "Verif.C86_refuted"
   ],
   "note": "false of the code: the line last_ac_msg shows the id of the newest message even if that message has no key; all other lines are as claimed"
  },
  {
   "property": "C87",
   "status": "proved",
   "theorems": [
    "Verif.C87_add",
    "Verif.C87_mod",
    "Verif.C87_del",
    "Verif.C87_import"
   ],
   "note": ""
  },
  {
   "property": "C88",
   "status": "proved",
   "theorems": [
    "Verif.C88_unknown",
    "Verif.C88_exists"
   ],
   "note": ""
  },
  {
   "property": "C89",
   "status": "partial",
   "theorems": [
    "Verif.C89_account_partial",
    "Verif.C89_status_partial",
    "Verif.C89_refuted"
   ],
   "note": "false of the code: a peer known only by gossip is listed as last-was-autocrypt, as is one whose newest message without a key has the date of the newest key; described for peers with another date, and addresses in normal form"
  },
  {
   "property": "C90",
   "status": "proved",
   "theorems": [
    "Verif.C90_keys"
   ],
   "note": ""
  },
  {
   "property": "C91",
   "status": "proved",
   "theorems": [
    "Verif.C91_state"
   ],
   "note": ""
  },
  {
   "property": "C92",
   "status": "proved",
   "theorems": [
    "Verif.C92_sign",
    "Verif.C92_verify"
   ],
   "note": ""
  },
  {
   "property": "C93",
   "status": "proved",
   "theorems": [
    "Verif.C93_minimize"
   ],
   "note": ""
  },
  {
   "property": "C94",
   "status": "proved",
   "theorems": [
    "Verif.C94_export",
    "Verif.C94_encrypt",
    "Verif.C94_decrypt",
    "Verif.C94_generate",
    "Verif.C94_account",
    "Verif.C92_sign",
    "Verif.C125_calls",
    "Verif.C125_commands",
    "Verif.C125_sign"
   ],
   "note": "C94_* for calls which succeed, C125_* for all"
  },
  {
   "property": "C95",
   "status": "partial",
   "theorems": [
    "Verif.C95_packets_partial",
    "Verif.C95_listed",
    "Verif.C95_eddsa",
    "Verif.C95_refuted"
   ],
   "note": "false of the code: a line which begins with ':' but is no first line of a packet is dropped; all other lines are returned"
  },
  {
   "property": "C96",
   "status": "partial",
   "theorems": [
    "Verif.C96_interrupted_partial",
    "Verif.C96_refuted",
    "Verif.C96_refuted_failure"
   ],
   "note": "false of the code: the message is recorded before it is decrypted, and skipped as known when it is processed again, so its gossip is lost. Proved: what is stored is a part of what complete processing stores; either nothing is recorded yet or only gossip is missing."
  },
  {
   "property": "C97",
   "status": "partial",
   "theorems": [
    "Verif.C97_call_partial",
    "Verif.C97_commands_partial",
    "Verif.C97_torn",
    "Verif.C97_refuted",
    "Verif.C97_refuted_commands",
    "Verif.C03_refuted_shared"
   ],
   "note": "false of the code, for every call which changes the store: the heads file is rewritten in place. Proved: otherwise the next process reads the state after some of the operations, or a block file which existed before is torn. After an interrupted remove_all or destroy-all it reads the newest parts of the logs, or none."
  },
  {
   "property": "C98",
   "status": "proved",
   "theorems": [
    "Verif.C98_process_incoming"
   ],
   "note": ""
  },
  {
   "property": "C99",
   "status": "proved",
   "theorems": [
    "Verif.C99_scandir"
   ],
   "note": ""
  },
  {
   "property": "C100",
   "status": "proved",
   "theorems": [
    "Verif.C100_result"
   ],
   "note": ""
  },
  {
   "property": "C101",
   "status": "proved",
   "theorems": [
    "Verif.C101_drawn",
    "Verif.C101_total"
   ],
   "note": ""
  },
  {
   "property": "C102",
   "status": "partial",
   "theorems": [
    "Verif.C102_keys_partial",
    "Verif.C102_parts",
    "Verif.C102_recognised",
    "Verif.C102_refuted"
   ],
   "note": "false of the code: a key named without a user id gets the one of the key before, and a key named right after it is lost. Proved: the keys returned are named by lines, in order; if each line with a key is followed by one with a user id then the whole statement holds."
  },
  {
   "property": "C103",
   "status": "proved",
   "theorems": [
    "Verif.C103_report"
   ],
   "note": "the keys listed are those of C102"
  },
  {
   "property": "C104",
   "status": "proved",
   "theorems": [
    "Verif.C104_program",
    "Verif.C125_commands"
   ],
   "note": ""
  },
  {
   "property": "C105",
   "status": "proved",
   "theorems": [
    "Verif.C105_compare",
    "Verif.C105_none",
    "Verif.C105_loopback",
    "Verif.C105_unattended",
    "Verif.C105_agent"
   ],
   "note": "python's int is assumed to read the usual notation of numbers"
  },
  {
   "property": "C106",
   "status": "partial",
   "theorems": [
    "Verif.C106_found",
    "Verif.C106_none",
    "Verif.C106_account",
    "Verif.C106_direct_partial",
    "Verif.C106_refuted"
   ],
   "note": "false of the code: a relative path with separators is looked up below the directories of PATH, not used directly. Proved for absolute paths; names without separators as stated."
  },
  {
   "property": "C107",
   "status": "proved",
   "theorems": [
    "Verif.C107_peers",
    "Verif.C107_own",
    "Verif.C107_encrypted",
    "Verif.C107_outgoing"
   ],
   "note": ""
  },
  {
   "property": "C108",
   "status": "proved",
   "theorems": [
    "Verif.C108_search",
    "Verif.C108_search_damaged",
    "Verif.C108_getters",
    "Verif.C108_length",
    "Verif.C108_contains",
    "Verif.C108_last_parent",
    "Verif.C108_dump"
   ],
   "note": "the serializer is assumed to read back what it wrote"
  },
  {
   "property": "C109",
   "status": "partial",
   "theorems": [
    "Verif.C109_whole_partial",
    "Verif.C109_calls_partial",
    "Verif.C109_refuted"
   ],
   "note": "false if two processes write the same file in pieces at the same time; proved if a process which writes a file in pieces is the only one which has it open; no hash collision, the serializer rejects truncated data and ignores what follows complete data, reading a file is one step, no process dies (see C112)"
  },
  {
   "property": "C110",
   "status": "proved",
   "theorems": [
    "Verif.C110_lower",
    "Verif.C110_strip",
    "Verif.C110_removeSpace",
    "Verif.C110_split",
    "Verif.C110_split1",
    "Verif.C110_splitlines",
    "Verif.C110_join",
    "Verif.C110_parts",
    "Verif.C110_sorted",
    "Verif.C110_number",
    "Verif.C110_base64",
    "Verif.C110_base64_decode",
    "Verif.C110_ascii",
    "Verif.C110_get_all",
    "Verif.C110_get",
    "Verif.C110_change",
    "Verif.C110_content_type"
   ],
   "note": "the functions of python's library as the model defines them, compared with separate descriptions; letters outside ASCII in header names are not changed by lower()"
  },
  {
   "property": "C111",
   "status": "proved",
   "theorems": [
    "Verif.C111_reads",
    "Verif.C111_kept",
    "Verif.C111_again",
    "Verif.C111_after"
   ],
   "note": "assumes no hash collision and, for programs afterwards, that no block with the name of a removed one is written"
  },
  {
   "property": "C112",
   "status": "partial",
   "theorems": [
    "Verif.C112_whole_partial",
    "Verif.C112_calls_partial",
    "Verif.C112_refuted",
    "Verif.C112_refuted_block"
   ],
   "note": "false if the process dies with the heads file open, or with a block file open which had been written before; proved for all other moments, with the assumptions of C109"
  },
  {
   "property": "C113",
   "status": "proved",
   "theorems": [
    "Verif.C113_calls",
    "Verif.C113_commands",
    "Verif.C113_words"
   ],
   "note": "the first command word counts; gpg itself is not modelled, a key handle which begins with '-' is passed to it like any other"
  },
  {
   "property": "C114",
   "status": "partial",
   "theorems": [
    "Verif.C114_encrypted",
    "Verif.C114_again_partial",
    "Verif.C114_refuted"
   ],
   "note": "false for ENCRYPT: no: the field is removed the first time, so the message may be encrypted the second time; proved for all other messages"
  },
  {
   "property": "C115",
   "status": "partial",
   "theorems": [
    "Verif.C115_raises",
    "Verif.C115_commands",
    "Verif.C115_files_partial",
    "Verif.C115_refuted",
    "Verif.C115_refuted_unseen"
   ],
   "note": "false if the heads file, or a block file which existed before, was emptied and cannot be written again, and if os.path.exists cannot look at a file which exists; proved: the exception, that nothing is written afterwards, and what can be read in all other cases"
  },
  {
   "property": "C116",
   "status": "proved",
   "theorems": [
    "Verif.C116_clear",
    "Verif.C116_encrypted",
    "Verif.C116_routing",
    "Verif.C116_other_fields",
    "Verif.C116_order",
    "Verif.C116_case"
   ],
   "note": "plugins which use the decrypted message may see the difference, C116_encrypted excludes them"
  },
  {
   "property": "C117",
   "status": "proved",
   "theorems": [
    "Verif.C117_outgoing",
    "Verif.C117_encrypted",
    "Verif.C117_commands"
   ],
   "note": "for gpg whose answers to --encrypt do not depend on the content, plugins which do not use it, and messages which can be flattened"
  },
  {
   "property": "C118",
   "status": "proved",
   "theorems": [
    "Verif.C118_incoming",
    "Verif.C118_commands",
    "Verif.C118_only"
   ],
   "note": "plugins which use the decrypted message are excluded; bot-reply, which answers with parts of the message, is the subject of other claims"
  },
  {
   "property": "C119",
   "status": "partial",
   "theorems": [
    "Verif.C119_readers_partial",
    "Verif.C119_refuted"
   ],
   "note": "proved for To, Cc and the sender; false for Bcc, which is not looked at"
  },
  {
   "property": "C120",
   "status": "proved",
   "theorems": [
    "Verif.C120_remembered",
    "Verif.C120_code",
    "Verif.C120_forgotten"
   ],
   "note": "C120_code applies it to three programs of the code; C120_forgotten shows that what is remembered becomes wrong if the account is configured anew"
  },
  {
   "property": "C121",
   "status": "proved",
   "theorems": [
    "Verif.C121_accesses",
    "Verif.C121_recommendation",
    "Verif.C121_messages"
   ],
   "note": ""
  },
  {
   "property": "C122",
   "status": "partial",
   "theorems": [
    "Verif.C122_apart_partial",
    "Verif.C122_peers_partial",
    "Verif.C122_moments_partial",
    "Verif.C122_refuted",
    "Verif.C122_refuted_recommendation",
    "Verif.C122_refuted_encryption"
   ],
   "note": "false of the code: nothing is locked between a check and the append which depends on it, nor between accesses. Proved if the others work on other chains; and each fact on which a recommendation to encrypt rests was true at some moment"
  },
  {
   "property": "C123",
   "status": "proved",
   "theorems": [
    "Verif.C123_yes",
    "Verif.C123_no",
    "Verif.C123_control_header",
    "Verif.C123_keys",
    "Verif.C123_plugins",
    "Verif.C123_own_header",
    "Verif.C123_store",
    "Verif.C123_runs"
   ],
   "note": ""
  },
  {
   "property": "C124",
   "status": "proved",
   "theorems": [
    "Verif.C124_learned",
    "Verif.C124_known",
    "Verif.C124_runs"
   ],
   "note": ""
  },
  {
   "property": "C125",
   "status": "proved",
   "theorems": [
    "Verif.C125_calls",
    "Verif.C125_commands",
    "Verif.C125_sign",
    "Verif.C125_runs"
   ],
   "note": ""
  },
  {
   "property": "C126",
   "status": "proved",
   "theorems": [
    "Verif.C126_calls",
    "Verif.C126_commands",
    "Verif.C126_results",
    "Verif.C126_history"
   ],
   "note": "gpg itself is trusted not to write secret keys elsewhere: environments may differ only in what --export-secret-key gives"
  },
  {
   "property": "C127",
   "status": "proved",
   "theorems": [
    "Verif.C127_calls",
    "Verif.C127_commands",
    "Verif.C127_results",
    "Verif.C127_history"
   ],
   "note": ""
  },
  {
   "property": "C128",
   "status": "proved",
   "theorems": [
    "Verif.C128_calls",
    "Verif.C128_commands",
    "Verif.C128_results",
    "Verif.C128_killed"
   ],
   "note": ""
  },
  {
   "property": "C129",
   "status": "proved",
   "theorems": [
    "Verif.C129_calls",
    "Verif.C129_commands",
    "Verif.C129_results",
    "Verif.C129_history",
    "Verif.C129_past",
    "Verif.C129_scan",
    "Verif.C129_import",
    "Verif.C129_import_recorded"
   ],
   "note": ""
  },
  {
   "property": "C130",
   "status": "proved",
   "theorems": [
    "Verif.C130_two",
    "Verif.C130_all"
   ],
   "note": ""
  },
  {
   "property": "C131",
   "status": "proved",
   "theorems": [
    "Verif.C131_displayable",
    "Verif.C131_shortrepr",
    "Verif.C131_failure"
   ],
   "note": ""
  },
  {
   "property": "C132",
   "status": "proved",
   "theorems": [
    "Verif.C132_recommendation",
    "Verif.C132_knowledge",
    "Verif.C132_settings"
   ],
   "note": ""
  },
  {
   "property": "C133",
   "status": "partial",
   "theorems": [
    "Verif.C133_updates_partial",
    "Verif.C133_mails_partial",
    "Verif.C133_in_order",
    "Verif.C133_recommendation_partial",
    "Verif.C133_refuted_late",
    "Verif.C133_refuted_gossip",
    "Verif.C133_refuted_mutual"
   ],
   "note": "holds if all is learned in time, e.g. in order of dates, and keys can be imported, for mails with gossip too if one mail does not gossip different keys for an address. False for mail and gossip which come late, and for the preference of a peer whose last mail had no key"
  },
  {
   "property": "C134",
   "status": "partial",
   "theorems": [
    "Verif.C134_found_partial",
    "Verif.C134_backslash",
    "Verif.C134_refuted"
   ],
   "note": "holds if SYSTEMROOT has no backslash; otherwise re.sub takes it as a template, and for names like C:\\WINDOWS raises an exception"
  },
  {
   "property": "C135",
   "status": "proved",
   "theorems": [
    "Verif.C135_calls",
    "Verif.C135_incoming",
    "Verif.C135_import",
    "Verif.C135_no_mail",
    "Verif.C135_commands",
    "Verif.C135_killed",
    "Verif.C135_history_mails",
    "Verif.C135_history_keys"
   ],
   "note": "runs of gpg for --version are not counted; for an import without an address the limit by addresses is for imports which succeed"
  },
  {
   "property": "C136",
   "status": "proved",
   "theorems": [
    "Verif.C136_calls",
    "Verif.C136_commands",
    "Verif.C136_runs",
    "Verif.C136_options",
    "Verif.C136_incoming",
    "Verif.C136_ever",
    "Verif.C136_ever_commands"
   ],
   "note": "the program and the home of gpg on the command line are the matter of C125; a key which the user gives can be an option; stored handles can be empty when a mail has no key"
  },
  {
   "property": "C137",
   "status": "proved",
   "theorems": [
    "Verif.C137_header",
    "Verif.C137_incoming",
    "Verif.C137_encrypted",
    "Verif.C137_key_exchange"
   ],
   "note": "errors are compared as such, not their texts; for encrypted mail plugins must not look at the decrypted message, which has the header in it"
  },
  {
   "property": "C138",
   "status": "partial",
   "theorems": [
    "Verif.C138_people_partial",
    "Verif.C138_two_partial",
    "Verif.C138_refuted"
   ],
   "note": "false if the sender of a mail is itself a bot: then both answer each other without end, since no header marks the replies as automatic and no mail is refused. Holds if no address of a bot is part of the text of From. In general only two bots can go on, in turns, if no address of a bot is part of another one"
  },
  {
   "property": "C139",
   "status": "proved",
   "theorems": [
    "Verif.C139_header",
    "Verif.C139_incoming",
    "Verif.C139_encrypted"
   ],
   "note": "errors are compared as such, not their texts; for encrypted mail plugins must not look at the decrypted message, which has the header in it"
  },
  {
   "property": "C140",
   "status": "partial",
   "theorems": [
    "Verif.C140_key_partial",
    "Verif.C140_gossip_partial",
    "Verif.C140_recommendation_partial",
    "Verif.C140_refuted_recommendation",
    "Verif.C140_refuted_key"
   ],
   "note": "holds for the key if the peer sent one and the mails with the newest date agree, and for the recommendation if the peer's newest mail had a key or none had one; false if the newest mail had none but came before others, and for the key if there is only gossip"
  },
  {
   "property": "C141",
   "status": "partial",
   "theorems": [
    "Verif.C141_lasts",
    "Verif.C141_used",
    "Verif.C141_heals_partial",
    "Verif.C141_refuted"
   ],
   "note": "holds whenever the peer's mail is processed and not skipped as known; false if the forged mail has the same Message-Id: then the genuine mail is skipped and the forged key stays"
  },
  {
   "property": "C142",
   "status": "proved",
   "theorems": [
    "Verif.C142_kept",
    "Verif.C142_sent"
   ],
   "note": "gpg itself is outside: what it exports under a handle may change"
  },
  {
   "property": "C143",
   "status": "proved",
   "theorems": [
    "Verif.C143_recorded",
    "Verif.C143_encrypted"
   ],
   "note": "if the user imports a key without an address then the addresses are those which it names (see C55); gossip headers outside of the encrypted part count as well, see C23"
  },
  {
   "property": "C144",
   "status": "partial",
   "theorems": [
    "Verif.C144_untouched_partial",
    "Verif.C144_newer_partial",
    "Verif.C144_unreadable_partial",
    "Verif.C144_hashed_partial",
    "Verif.C144_refuted"
   ],
   "note": "holds for chains whose own block files and heads file are as they were, for the newer part of other chains, for files the serializer cannot read, and would hold up to missing files if hashes were compared; false of the code: replaced, missing and older files are read without notice, and a block which names itself is read forever"
  },
  {
   "property": "C145",
   "status": "proved",
   "theorems": [
    "Verif.C145_ignored",
    "Verif.C145_passed",
    "Verif.C145_alike",
    "Verif.C145_sent"
   ],
   "note": "the commands also look at Resent-From; C145_sent is about what they pass on"
  },
  {
   "property": "C146",
   "status": "proved",
   "theorems": [
    "Verif.C146_listed",
    "Verif.C146_run",
    "Verif.C146_main",
    "Verif.C146_replaced"
   ],
   "note": "click's dictionary of commands and its sorted list are part of the model"
  },
  {
   "property": "C147",
   "status": "proved",
   "theorems": [
    "Verif.C147_header",
    "Verif.C147_outgoing",
    "Verif.C147_sent",
    "Verif.C147_bot",
    "Verif.C147_lines"
   ],
   "note": "that python's address functions keep lines together is a hypothesis (KeepsLines), with an instance; what a plugin makes of the message is not covered"
  },
  {
   "property": "C148",
   "status": "proved",
   "theorems": [
    "Verif.C148_alike",
    "Verif.C148_incoming",
    "Verif.C148_leaving"
   ],
   "note": "the text of exceptions is not part of the model: that of an InvocationFailure contains what gpg wrote (see findings)"
  },
  {
   "property": "C149",
   "status": "proved",
   "theorems": [
    "Verif.C149_kept",
    "Verif.C149_recommended",
    "Verif.C149_call"
   ],
   "note": "that a refused key takes a known one away is C19_refuted"
  }
 ]
}