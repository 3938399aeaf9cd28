#!/usr/bin/env python3
"""Writes /verif/properties.jsonl. Kept as a script so ids stay ordered and every record has the same fields."""
import json, os
P = []
def p(title, statement, quantifier, why, *anchors):
    P.append(dict(id="C%02d" % (len(P) + 1), title=title, statement=statement,
                  quantifier=quantifier, why_tests_cant=why, anchors=list(anchors)))

# ---------------------------------------------------------------- storage
p("Persistent log refinement",
  "Reading a named chain from disk returns exactly the entries appended under that name since the name was created or last removed, newest first, each with the field values it was appended with; the on-disk store (block files plus heads file) is indistinguishable from an in-memory map from names to logs.",
  "every program of store operations (append, read, list names, remove, wipe) of any length, every name, every entry, every clock, provided no two different blocks written had the same SHA-256",
  "tests append two or three entries; the claim is about every sequence of operations and every read after it",
  "muacrypt/chainstore.py:BlockService", "muacrypt/chainstore.py:Block", "muacrypt/chainstore.py:HeadTracker", "muacrypt/chainstore.py:ChainStates", "muacrypt/chainstore.py:Chain", "muacrypt/states.py:MsgEntry")
p("Chain iteration terminates and blocks are content addressed",
  "After any history, following parent links from any head visits each block at most once and ends at a genesis block, so iteration terminates; every block file is named by the hash of its bytes and every parent it names exists.",
  "every disk reachable by store operations without a hash collision",
  "termination of a parent walk is a statement about all reachable link structures",
  "muacrypt/chainstore.py:Block.__iter__", "muacrypt/chainstore.py:BlockService.store_block", "muacrypt/chainstore.py:BlockService.get_block")
p("Append is atomic under crashes",
  "If the process dies at any point while an entry is being appended, the next process reads either the state before the append or the state after it.",
  "every crash point (every prefix of every file write) of every append in every reachable disk",
  "a test cannot enumerate kill points and partial writes",
  "muacrypt/chainstore.py:BlockService.store_block", "muacrypt/chainstore.py:HeadTracker.upsert", "muacrypt/chainstore.py:ChainStates.new_head_block")
p("Concurrent writers never lose an acknowledged append",
  "When several processes append concurrently to chains in the same directory, every append that returned is visible afterwards.",
  "every interleaving of any number of writers",
  "the schedule space is unbounded",
  "muacrypt/chainstore.py:HeadTracker.upsert", "muacrypt/chainstore.py:HeadTracker.remove_if", "muacrypt/chainstore.py:ChainStates.new_head_block")
p("Concurrent writers never corrupt a chain",
  "Under any interleaving of whole-file reads and writes by any number of processes, every head resolves to a complete chain down to a genesis block, and every entry read was appended by some process under that same name.",
  "every schedule of any number of processes, each performing any sequence of appends and removals",
  "the schedule space is unbounded",
  "muacrypt/chainstore.py:HeadTracker", "muacrypt/chainstore.py:ChainStates.new_head_block", "muacrypt/chainstore.py:BlockService.store_block")
p("Names of distinct peers and accounts never collide",
  "Two different (account, address) pairs never share stored state, and an account's own state is never confused with a peer's, an out-of-band record or the manager's; listing an account's peers returns exactly the addresses it has state for, and the address shown for a peer is the one it was stored under.",
  "every pair of alphanumeric account names and every pair of addresses, including addresses containing ':'",
  "needs injectivity of name formatting over all strings",
  "muacrypt/states.py:States.get_peerstate", "muacrypt/states.py:States.get_peername_list", "muacrypt/states.py:PeerState.addr", "muacrypt/states.py:States.get_account_names", "muacrypt/account.py:Account.__init__")
# ---------------------------------------------------------------- peer state
p("Autocrypt timestamp never goes back",
  "For every peer, autocrypt_timestamp never decreases, whatever messages, gossip and key imports are processed and in whatever order, until the account is deleted.",
  "every history of API calls and commands, interrupted or not, and every clock",
  "monotonicity over unbounded histories",
  "muacrypt/states.py:PeerState.update_from_msg", "muacrypt/states.py:PeerState.update_from_msg_gossip", "muacrypt/states.py:PeerState.autocrypt_timestamp")
p("The newest Autocrypt header wins, whatever the delivery order",
  "After processing any messages from a peer in any order, autocrypt_timestamp is the largest effective date of a message that carried a key, and the peer's direct key and prefer-encrypt setting are those of a message with that date; if that message is unique, the result does not depend on the order of processing.",
  "every finite list of updates and every permutation of it",
  "n! delivery orders for every n",
  "muacrypt/states.py:PeerState.update_from_msg", "muacrypt/states.py:PeerState._latest_ac_entry", "muacrypt/states.py:PeerState.entry_for_encryption")
p("Older messages change nothing",
  "A message, with or without a key, or a gossip header, whose effective date is before the peer's autocrypt_timestamp leaves every observable of that peer unchanged.",
  "every peer state, every message older than the timestamp",
  "all states and all dates",
  "muacrypt/states.py:PeerState.update_from_msg", "muacrypt/states.py:PeerState.update_from_msg_gossip")
p("A message without Autocrypt header never changes the key",
  "Processing a message without a usable Autocrypt header never changes a peer's key, key data, prefer-encrypt setting, autocrypt_timestamp, direct-key flag or gossip entry, apart from gossip which the message itself carries if it is encrypted; it can only move last_seen forward, and only that of the sender.",
  "every peer state and every message without key",
  "all states and all messages",
  "muacrypt/states.py:PeerState.update_from_msg", "muacrypt/states.py:PeerState._append_noac_entry")
p("last_seen is never before the Autocrypt timestamp",
  "In every reachable state and for every peer, autocrypt_timestamp <= last_seen, and both are at least 0.",
  "every history of API calls and commands, interrupted or not",
  "invariant over unbounded histories",
  "muacrypt/states.py:PeerState.last_seen", "muacrypt/states.py:PeerState.autocrypt_timestamp")
p("last_seen never goes back",
  "A peer's last_seen never decreases.",
  "every history of API calls and commands, interrupted or not",
  "monotonicity over unbounded histories",
  "muacrypt/states.py:PeerState.last_seen", "muacrypt/states.py:PeerState.update_from_msg")
p("Gossip never overrides a usable direct key",
  "Processing gossip for a peer never changes its last_seen, autocrypt_timestamp, direct-key flag, or its direct key; if the peer has a usable direct key then key handle, key data and prefer-encrypt are unchanged.",
  "every peer state and every gossip update",
  "all states, all updates",
  "muacrypt/states.py:PeerState.update_from_msg_gossip", "muacrypt/states.py:PeerState.entry_for_encryption")
p("Gossip fallback uses the newest gossip",
  "When a peer has no usable direct key, the key used is the gossip key with the latest effective date.",
  "every sequence of gossip updates",
  "all orders of arrival",
  "muacrypt/states.py:PeerState.latest_gossip_entry", "muacrypt/states.py:PeerState.update_from_msg_gossip")
p("Re-processing a message is idempotent",
  "Processing the same message again, immediately or after any other messages from the peer, leaves the peer's observable state as it is.",
  "every peer history, every message",
  "all histories between the two deliveries",
  "muacrypt/states.py:PeerState.update_from_msg", "muacrypt/account.py:Account.process_incoming")
p("Known messages are skipped entirely",
  "With ignore_existing set, processing a message whose Message-Id is already recorded for its sender returns None, and changes no stored state, runs no gpg command and calls no hook.",
  "every reachable state and message",
  "all states; absence of every effect",
  "muacrypt/account.py:Account.process_incoming", "muacrypt/states.py:PeerState.has_message")
p("Distinct messages are never mistaken for one another",
  "With ignore_existing set, a message that was never processed before is processed.",
  "every history and every new message",
  "all histories",
  "muacrypt/account.py:Account.process_incoming", "muacrypt/states.py:PeerState.get_message_entry")
p("No recorded date lies in the future",
  "Every date recorded for a peer by processing mail or importing keys is at most the clock value read while processing, whatever Date header the sender chose.",
  "every message and every clock",
  "adversarial Date headers, all clocks",
  "muacrypt/account.py:effective_date", "muacrypt/account.py:Account.process_incoming")
p("A header whose key cannot be imported does not displace a working key",
  "If gpg refuses to import the key in an incoming Autocrypt header, the peer's previously known key stays in use.",
  "every peer state, every message, every gpg failure",
  "all states and failures",
  "muacrypt/account.py:Account._import_key", "muacrypt/account.py:Account.process_autocrypt_header", "muacrypt/states.py:PeerState.entry_for_encryption")
# ---------------------------------------------------------------- process_incoming
p("Incoming mail only affects the sender and gossiped recipients",
  "Processing a message for an account changes, among all stored state, only the state of the From address and the state of those addresses for which gossip is reported in the result; no other peer, no account setting and no other account is touched, and stored chains only grow.",
  "every message, account, prior state, gpg behaviour, including runs that end in an exception",
  "absence of any effect on an unbounded set of other peers",
  "muacrypt/account.py:Account.process_incoming", "muacrypt/account.py:Account.process_gossip_headers")
p("A direct key is only learned for the From address",
  "A key is recorded as a peer's direct key only if the message had exactly one valid Autocrypt header whose addr equals the normalised From address, had at most one From address and was not a multipart/report; the recorded key data and prefer-encrypt are those of that header.",
  "every message and prior state",
  "every shape of header set",
  "muacrypt/mime.py:parse_one_ac_header_from_msg", "muacrypt/account.py:Account.process_autocrypt_header")
p("Gossip is only learned for To/Cc recipients",
  "Gossip state changes only for addresses that literally appear as recipients of the decrypted message and for which a valid gossip header with that address exists; the key recorded is that of the last valid gossip header for that address.",
  "every decrypted message",
  "every shape of header set and recipient list",
  "muacrypt/account.py:Account.process_gossip_headers", "muacrypt/mime.py:get_gossip_headers_from_msg")
p("Gossip is only accepted from the encrypted part",
  "An Autocrypt-Gossip header that was not inside the encrypted payload never influences any peer's state.",
  "every incoming message, encrypted or not",
  "adversarial message shapes",
  "muacrypt/account.py:Account.decrypt_mime", "muacrypt/mime.py:transfer_non_content_headers", "muacrypt/account.py:Account.process_gossip_headers")
p("A malformed message cannot abort processing",
  "Processing an incoming message never fails because of the contents of its Autocrypt or Autocrypt-Gossip headers: malformed headers are reported as errors in the result.",
  "every header value",
  "all strings",
  "muacrypt/mime.py:parse_ac_headervalue", "muacrypt/account.py:Account.process_incoming", "muacrypt/states.py:PeerState.update_from_msg_gossip")
# ---------------------------------------------------------------- mime
p("Autocrypt headers round-trip",
  "Parsing a header value made from an address, key bytes and a prefer-encrypt setting yields no error, the normalised address, exactly those key bytes and exactly that setting.",
  "every nonempty key of any length, both settings, every address whose normal form has no ';' and is stable",
  "all key lengths (padding and line wrapping vary with the length)",
  "muacrypt/mime.py:make_ac_header_value", "muacrypt/mime.py:parse_ac_headervalue", "muacrypt/mime.py:indented_split")
p("Header folding bounds line length and loses nothing",
  "The wrapped key in a generated header has lines of at most 80 characters, every line is indented by two spaces, and removing white space gives back the base64 text.",
  "every nonempty string without white space",
  "all lengths",
  "muacrypt/mime.py:indented_split")
p("What a successful header parse guarantees",
  "If parsing a header value reports no error then address and key data are present, prefer-encrypt is 'nopreference' or 'mutual', and every attribute is addr, keydata, prefer-encrypt or starts with '_'.",
  "every string",
  "all strings",
  "muacrypt/mime.py:parse_ac_headervalue")
p("Non-critical attributes never matter, critical ones always do",
  "Adding an attribute whose name starts with '_' to a header does not change whether it parses nor its address, key and setting; adding any other unknown attribute makes the parse fail.",
  "every header value and attribute",
  "all strings",
  "muacrypt/mime.py:parse_ac_headervalue")
p("Several Autocrypt headers",
  "Among the Autocrypt headers of a message, if exactly one is valid for the From address it is the result whatever the others are; with two or more valid ones, or none, the result is an error without key.",
  "every list of headers",
  "every number and order of headers",
  "muacrypt/mime.py:parse_one_ac_header_from_msg")
# ---------------------------------------------------------------- recommendation
p("Single-peer recommendation",
  "The recommendation for one peer is 'disable' iff no key is known; otherwise 'encrypt' if replying to an encrypted mail; otherwise 'discourage' if there is no direct key or it is more than 35 days older than the last message seen; otherwise 'encrypt' if both sides prefer mutual and the last message had a key; otherwise 'available'.",
  "every reachable peer state, both settings, both reply flags",
  "all states",
  "muacrypt/recommendation.py:PeerRecommendation")
p("Group recommendation is the weakest one",
  "For several recipients the recommendation is the minimum of the single ones in the order disable < discourage < available < encrypt; it does not depend on order, repetition, display names or letter case of the addresses; for no recipients it follows the account's own setting.",
  "every list of recipients and every state",
  "all lists",
  "muacrypt/recommendation.py:Recommendation.ui_recommendation", "muacrypt/account.py:Account.get_recommendation")
p("A recommendation can always be computed",
  "Asking for a recommendation never fails and never changes stored state, for any recipients in any reachable state of a configured account.",
  "every reachable state and recipient list",
  "absence of a None dereference in every reachable state",
  "muacrypt/recommendation.py:PeerRecommendation.ui_recommendation", "muacrypt/account.py:Account.get_recommendation")
# ---------------------------------------------------------------- outgoing
p("ENCRYPT: yes never sends cleartext",
  "If an outgoing message carries 'ENCRYPT: yes', the call either raises or returns an encrypted message.",
  "every message, state, gpg behaviour, plugin",
  "all paths including failures",
  "muacrypt/account.py:Account.process_outgoing")
p("ENCRYPT: no never encrypts",
  "If an outgoing message carries 'ENCRYPT: no', gpg is never asked to encrypt and the body is returned as it was.",
  "every message, state, gpg behaviour",
  "all paths",
  "muacrypt/account.py:Account.process_outgoing")
p("The ENCRYPT control header never leaves",
  "No message returned for sending carries an ENCRYPT header, and the content handed to gpg for encryption carries none either.",
  "every message (any number and letter case of ENCRYPT headers); plugins which add none themselves",
  "all messages",
  "muacrypt/account.py:Account.process_outgoing", "muacrypt/mime.py:make_content_message_from_email")
p("Exactly one Autocrypt header is added, and only if there is none",
  "An outgoing message that has an Autocrypt header keeps its Autocrypt headers as they are; otherwise exactly one is added and it parses to the sender address, the account's public key and the account's preference. All other headers except ENCRYPT keep their values and order.",
  "every message and state",
  "all messages",
  "muacrypt/account.py:Account.process_outgoing", "muacrypt/account.py:Account.make_ac_header")
p("Mail is encrypted exactly to the recipients' keys",
  "Whenever a message is encrypted, gpg is invoked with exactly one recipient key per listed address, namely the key the peer state gives for that address, or the account's own key if the address has no known key and belongs to the account; it is signed with the account's own key, and no other key is a recipient.",
  "every message, recipient list and state",
  "all recipient lists and states",
  "muacrypt/account.py:Account.encrypt_mime", "muacrypt/bingpg.py:BinGPG.encrypt")
p("No key, no encryption",
  "If for some listed address no key is known and the address does not belong to the account, encrypting raises an error before gpg is asked to encrypt anything, and no stored state changes.",
  "every message, recipient list and state",
  "all lists and states",
  "muacrypt/account.py:Account.encrypt_mime")
p("Gossip headers list exactly the encrypted-to peers",
  "The payload handed to gpg has one Autocrypt-Gossip header per listed address with a known peer key, in order, with that address and key, and apart from these and plugin additions has no headers other than content type and transfer encoding.",
  "every message, recipient list and state",
  "all lists",
  "muacrypt/account.py:Account.encrypt_mime", "muacrypt/mime.py:make_content_message_from_email")
p("Encrypted mail has PGP/MIME shape and keeps its routing headers",
  "The result of encrypting is recognised as encrypted, and its headers are the PGP/MIME content type followed by exactly the non-content headers of the input in order; none of the body is left outside the gpg output.",
  "every message",
  "all messages",
  "muacrypt/account.py:Account.encrypt_mime", "muacrypt/mime.py:is_encrypted", "muacrypt/mime.py:transfer_non_content_headers")
p("Decrypting what was encrypted gives the message back",
  "If gpg decrypts what it encrypted and serialisation round-trips, then decrypting an encrypted message gives its body, its content headers, the gossip headers and its other headers.",
  "every message and recipient list",
  "all messages",
  "muacrypt/account.py:Account.encrypt_mime", "muacrypt/account.py:Account.decrypt_mime")
p("Already encrypted mail is passed through",
  "Outgoing mail that is already PGP/MIME encrypted is returned with only the ENCRYPT header removed and an Autocrypt header added if missing; gpg is not asked to encrypt.",
  "every encrypted message",
  "all messages",
  "muacrypt/account.py:Account.process_outgoing", "muacrypt/mime.py:is_encrypted")
p("Sending mail never changes stored state",
  "Processing outgoing mail, encrypting, decrypting, making headers, exporting keys, listing and looking up never change the stored state of any account or peer.",
  "every call in every reachable state of an initialised manager, including failing ones",
  "absence of effects",
  "muacrypt/account.py:Account.process_outgoing", "muacrypt/account.py:Account.encrypt_mime", "muacrypt/account.py:Account.decrypt_mime", "muacrypt/account.py:Account.make_ac_header")
# ---------------------------------------------------------------- accounts
p("Adding an existing account fails and changes nothing",
  "Adding an account under a name that is in use raises AccountExists and leaves all accounts, settings and keys as they are; no gpg command is run.",
  "every reachable state, plugins that raise nothing when an account is opened",
  "all states",
  "muacrypt/account.py:AccountManager.add_account")
p("A new account has the settings asked for",
  "After adding an account succeeds, it exists, is listed, has the requested name, pattern ('.*' by default), gpg binary and mode, preference 'nopreference' and the key gpg reported, has no peers carried over if the name was fresh, and other accounts are unchanged.",
  "every reachable state and arguments",
  "all states",
  "muacrypt/account.py:AccountManager.add_account", "muacrypt/account.py:Account.create")
p("A failed account creation does not affect other accounts",
  "If adding an account fails (gpg error, unknown key), looking up other accounts, by name, by address or for incoming mail, works as before.",
  "every reachable state and failure",
  "all failure points",
  "muacrypt/account.py:Account.create", "muacrypt/account.py:AccountManager.get_account_from_emailadr", "muacrypt/account.py:AccountManager.get_matching_account_for_incoming_message")
p("Modifying an account changes exactly what was given",
  "Modifying an account changes each setting that was specified to the given value, leaves the others, its keys, its peers and other accounts alone, reports a change iff some setting differs, and an invalid preference raises without any change.",
  "every reachable state and argument combination",
  "all states and arguments",
  "muacrypt/account.py:AccountManager.mod_account", "muacrypt/account.py:Account.modify", "muacrypt/states.py:OwnState.change_config")
p("Deleting an account removes all of its state",
  "After deleting an account it is not listed, cannot be opened, none of its settings, keys or peers is visible, also after a new account of that name is added; other accounts are unchanged.",
  "every reachable state",
  "all states and later histories",
  "muacrypt/account.py:AccountManager.del_account", "muacrypt/states.py:States.remove_account")
p("Address lookup picks the first matching account by name",
  "Looking up an account for an address returns the alphabetically first account whose pattern matches, if any; otherwise None or AccountNotFound as requested.",
  "every reachable state without half-created accounts, every address",
  "all account sets and patterns",
  "muacrypt/account.py:AccountManager.get_account_from_emailadr")
p("Incoming mail is routed by recipient, then by Delivered-To",
  "For incoming mail the account is the first match over recipients in header order and accounts in name order; only if no recipient matches any account is Delivered-To used.",
  "every message and account set",
  "all messages and account sets",
  "muacrypt/account.py:AccountManager.get_matching_account_for_incoming_message", "muacrypt/mime.py:get_delivered_to")
p("The listed accounts are those added and not deleted",
  "At any time the list of account names is sorted, duplicate free, and, if no creation failed, consists of exactly the names that were added and not deleted since. Even if calls and commands were interrupted, a listed account stays listed until it is deleted or everything is reset, and no account is listed unless one of that name was added.",
  "every history of API calls",
  "all histories",
  "muacrypt/states.py:States.get_account_names")
p("The manager is initialised once",
  "The manager's version is recorded at most once between resets, and stays the same under all other operations.",
  "every history of API calls and commands, interrupted or not",
  "all histories",
  "muacrypt/account.py:AccountManager.init", "muacrypt/states.py:AccountManagerState.set_version")
p("Accounts are isolated from each other",
  "No operation on one account changes settings, keys or peers of another account.",
  "every history of calls on other accounts",
  "all histories",
  "muacrypt/account.py:Account", "muacrypt/states.py:States")
p("History is append-only",
  "For every chain, the entries read at one time are a suffix (the oldest part) of those read at any later time, unless the account was deleted or everything was reset in between.",
  "every history of API calls and commands, interrupted or not",
  "all histories",
  "muacrypt/chainstore.py:Chain.append_entry", "muacrypt/states.py")
# ---------------------------------------------------------------- key import
p("An imported key is used from then on",
  "After importing a public key for an address (or for all addresses in its user ids), with a clock that does not run backwards, the peer state of each of these addresses has exactly that key handle, the exported key data and the given preference.",
  "every reachable state, key and address list, every monotone clock",
  "all states",
  "muacrypt/account.py:Account.import_keydata_as_autocrypt")
p("Out-of-band verification returns the latest record",
  "Looking up the verification of an address returns the most recently recorded verification for exactly that address and account, or nothing if none was recorded. It stays the same, whatever calls and commands are run or interrupted, until another one is recorded for that address and account or everything is reset.",
  "every history of records; every history of calls, commands and interruptions",
  "all histories",
  "muacrypt/states.py:OOBState")
# ---------------------------------------------------------------- bingpg
p("gpg failures are never swallowed",
  "A gpg command that exits non-zero, or writes to stderr in strict mode, never yields a result: it raises InvocationFailure, or KeyboardInterrupt on exit status 130.",
  "every gpg result",
  "all results",
  "muacrypt/bingpg.py:BinGPG._gpg_outerr")
p("Temporary files are always removed",
  "Every temporary file written for a gpg command has been removed when the API call or the command ends, also when it fails or is interrupted.",
  "every outcome of gpg",
  "all failure paths",
  "muacrypt/bingpg.py:BinGPG.temp_written_file", "muacrypt/bingpg.py:BinGPG.gen_secret_key", "muacrypt/bingpg.py:BinGPG.verify")
p("Key id matching",
  "Two key ids match iff one is a suffix of the other ignoring letter case; matching is reflexive and symmetric.",
  "every pair of nonempty ids",
  "all strings",
  "muacrypt/bingpg.py:KeyInfo.match")
p("Key handles are found in gpg output wherever they are",
  "The handle extracted from gpg's messages is the first maximal run of upper-case hex digits following 'key ' or 'key ID '; short ids are resolved to the id of a listed key that has it as suffix, or the call fails.",
  "every output text",
  "all strings",
  "muacrypt/bingpg.py:BinGPG._find_keyhandle")
p("Colon listings attach user ids to the right key",
  "In a parsed key listing every user id line is attached to the last preceding primary key, in order, and nothing else.",
  "every listing",
  "all listings",
  "muacrypt/bingpg.py:BinGPG._parse_list")
p("A property is computed at most once",
  "A cached property calls its function at most once successfully per object, returns that value ever after, and after an assignment returns the assigned value.",
  "every sequence of reads and writes of properties whose functions do not read their own property, directly or indirectly",
  "all sequences",
  "muacrypt/bingpg.py:cached_property")
# ---------------------------------------------------------------- bot / command line
p("The bot only replies when addressed in To",
  "bot-reply emits a reply only if the bot's address is one of the To addresses of the message.",
  "every message",
  "all messages",
  "muacrypt/bot.py:bot_reply")
p("The bot's reply goes to the sender and the other recipients, never to itself",
  "If the bot replies, the To header is the sender's From, Cc are exactly the other To/Cc addresses without the bot's own, In-Reply-To and Subject refer to the original, and the reply is encrypted iff the recommendation for the sender is 'encrypt'. Besides these and From the reply has a Message-ID and a Date of its own, an Autocrypt header and fields about its content, each once, and no others.",
  "every message, state and gpg behaviour",
  "all messages",
  "muacrypt/bot.py:bot_reply")
p("Log sections nest",
  "The bot's report is indented by exactly two spaces per open section and the indentation is restored after each section, whether its body succeeds or fails.",
  "every nesting of sections and failures",
  "all nestings",
  "muacrypt/bot.py:SimpleLog")
p("Truncation tells how much was cut",
  "Texts up to the limit are shown unchanged; longer ones show a prefix followed by the number of characters left out.",
  "every string and every limit of at least 20",
  "all strings",
  "muacrypt/cmdline_utils.py:trunc_string")
p("Bounced mail is sent unchanged",
  "process-outgoing returns a message with a Resent-From header of a managed account unmodified, without running gpg, and fails if no account matches.",
  "every message with Resent-From",
  "all messages",
  "muacrypt/cmdline.py:_process_outgoing")
p("Directory scans only process recent, identified, routable mail, once",
  "scandir-incoming skips messages without Message-Id, with file or effective date older than 90 days, or without a matching account, and without --reparse skips known ones; skipped messages change no stored state.",
  "every directory content and clock",
  "all directories",
  "muacrypt/cmdline.py:scandir_incoming")
p("process-incoming reports 'found' only if the message had a key",
  "The command line reports 'found: ...' for a processed message only if an Autocrypt key is known for the sender.",
  "every message and state",
  "all states",
  "muacrypt/cmdline.py:process_incoming")
p("destroy-all needs confirmation and resets everything",
  "destroy-all changes nothing without --yes; with it, afterwards no account, setting or peer is visible and accounts can be added again.",
  "every reachable state",
  "all states",
  "muacrypt/cmdline.py:destroy_all", "muacrypt/account.py:AccountManager.remove")
p("When outgoing mail is encrypted",
  "Outgoing mail which is not encrypted yet and has one From header is encrypted exactly if ENCRYPT is not 'no' and either encryption is recommended for every other recipient in To and Cc (for no such recipient: the account prefers mutual), or ENCRYPT is 'yes' and a key is known for all of them; otherwise 'yes' makes the call fail and without it the mail stays in the clear.",
  "every message, account and state",
  "the decision is a product of header values, recipients and peer histories",
  "muacrypt/account.py:Account.process_outgoing", "muacrypt/recommendation.py:Recommendation.ui_recommendation")
p("An account with its own key ring only uses that key ring",
  "Every gpg command run for an account in mode 'own' gets the home directory of that account, and gpg directories and files are only created there; calls which do not concern an account run no gpg at all.",
  "every state, account and call",
  "a wrong home directory still works in tests with one account",
  "muacrypt/account.py:Account.bingpg", "muacrypt/bingpg.py:BinGPG._homedirflags")
p("mod-account changes only the settings given",
  "The command mod-account sets the options given on the command line and leaves all other settings as they are.",
  "every reachable state and all options",
  "all combinations of options and settings",
  "muacrypt/cmdline.py:mod_account")
p("Commands which only show or send change nothing stored",
  "status, find-account, make-header, recommend, peerstate, process-outgoing, sendmail, the export commands and an unconfirmed destroy-all leave the stored state of an initialised directory unchanged, also if they fail; before that, they change nothing but the initialisation.",
  "every state and argument",
  "all states",
  "muacrypt/cmdline.py")
p("Unknown values of the ENCRYPT header are refused",
  "Outgoing mail whose ENCRYPT header has a value other than 'opportunistic', 'yes' and 'no' is refused before anything is stored or gpg or a plugin is run; mail which is returned had one of these values or no such header.",
  "every message, account and state",
  "all header values",
  "muacrypt/account.py:Account.process_outgoing")
p("Outgoing mail needs exactly one sender",
  "Outgoing mail which is not encrypted and does not have exactly one From header is refused; nothing is stored, no data is passed to gpg and no plugin is called.",
  "every message, account and state",
  "all messages",
  "muacrypt/account.py:Account.process_outgoing")
p("A newer key in a message is recorded and used",
  "When process_incoming returns a result for a message with exactly one valid Autocrypt header of its sender, whose effective date is after the sender's autocrypt_timestamp, then key data, preference, autocrypt_timestamp and last_seen of the sender are those of the message; if the result has no error then gpg imported this key and it is the one used for encryption, otherwise the sender has no direct key.",
  "every message and every reachable state",
  "all histories and messages",
  "muacrypt/account.py:Account.process_incoming", "muacrypt/states.py:PeerState.update_from_msg")
p("Failures of gpg, files and plugins are not ignored",
  "An API call during which gpg failed or was interrupted, a file could not be written or removed, or a plugin raised, ends with an exception; the only exception is process_incoming, which takes a gpg error during the import of a key for a failed import, but not an interrupt or any other failure. A command other than scandir-incoming during which this happened, or during which something could not be printed or handed over, does not exit with status 0, with the same exception for process-incoming and bot-reply.",
  "every API call, command, state and behaviour of the environment",
  "failures can occur at every single operation",
  "muacrypt/bingpg.py:BinGPG._gpg_outerr", "muacrypt/account.py:Account._import_key")
p("What one account sends another one learns",
  "An account sends a message without Autocrypt header of its own, and another installation processes it with unchanged From and Autocrypt headers and an effective date after 1970 and after all keys it has from that address: then it has recorded the public key which gpg exported for the sending account and the preference of that account, as newest message and newest key; if there is no error the key was imported and is the one used for encryption to the sender.",
  "all pairs of accounts, states, messages, clocks and behaviours of both environments, sender addresses with stable normal form without ';'",
  "two installations with independent states; every pair of states and message",
  "muacrypt/account.py:Account.process_outgoing", "muacrypt/account.py:Account.process_incoming")
p("Mutual preference leads to encryption",
  "If both accounts prefer encryption then after such an exchange, until other mail from that address arrives, every message which the receiver sends to that address alone and which has no 'ENCRYPT: no' is returned encrypted, and gpg encrypted it to the key which was imported from the one exported for the first account.",
  "as for the exchange of keys, every later state of the receiver with the same entries for the sender, every message",
  "composition of sending, receiving, recommending and sending",
  "muacrypt/recommendation.py:Recommendation.ui_recommendation", "muacrypt/account.py:Account.process_outgoing", "muacrypt/account.py:Account.encrypt_mime")
p("Gossip of a decrypted message is recorded",
  "When process_incoming returns a result for an encrypted message then for every recipient of the decrypted message with a valid gossip header: unless the effective date is before the peer's autocrypt_timestamp, gpg imported the key of the last such header and it is recorded as gossip with the id and date of the message. If no gossip from a message with this id was recorded and no valid header of another recipient is about the same peer, it is the newest gossip, and the key used for encryption if there is no usable direct key.",
  "every message, state and behaviour of the environment",
  "all histories and messages",
  "muacrypt/account.py:Account.process_gossip_headers", "muacrypt/states.py:PeerState.update_from_msg_gossip")
p("Gossip reaches the other recipients",
  "An account sends an encrypted message, and another installation decrypts it to what was encrypted: then for every recipient in normal form whose key the sender knew, the receiver has imported the key which the sender used for that recipient and recorded it as gossip, unless it has a newer key from the recipient; if no gossip of a message with this id was known it is the newest gossip, and used if there is no direct key.",
  "all pairs of accounts, states, messages; addresses with stable normal form without ';'; plugins and the mail library keep To, Cc and gossip headers of the payload, gpg decrypts what it encrypted",
  "composition of encryption and decryption in two installations",
  "muacrypt/account.py:Account.encrypt_mime", "muacrypt/account.py:Account.decrypt_mime", "muacrypt/account.py:Account.process_gossip_headers")
p("What process-outgoing prints and sendmail sends",
  "process-outgoing stores nothing and prints at most one message: the given one unchanged if the first account matching Resent-From bounces it, otherwise what the first account matching From made of it; it prints one if it exits with 0. sendmail passes at most one such message to the program sendmail, with all given arguments, prints no message and stores nothing; it exits with 0 exactly if the program was run and ended with 0, and with the status of the program otherwise unless text about that cannot be printed.",
  "every message, argument list, reachable state and behaviour of the environment",
  "all messages, states and failures of gpg and sendmail",
  "muacrypt/cmdline.py:process_outgoing", "muacrypt/cmdline.py:_process_outgoing", "muacrypt/cmdline.py:sendmail")
p("What find-account, make-header and recommend print",
  "If find-account, make-header or recommend exits with 0 it stored nothing and printed exactly one line: find-account the name of the first account matching the address; make-header the Autocrypt header of this account for the address, with the key gpg exported for it and its preference; recommend the weakest recommendation of the named account for the given addresses, or what its preference says if there are none.",
  "all arguments, reachable states and behaviours of the environment",
  "all histories, any number of accounts and addresses",
  "muacrypt/cmdline.py:find_account", "muacrypt/cmdline.py:make_header", "muacrypt/cmdline.py:recommend")
p("What the export commands print",
  "If export-public-key or export-secret-key exits with 0 it stored nothing and printed exactly what gpg returned, in armor, when asked to export the given key or the key of the named account.",
  "all arguments, reachable states and behaviours of the environment",
  "all states and answers of gpg",
  "muacrypt/cmdline.py:export_public_key", "muacrypt/cmdline.py:export_secret_key", "muacrypt/account.py:Account.export_public_key")
p("What peerstate prints",
  "If peerstate exits with 0 it stored nothing and printed the address in normal form, the key used for this peer, the preference, the date and id of the newest message of the peer and the date and id of its newest message with a key.",
  "all arguments, reachable states and behaviours of the environment",
  "all histories of a peer",
  "muacrypt/cmdline.py:peerstate", "muacrypt/states.py:PeerState")
p("What add-account, mod-account, del-account and import-public-key change and print",
  "If such a command exits with 0: add-account created an account of a name which was free, with the given pattern, gpg program and keyring (the user's own or one for the account) and a key which gpg generated or found; mod-account stored exactly the settings asked for, 'gpg' as the program if none is given, and kept the key; del-account removed everything about the account and its peers; import-public-key stored the key, with the preference, for exactly the addresses it prints. Everything else stays as it was, and the first line printed names the account and says what was done.",
  "all arguments, reachable states and behaviours of the environment; for import-public-key a clock which does not go back, no recorded key from the future, and a gpg which does not export nothing with success",
  "all histories, other accounts and behaviours of gpg",
  "muacrypt/cmdline.py:add_account", "muacrypt/cmdline.py:mod_account", "muacrypt/cmdline.py:del_account", "muacrypt/cmdline.py:import_public_key")
p("Commands with a name of no account, or a name in use",
  "A command which needs an account, called with a name which is that of no account, stores nothing but the mark that the store is initialised, runs no program and, if the name is alphanumeric, prints only the text of AccountNotFound and exits with 1; otherwise it stops with an AssertionError. add-account with the name of an existing account stores nothing and does not exit with 0; if plugins do not fail it prints only the text of AccountExists and exits with 1. If the text cannot be printed the error about that ends the command.",
  "every such command, all arguments, states and behaviours of the environment",
  "all commands and states",
  "muacrypt/cmdline_utils.py:get_account", "muacrypt/cmdline_utils.py:MyGroup", "muacrypt/account.py:AccountManager.get_account", "muacrypt/account.py:AccountManager.add_account")
p("What status prints",
  "If status exits with 0 it stored nothing and printed for the named account, or after the directory for all accounts in alphabetical order, the settings of the account, its key, the user ids which gpg lists for it, and if asked for details all peers in alphabetical order with the key used, the date of the last message and whether that message had a key.",
  "all arguments, reachable states and behaviours of the environment",
  "any number of accounts and peers, all histories",
  "muacrypt/cmdline.py:status", "muacrypt/cmdline.py:_status_account")
p("Keys in the bot's reply",
  "A reply of the bot has exactly one Autocrypt header, that of the first account which serves the address of delivery, with the key gpg exported for it and its preference. It is either the report in clear, or gpg encrypted the report to the keys known for the sender and all other recipients of To and Cc and signed it with the key of the account; the encrypted part has the content headers and one gossip header per such address with a known key, and went through the plugins.",
  "every message, reachable state and behaviour of the environment",
  "all messages and histories",
  "muacrypt/bot.py:bot_reply", "muacrypt/account.py:Account.make_ac_header", "muacrypt/account.py:Account.encrypt_mime")
p("What the bot stores",
  "bot-reply stores what process_incoming stores for the first account serving the address of delivery, and nothing but state about peers of this account; if there is no such account it fails, stores nothing and does not reply. It does not reply if processing the mail fails.",
  "every message, reachable state and behaviour of the environment",
  "all messages and histories",
  "muacrypt/bot.py:bot_reply", "muacrypt/account.py:Account.process_incoming")
p("Signing and verifying",
  "If sign returns a signature then gpg made it, in one run which got the data and was told to make a detached signature with the given key. If verify returns a key id then gpg accepted the signature for the data, the id stands in what gpg said about it, and the file with the signature is gone.",
  "all data, keys and behaviours of gpg",
  "all outputs of gpg",
  "muacrypt/bingpg.py:BinGPG.sign", "muacrypt/bingpg.py:BinGPG.verify")
p("Minimised import of keys",
  "If import_keydata with minimize returns a key id then gpg imported the data and named this key, exported this key in minimal form, deleted it, imported exactly what was exported and named the same key again; each run succeeded.",
  "all key data and behaviours of gpg",
  "all outputs of gpg",
  "muacrypt/bingpg.py:BinGPG.import_keydata")
p("Use of the secret key without asking",
  "Every run of gpg which needs the secret key (export, encryption with signature, decryption, generation of a key, signing) gets the options with which gpg asks for no passphrase, depending on the version it reported right before. A generated key is without expiry, has signing and encryption parts of the size the code names and the given address as user id; that of a new account is a random one.",
  "all arguments and behaviours of gpg; addresses without line breaks",
  "all versions and outputs of gpg",
  "muacrypt/bingpg.py:BinGPG._nopassphrase", "muacrypt/bingpg.py:BinGPG.gen_secret_key", "muacrypt/bingpg.py:BinGPG.encrypt", "muacrypt/bingpg.py:BinGPG.decrypt", "muacrypt/account.py:Account.create")
p("Packets and algorithms which gpg lists",
  "list_packets returns for each packet which gpg lists its name, the rest of its first line and all the other lines, in order; supports_eddsa tells whether EDDSA is among the comma-separated algorithms in the first line Pubkey of what gpg says about itself.",
  "all outputs of gpg",
  "all outputs of gpg",
  "muacrypt/bingpg.py:BinGPG.list_packets", "muacrypt/bingpg.py:BinGPG.supports_eddsa")
p("Interrupted processing of a message can be made up for",
  "If processing of an incoming message ends early, because the process dies or by an exception, then what is stored is a part of what complete processing stores, and processing the message again with ignore_existing, as scandir-incoming does, records all that is missing.",
  "every message, state, point of interruption and behaviour of the environment",
  "all points of interruption",
  "muacrypt/account.py:Account.process_incoming", "muacrypt/cmdline.py:scandir_incoming")
p("A process which dies within a call",
  "If the process dies at any point of a call of the public interface or of a command, also in the middle of writing a file, then the next process reads what was stored after some of the operations of the call or command.",
  "every call, command, state, behaviour of the environment and point of interruption; no hash collision",
  "all crash points in all calls",
  "muacrypt/chainstore.py:HeadTracker", "muacrypt/chainstore.py:BlockService", "muacrypt/account.py:AccountManager")
p("What process-incoming prints",
  "process-incoming, when it succeeds, prints one line and nothing else, and changes nothing but state about peers of the account used, which is the one named or the one for the recipients. For a message recorded before, unless reparse is given, the line has the Message-Id and says it is known, and nothing is stored. Otherwise the line names the account; if the newest message of the sender has the date of the newest one with a key then it names the sender's address and the key handle which peerstate shows, else it says that no header was found.",
  "every message, option, reachable state and behaviour of the environment",
  "all messages and histories",
  "muacrypt/cmdline.py:process_incoming", "muacrypt/states.py:PeerState.__str__")
p("What scandir-incoming prints",
  "scandir-incoming, when it succeeds, prints in the order of the files one line for each file, except for recent files whose message has no id, and nothing else. The line has the number of the file and says whether the file or the message is too old, no account was found, decryption failed, the message is known, the header gave a key (with the sender's address, the shown key handle and whether its date is that of the newest key) or why it gave none: a report, several From addresses, no header, several valid headers, the first fault of the first header, or a key refused by gpg. Faults are red unless they contain the words no valid Autocrypt header.",
  "every directory of messages, option, reachable state and behaviour of the environment",
  "all directories, headers and histories",
  "muacrypt/cmdline.py:scandir_incoming", "muacrypt/mime.py:parse_one_ac_header_from_msg", "muacrypt/mime.py:parse_ac_headervalue")
p("The result of processing a message",
  "If process_incoming returns a result then it has the Message-Id, the effective date, the sender's peer state and the account. Its header result is that of the only valid Autocrypt header, without error exactly if gpg imported the key and with an import error only if a gpg command failed, or the reason why no header counts. Its gossip is empty if the message is not encrypted or is not to be decrypted; otherwise it has exactly the recipients in To and Cc with a valid gossip header, each with the result of the last such header, again with an error only if a gpg command failed. Plugins are called for gossip once, as the last thing, if the message was decrypted, with these addresses, the account's key handle and the decrypted message, and otherwise not at all.",
  "every message, option, state and behaviour of the environment in which python's own functions do not raise InvocationFailure",
  "all messages and behaviours of gpg",
  "muacrypt/account.py:Account.process_incoming", "muacrypt/account.py:Account.process_autocrypt_header", "muacrypt/account.py:Account.process_gossip_headers", "muacrypt/account.py:Account._import_key")
p("The drawing of a message's structure",
  "render_mime_structure draws every message whose multiparts have parts and can be written as text and whose other parts have text, and no other message. The drawing has one line for each part, depth first, with its content type, charset, last known disposition, file name, size and subject; the branches show which part is in which, and whether further parts follow.",
  "all messages, of any depth",
  "all trees of parts",
  "muacrypt/mime.py:render_mime_structure")
p("The keys to which a message was encrypted",
  "If decrypt returns then gpg decrypted the data in one run which succeeded, and the keys returned are those which lines of its stderr name, in order, each with its id, size, type and date and with the user id in the next line if that has one.",
  "all data and outputs of gpg",
  "all outputs of gpg",
  "muacrypt/bingpg.py:BinGPG.decrypt")
p("The text of the bot's report",
  "The text of a reply of the bot, encrypted or in clear, is the report: the address of delivery, the first value of each of eight headers (clipped) or that there is none, the drawing of the message's structure, the account which served the address and what was found in the Autocrypt header (the sender's address with the key handle and preference now recorded, or why there is no key), if the message was encrypted the keys which gpg named when decrypting it, the key handle of the account whose key is in the Autocrypt header of the reply, and the recommendation which decided whether the reply is encrypted.",
  "every message, reachable state and behaviour of the environment in which python's own functions do not raise InvocationFailure",
  "all messages and histories",
  "muacrypt/bot.py:bot_reply", "muacrypt/bot.py:SimpleLog", "muacrypt/mime.py:render_mime_structure")
p("The configured gpg program",
  "Every gpg command which is run for an account runs the program which is configured for the account, with a path found for it earlier in the same call. In mode own the command has the home directory of the account, which was found to exist or was made earlier in the same call; in mode system it has no option for a home directory. Directories and files for gpg are made only in mode own, only the home of the account and its gpg-agent.conf, and only after they were found not to exist.",
  "every call for an account, reachable state and behaviour of the environment",
  "all calls, configurations and histories",
  "muacrypt/account.py:Account.bingpg", "muacrypt/bingpg.py:BinGPG.__init__", "muacrypt/bingpg.py:BinGPG._homedirflags")
p("The version of gpg",
  "The version of gpg is the third word of the first line which it writes for --version, and if that consists of numbers with dots then it is compared number by number; if there is no such word, an exception is raised. When a secret key is used gpg is told to take the passphrase from the command line exactly for versions from 2.1 on. When the home of an account is set up a gpg-agent.conf which allows this is written exactly for versions from 2.0 up to but without 2.1.12, never in place of an existing one, and no other file is written.",
  "all versions which are dotted numbers, and every behaviour of the environment",
  "all versions",
  "muacrypt/bingpg.py:BinGPG.gpg_version", "muacrypt/bingpg.py:BinGPG._ensure_init", "muacrypt/bingpg.py:BinGPG._nopassphrase")
p("Which file is the gpg program",
  "A configured gpg program which contains a path separator and points to an existing file is used directly. A name without separators stands for the first file of this name in the directories of PATH, in their order, where an empty entry is the current directory. If there is no such file then none is found. Every gpg command of an account runs such a file for its configured program.",
  "all names, values of PATH and sets of files; every call, state and behaviour of the environment",
  "all values of PATH and file systems",
  "muacrypt/bingpg.py:find_executable", "muacrypt/bingpg.py:BinGPG.__init__")
p("Key handles come from gpg",
  "Unless a program updates the state of a peer itself, every key of a peer which is recorded with a handle is one which gpg imported into the key ring used for this account, and the handle is the first key which gpg named then (or the id which gpg listed for it if it was named by at most 8 digits). The data recorded for the key are those imported or, for import-public-key, what gpg exported under this handle. The own key of an account was generated by gpg or listed by it as a secret key, and the data recorded are what gpg exported as this secret key. So messages are encrypted to such keys only, and signed with such an own key. This holds wherever calls and commands were interrupted.",
  "every history of calls and commands, interrupted anywhere, every behaviour of gpg and of the environment; every message encrypted afterwards",
  "all histories, interruptions and answers of gpg",
  "muacrypt/account.py:Account._import_key", "muacrypt/account.py:Account.import_keydata_as_autocrypt", "muacrypt/account.py:Account.create", "muacrypt/bingpg.py:BinGPG._find_keyhandle")
p("Walks over a chain which stop early",
  "Looking for the newest entry of a class, as every getter of a state does, gives the same as searching the whole log, though it reads blocks only until the first match. It therefore also succeeds if older blocks are damaged. The length of a chain is the number of entries appended, contains_cid finds exactly the blocks of the chain, get_last_parent gives the oldest one, and dump has one line per entry from the oldest to the newest. None of them changes a file.",
  "every content of the files which holds logs, every chain, class of entries and condition; for the search also all damaged files, if the blocks down to the match can be read",
  "all logs and all damages of older blocks",
  "muacrypt/chainstore.py:Chain.latest_entry_of", "muacrypt/chainstore.py:Chain.iter_entries", "muacrypt/chainstore.py:ChainStates.iter_blocks", "muacrypt/chainstore.py:Block.contains_cid", "muacrypt/chainstore.py:Block.get_last_parent")
p("Several processes which write files in pieces",
  "When several processes work on the same directory, and opening a file for writing empties it and its bytes arrive at once or in pieces while others read, then whenever no file is open for writing all names and chains can be read, and every entry of a chain was appended under its name. A call raises only if it read a file while another process was writing it, and a read which returns entries returns only entries appended under this name.",
  "every number of processes, calls and order of their steps, every division of the written bytes into pieces",
  "all schedules and divisions into pieces",
  "muacrypt/chainstore.py:HeadTracker.upsert", "muacrypt/chainstore.py:HeadTracker.remove_if", "muacrypt/chainstore.py:BlockService.store_block")
p("Texts and header fields are read as python and the mail standards say",
  "Header fields are found by their name in any case of letters, and of several fields with one name the first counts. Setting a field adds one and replaces none, deleting removes all fields of the name and no other. The content type of a message is the text before the first semicolon of its Content-Type, without the white space around it and in lower case, and text/plain if there is no such field or not exactly one slash. White space, lines, parts between separators, sorting, prefixes, substrings, decimal numbers, ASCII and base64 are as python defines them; base64 follows RFC 4648 and its decoding fails for missing characters at the end.",
  "all texts, data and messages",
  "all texts and messages",
  "muacrypt/mime.py:is_encrypted", "muacrypt/mime.py:parse_one_ac_header_from_msg", "muacrypt/mime.py:transfer_non_content_headers", "muacrypt/mime.py:make_ac_header_value", "muacrypt/bingpg.py:BinGPG._parse_list")
p("Removing everything, with some files left",
  "remove and destroy-all remove files one after the other, leave those which cannot be removed, and may be interrupted. Whatever files are left, no read of the store raises: the names are all there or, if the heads file is gone, none, and each chain holds the newest part of what it held, all of it if none of its files was removed. Every program runs on what is left like on logs of which the older parts were cut off, or on an empty store, unless a removed block is written again. Removing again leaves nothing.",
  "every content of the files which holds logs, every set of removed files, and every program afterwards",
  "all subsets of files and orders in which they are removed",
  "muacrypt/account.py:AccountManager.remove", "muacrypt/chainstore.py:BlockService.get_block", "muacrypt/chainstore.py:HeadTracker._getheads")
p("A process which dies beside others",
  "When several processes work on the same directory and write files in pieces, and some of them die in the middle of a call, a file which was open then stays cut, then whenever no file is open for writing all names and chains can be read, and every entry of a chain was appended under its name. A call of another process raises only if it read a file while another process was writing it, and a read which returns entries returns only entries appended under this name.",
  "every number of processes, calls and order of their steps, every division of the written bytes into pieces, every moment of death",
  "all schedules and all moments of death",
  "muacrypt/chainstore.py:HeadTracker.upsert", "muacrypt/chainstore.py:HeadTracker.remove_if", "muacrypt/chainstore.py:BlockService.store_block")
p("What gpg is used for",
  "Each call of the API and each command runs gpg only for a few things and with no other arguments: secret keys are exported only when an account is added and by export-secret-key; keys are made and secret keys listed only when an account is added, keys are deleted only by import-public-key. Incoming mail only imports and decrypts, and only imports with --no-decrypt; outgoing mail only exports public keys and encrypts. peerstate, recommend, find-account, destroy-all and all other calls run no gpg. Every run of gpg is in batch mode, and every use of a secret key brings its own passphrase.",
  "every call and command, every state, environment and behaviour of gpg",
  "all commands with all arguments and answers of gpg",
  "muacrypt/bingpg.py:BinGPG._gpg_outerr", "muacrypt/bingpg.py:BinGPG.get_secret_keydata", "muacrypt/bingpg.py:BinGPG.import_keydata", "muacrypt/account.py:Account.process_incoming", "muacrypt/account.py:Account.import_keydata_as_autocrypt", "muacrypt/cmdline.py:export_secret_key")
p("Mail which goes out twice",
  "The message which process_outgoing returns is returned unchanged if the same account processes it again while nothing was stored in between, and nothing is run for it. An encrypted message is returned unchanged in every later state and by every account.",
  "every message, account, state and behaviour of gpg",
  "all messages and states",
  "muacrypt/account.py:Account.process_outgoing", "muacrypt/account.py:Account.encrypt_mime")
p("Errors while files are read or written",
  "If a file of the store cannot be read or written during a call, the disk being full for example, then the call raises and writes nothing to the store afterwards, and what was stored before can be read as before, with the changes the call made before the error. A command does not exit with 0 then.",
  "every call, every command except scandir-incoming and bot-reply, every state, every operation which fails, and every part of the data written by then",
  "all places of errors and all lengths of what was written",
  "muacrypt/chainstore.py:BlockService.store_block", "muacrypt/chainstore.py:BlockService.get_block", "muacrypt/chainstore.py:HeadTracker.upsert", "muacrypt/chainstore.py:HeadTracker._getheads", "muacrypt/account.py:Account._import_key")
p("What of a message matters",
  "Processing of an incoming message which is not decrypted depends only on the values of From, Date, Message-ID, Autocrypt and Content-Type; of an encrypted one only on these, on To, Cc and Autocrypt-Gossip, and on the body. Other fields, the order of fields of different names and the case of field names change neither the result nor what is stored or run, apart from the message which is handed to plugins. The account is found by To, Cc and Delivered-To alone.",
  "every two messages which agree in these values, every account, state, store and behaviour of gpg, and plugins which do not look at the message",
  "all pairs of messages and states",
  "muacrypt/account.py:Account.process_incoming", "muacrypt/mime.py:parse_one_ac_header_from_msg", "muacrypt/mime.py:transfer_non_content_headers", "muacrypt/account.py:AccountManager.get_matching_account_for_incoming_message")
p("The content of mail which is encrypted",
  "Two messages which are not encrypted yet and differ only in their content are processed alike when they go out: both are encrypted or none, or the same exception is raised, the same is stored and the same commands run with the same arguments; only the data which gpg gets to encrypt, and what plugins get, differ. If the mail is encrypted then the mail which leaves is the same, and process-outgoing and sendmail print and pass on the same.",
  "every two such messages, every account, state, store, and gpg and plugins whose answers do not depend on the content",
  "all pairs of messages, states and answers of gpg",
  "muacrypt/account.py:Account.process_outgoing", "muacrypt/account.py:Account.encrypt_mime", "muacrypt/cmdline.py:process_outgoing", "muacrypt/cmdline.py:sendmail")
p("What of decrypted mail matters",
  "Of a decrypted message only the values of To, Cc and Autocrypt-Gossip matter for incoming mail. Its body and its other fields change neither the result nor what is stored, run or printed by process-incoming and scandir-incoming; all is as if they were not there, apart from the message which is handed to plugins.",
  "every incoming message, every two contents which agree in these values, every account, state, store and behaviour of gpg, and plugins which do not look at the message",
  "all pairs of contents and states",
  "muacrypt/account.py:Account.process_incoming", "muacrypt/account.py:Account.process_gossip_headers", "muacrypt/account.py:Account.decrypt_mime", "muacrypt/cmdline.py:process_incoming", "muacrypt/cmdline.py:scandir_incoming")
p("Encrypted mail can be read by everybody who gets it",
  "If an outgoing message is encrypted, then each address in To, Cc and Bcc and the sender can read it: the message is the output of a run of gpg, and a key of the address is among the recipients of this run.",
  "every message, account, state and behaviour of gpg",
  "all messages with all lists of recipients",
  "muacrypt/account.py:Account.process_outgoing", "muacrypt/account.py:Account.encrypt_mime", "muacrypt/mime.py:get_target_emailadr")
p("Remembering gpg makes no difference",
  "An account object looks for gpg, prepares its directory and asks for its version at most once and remembers the results. As long as the account is not configured anew or removed in the meantime, this gives the same results, the same stored state and the same operations as finding these out at each use, apart from the repeated lookups. (Provided gpg is not replaced and nobody else removes the directory.)",
  "every program which accesses the gpg of accounts, every choice of accesses which are answered from memory, every state and behaviour of the machine",
  "all sequences of accesses and changes of configuration",
  "muacrypt/account.py:Account.bingpg", "muacrypt/bingpg.py:cached_property", "muacrypt/bingpg.py:BinGPG._version_info", "muacrypt/bingpg.py:BinGPG._ensure_init")
p("Reading the chain for each property",
  "Each access to a property of a peer or of the own state reads the chain again. In a process which is alone, recommendations, updates from messages and gossip, the choice of keys for encryption, and whether an account is configured, are the same as if the chain was read once.",
  "every chain, message update, list of addresses, store",
  "all logs and all orders of accesses",
  "muacrypt/states.py:PeerState", "muacrypt/recommendation.py:PeerRecommendation.ui_recommendation", "muacrypt/account.py:Account.encrypt_mime", "muacrypt/chainstore.py:Chain.iter_entries")
p("Several processes at the same time act one after the other",
  "If several processes work on the same directory at the same time and each reading of a chain and each append happens at once, then the result is that of some order of their calls: a newer key of a peer is not replaced by an older one, recommendations are those of some moment, and the keys told by gossip are those used for encryption.",
  "every program, every work of other processes between its operations, every state",
  "all interleavings of the operations of several processes",
  "muacrypt/states.py:PeerState.update_from_msg", "muacrypt/recommendation.py:PeerRecommendation.ui_recommendation", "muacrypt/account.py:Account.encrypt_mime")
p("Sending, whatever happens meanwhile",
  "Plugins may change what is stored, other processes may do so at any time, and files may be replaced: reading the same chain twice in one call may give different results. Still, for every outgoing message: with ENCRYPT yes it is only returned encrypted; with ENCRYPT no nothing is passed to gpg or to plugins and body and content type stay; no ENCRYPT header leaves; gpg is only told keys which a read during the call gave for the addresses in To and Cc and the sender, one for each, or the own key for an own address; plugins are given the body and gossip with such keys; an added Autocrypt header has the exported own key; and no chain is changed by muacrypt itself.",
  "every message, every sequence of answers of the store, the clock, gpg and the plugins",
  "all behaviours of plugins and of other processes at every point of the call",
  "muacrypt/account.py:Account.process_outgoing", "muacrypt/account.py:Account.encrypt_mime", "muacrypt/hookspec.py:process_before_encryption")
p("Receiving, whatever happens meanwhile",
  "Plugins may change what is stored, other processes may do so at any time, and files may be replaced. Still, whatever process_incoming reads: it removes nothing and writes only two kinds of entries. The first kind is in the chain of the sender, with id and date of the message (or the time of processing, if earlier), when a read during the call showed no newer key: with key data and preference of the only valid Autocrypt header for the sender, and with a key handle only after gpg was given this key to import; or without key, when a read showed no message as new. The second kind is written only if decryption is not switched off and the message is PGP/MIME, in the chain of a recipient in the decrypted message: with the key of the last valid gossip header for this recipient, which gpg was given to import, and when a read showed no newer direct key. A message is left out as known only if a read of the sender's chain gave a message with its id, and then nothing is written.",
  "every message, every sequence of answers of the store, the clock, gpg and the plugins",
  "all behaviours of plugins and of other processes at every point of the call",
  "muacrypt/account.py:Account.process_incoming", "muacrypt/account.py:Account.process_autocrypt_header", "muacrypt/account.py:Account.process_gossip_headers", "muacrypt/states.py:PeerState.update_from_msg")
p("Every run of gpg",
  "In every call and every command, also in those which fail, and whatever plugins and other processes do meanwhile: gpg is run only after a configuration was read in this call, and it is the program found for the gpgbin of this configuration, with the home of that account in mode own, which was found or made before, and with none in mode system. For a call on an account and for a command which names an account it is that account. Directories and files are only made in such a home, and only if they were found to be missing. A run which needs the secret key directly follows a successful run of the same gpg which told its version, and has the options for this version with which no passphrase is asked for.",
  "every call, every command, every sequence of answers of the store, gpg, the file system and the plugins",
  "all failures at every point, all behaviours of other processes",
  "muacrypt/account.py:Account.bingpg", "muacrypt/bingpg.py:BinGPG._gpg_outerr", "muacrypt/bingpg.py:BinGPG._nopassphrase", "muacrypt/bingpg.py:BinGPG._ensure_init")
p("Secret keys are shown by export-secret-key only",
  "Take two runs which start in states that are the same apart from the secret keys recorded in them, and in which the environment behaves in the same way apart from the bytes which gpg writes when it is told to export a secret key. For every call and every command but export-secret-key: the result, exit status or exception, everything printed, every mail sent, everything passed to plugins and every command line and input of gpg are the same in both, and the states afterwards are again the same apart from recorded secret keys. So nothing but export-secret-key gives away a secret key, in any history.",
  "every call, every command, every history with interruptions, every pair of environments and of states",
  "a property of pairs of runs; no test can show that a value has no influence at all",
  "muacrypt/bingpg.py:BinGPG.get_secret_keydata", "muacrypt/account.py:Account.create", "muacrypt/account.py:Account.export_secret_key", "muacrypt/states.py:OwnState.append_keygen", "muacrypt/cmdline.py:export_secret_key")
p("An account does not see the others",
  "A call on an account and a command which names one give the same result, exit status or exception, print the same, run the same programs with the same input and change the state of the account in the same way, whatever settings, keys, peers and verifications of other accounts are stored and whatever other accounts there are. The environment, e.g. a key ring which accounts share in mode system, is the same in this comparison. Lookups by address and the list of accounts are no calls on an account.",
  "every call on an account, every command which names one, every history of them with interruptions, every pair of stores which agree on the account, every environment",
  "a property of pairs of runs over all contents of other accounts",
  "muacrypt/account.py:Account", "muacrypt/states.py:States", "muacrypt/chainstore.py:HeadTracker", "muacrypt/cmdline.py")
p("What is known about other people does not matter",
  "A call on an account and a command which names one give the same result, exit status or exception, print the same, run the same programs with the same input and change what concerns them in the same way, whatever is stored about people whom they do not concern. A recommendation concerns the addresses it is asked for, outgoing mail the sender and those to whom it is written, incoming mail the sender and, if it gets decrypted, those to whom the message in it is written, an import the address given. Settings, exports, headers, decryption and verifications concern nobody else. Excepted are what lists all peers: the list of peers and the verbose status.",
  "every call on an account but the list of peers, every command which names one but the verbose status, every interruption of a call, every pair of stores which agree on the people concerned, every environment",
  "a property of pairs of runs over all that may be known about others",
  "muacrypt/account.py:Account", "muacrypt/states.py:States", "muacrypt/cmdline.py")
p("When something is done does not matter",
  "With another clock, a call or a command gives the same result, exit status or exception, prints the same, runs the same programs with the same input and stores the same, unless it is an import of a key or a scan of a directory in which other files or mails count as at most 90 days old, or it processes mail whose date is later than what one of the clocks shows. The import of a key records the time, but its result and the programs which it runs do not depend on it. In particular, what is stored at the end of a history without imports and scans does not depend on when mail is fetched, if no mail is dated later than that. Apart from what is stored each block carries the time at which it was written, which no property reads.",
  "every call and command but the import of a key, every history of them without scans and with interruptions, every pair of clocks, every store and environment",
  "a property of pairs of runs over all clocks",
  "muacrypt/account.py:effective_date", "muacrypt/account.py:Account.process_incoming", "muacrypt/chainstore.py:Chain.append_entry", "muacrypt/bot.py:bot_reply")
p("Mail about different people may be processed in any order",
  "Of some mails for an account no two are about the same address (that of the sender, and for mail which gpg decrypts also those in To and Cc of the message in it), none is dated later than the clock shows, and what gpg answers does not depend on what it was asked before. Whatever order they are processed in, the result or the exception for each mail is the same, and all that is stored is the same in the end.",
  "every list of mails, with and without decryption and with and without skipping of known ones, every permutation of it, every state and environment",
  "a property of pairs of runs over all permutations",
  "muacrypt/account.py:Account.process_incoming", "muacrypt/account.py:Account.process_autocrypt_header", "muacrypt/account.py:Account.process_gossip_headers")
p("Texts for people leave nothing out and do not fail",
  "make_displayable gives a text for everything a file name can be: the empty text for none, a text itself, bytes decoded as UTF-8, and otherwise one character for each byte; its last line, which would raise, is never reached. shortrepr gives at most 50 characters, leaves shorter texts alone and keeps the first 23 and last 23 characters of longer ones. The lines of the text of a gpg failure are the command with its status, all lines of its output and of its error output, indented and in order, and the additional information if there is any.",
  "every name, text and sequence of bytes, every decoder of UTF-8, every failure with a command of one line",
  "all byte sequences and texts",
  "muacrypt/mime.py:make_displayable", "muacrypt/chainstore.py:shortrepr", "muacrypt/bingpg.py:InvocationFailure.__str__")
p("What is known about a person and recommended for them changes only by what concerns them",
  "Whatever calls and commands happen to an installation, also if the process dies within them: all that an account has stored about an address is the same as before if no mail processed in that account concerns the address (it is neither the sender's nor, for decrypted mail, that of a recipient of the message inside), no key was imported for it and no direct update made for it, and the account was not set up, changed or removed. So then is the recommendation for any addresses of this kind; mail of the sender, who is left out of recommendations, does not count.",
  "every oracle, account name, list of addresses, history of calls and commands, interrupted anywhere, and every state",
  "all histories about other people, all points of interruption",
  "muacrypt/account.py:Account.process_incoming", "muacrypt/account.py:Account.get_recommendation", "muacrypt/account.py:Account.import_keydata_as_autocrypt", "muacrypt/recommendation.py:Recommendation.ui_recommendation")
p("Peers and recommendations follow the Autocrypt specification",
  "Whatever mails of a peer and gossip about them are processed, in whatever order: last_seen, autocrypt_timestamp, the key to encrypt to, whether it comes from the peer, and the preference are those which the update rules of Autocrypt Level 1 give. The recommendation is the one of Autocrypt Level 1 for this state, the own preference and whether the mail is a reply.",
  "every oracle, account, address, sequence of mails and gossip with any dates, own preference and reply flag",
  "all sequences of mails and gossip of any length, compared with an independent statement of the specification",
  "muacrypt/states.py:PeerState.update_from_msg", "muacrypt/states.py:PeerState.update_from_msg_gossip", "muacrypt/recommendation.py:PeerRecommendation.ui_recommendation", "muacrypt/account.py:Account.process_incoming")
p("On Windows programs are found by Path, PATHEXT and SYSTEMROOT",
  "On Windows, with Path and PATHEXT set, find_executable returns for a relative name the first existing file in the order of the directories of Path, and within a directory of the endings in PATHEXT followed by no ending; the current directory comes last if Path does not have it, and %SystemRoot% in a directory stands for the value of SYSTEMROOT. It returns None exactly if there is no such file.",
  "every value of the three variables, every name, every set of existing files",
  "all values of environment variables; the tests run on POSIX",
  "muacrypt/bingpg.py:find_executable")
p("A call runs gpg, stores entries and sends mail only so often",
  "Apart from asking for the version, each call of the API runs gpg at most as often for each task, and stores at most as many entries, as a table says (e.g. a mail is prepared with at most one export and one encryption). For an incoming mail gpg decrypts at most once, and there is at most one import and one entry for the sender and for each addressee of the decrypted mail with a valid gossip header. An import by the user takes at most three imports, one deletion and one entry for each address. Calls send no mail; a command sends at most one, and only sendmail and the bot with a mail server do. So over a whole history, in which anything may be interrupted, no more mails are sent than such commands are run, and no more keys are made than accounts are added without a key of the user.",
  "every call and command, every state, every behaviour of gpg and the system",
  "all calls, states and answers of gpg; tests do not count what is done",
  "muacrypt/account.py:Account", "muacrypt/account.py:AccountManager", "muacrypt/bingpg.py:BinGPG", "muacrypt/cmdline.py:sendmail", "muacrypt/bot.py:bot_reply")
p("Nothing in a mail becomes an argument of gpg",
  "In every call and command, each argument on the command line of gpg is one of a fixed list of words of the program, the key given by the user in this call, a handle in a stored entry, a key id which gpg itself printed, or the name of a temporary file. After any calls and commands, stored handles are themselves ids which gpg printed. So if ids in listings and names of temporary files do not begin with a dash then no mail, address, header or key can slip an option to gpg.",
  "every call and command, every path with any answers of store, gpg and system; every interrupted history",
  "all mails, addresses, headers and answers of gpg; a test only tries a few hostile mails",
  "muacrypt/bingpg.py:BinGPG", "muacrypt/account.py:Account.encrypt_mime", "muacrypt/account.py:Account.process_incoming")
p("How an Autocrypt header is folded does not matter",
  "Two values of an Autocrypt header which differ only in their white space, with some in the same places, like line breaks or tabs which servers or the generator put there, are read the same: the same key, address and preference, or an error for both. Incoming mail is processed the same, with the same runs of gpg and the same state afterwards. So a key which one installation sends arrives at another one even if the header was folded anew on the way. The address must not contain white space, or mean the same in another folding.",
  "every header value, every other folding of it, every mail and state, two installations",
  "all ways to fold a header with any content; tests have a few mails as they were sent",
  "muacrypt/mime.py:parse_ac_headervalue", "muacrypt/mime.py:parse_one_ac_header_from_msg", "muacrypt/account.py:Account.process_incoming")
p("Bots do not answer each other without end",
  "When the reply of a bot reaches other bots, as it does if several are in To or Cc, these do not answer it. So to a mail there are only the replies of the bots addressed in To, and no replies to replies.",
  "any number of bots with their own states and environments, every mail and every way of the replies, with everything but From and To changed",
  "chains of any length of mails between any number of bots; a test runs the bot with single mails",
  "muacrypt/bot.py:bot_reply")
p("The order of attributes in an Autocrypt header does not matter",
  "Two values of an Autocrypt header with the same attributes in another order are read the same: the same key, address and preference, or an error for both. Unknown attributes may be anywhere and any number of times. Incoming mail with them is processed the same, with the same runs of gpg and the same state afterwards. Attributes which are used must occur only once, as the last one counts otherwise, and all must have names.",
  "every header value, every order of its attributes, every mail and state",
  "all orders and unknown attributes; tests have headers in the order in which muacrypt writes them",
  "muacrypt/mime.py:parse_ac_headervalue", "muacrypt/mime.py:parse_one_ac_header_from_msg", "muacrypt/account.py:Account.process_incoming")
p("Several devices of a user agree",
  "Two installations of a user which processed the same mails, in any order and any number of times, with any other mail in between, encrypt to the same key for a peer and give the same recommendation. In particular it is the key of the peer's newest mail with one.",
  "every set of mails, every two orders of processing them with repetitions, every two accounts, environments and histories before",
  "all orders of any number of mails on two installations; tests have one installation and one order",
  "muacrypt/states.py:PeerState", "muacrypt/recommendation.py:Recommendation", "muacrypt/account.py:Account.process_incoming")
p("Forged mail does not last",
  "Whatever was processed before, forged mail included, the key in a mail which the peer sends afterwards is used, and stays in use until a newer mail comes from the address or the user imports a key: neither older mail, delivered late or once more, nor gossip brings the forged key back.",
  "every history before, every mail with a key which is dated after it, every history afterwards without newer mail from the address",
  "all histories before and after, including interrupted calls; tests process two or three mails",
  "muacrypt/account.py:Account.process_incoming", "muacrypt/states.py:PeerState.update_from_msg")
p("An account keeps its key",
  "As long as an account is not deleted it goes on to exist and keeps its key, whatever happens: calls which fail or in which the process dies, another attempt to add an account of this name, changes of settings, mail with keys for its own address. So the key in the Autocrypt header of every mail which it sends is the one which gpg exports under the handle reported when the account was made. Its name and way to use gpg never change, other settings only by what the user gives.",
  "every history of calls and commands, complete or interrupted, without deletion of the account; every mail sent afterwards",
  "unbounded histories with interrupted calls; tests modify an account once",
  "muacrypt/account.py:Account.create", "muacrypt/account.py:Account.modify", "muacrypt/account.py:AccountManager.add_account", "muacrypt/states.py:OwnState")
p("Whose key it is",
  "Every key recorded for an address was in the one valid Autocrypt header of a mail from this address, or in the last valid gossip header for it of a mail which gpg decrypted and which went to this address as well, or was imported or recorded by the user for it. So every key to which mail is encrypted has such a source for the very recipient for whom it is used, or is the own key, used for an own address.",
  "every history of calls and commands, complete or interrupted anywhere, every account, address and mail sent afterwards",
  "a statement about all histories and all places where a process may die; tests look at single keys after one or two mails",
  "muacrypt/account.py:Account.process_incoming", "muacrypt/account.py:Account.process_gossip_headers", "muacrypt/account.py:Account.encrypt_mime", "muacrypt/states.py:PeerState")
p("Changed files are noticed",
  "A block file is named by the hash of its content and names the block before it. So if files of a store were changed, replaced or removed by somebody else, then a chain is read as before or the read ends with an exception.",
  "every store, every other content of its files, every chain",
  "all ways in which files can be changed; tests only read files which the code has written",
  "muacrypt/chainstore.py:BlockService.get_block", "muacrypt/chainstore.py:Block", "muacrypt/chainstore.py:HeadTracker._getheads", "muacrypt/chainstore.py:Chain.iter_entries")
p("Other fields of outgoing mail",
  "Of the fields of outgoing mail only From, To, Cc, Autocrypt, ENCRYPT and those about the content are used. All others are passed on with the same names and values and in the same order, whether the mail is encrypted or not, and make no difference: with other values, more of them or without them the same is stored and run, with the same data to encrypt, the same exception is raised, and the result is the same but for these fields.",
  "every message, every set of such fields, every account, state, store and behaviour of gpg and plugins",
  "all fields and values; tests look at a few fields of a few messages",
  "muacrypt/account.py:Account.process_outgoing", "muacrypt/account.py:Account.encrypt_mime", "muacrypt/mime.py:transfer_non_content_headers", "muacrypt/mime.py:make_content_message_from_email")
p("List of subcommands",
  "After any calls of add_command, list_commands gives the names in the order added if no name was added twice, and fails with AssertionError otherwise; the command run for a name is the one added last under it. So the help of muacrypt lists its own commands and then those of plugins, unless a plugin adds a name which is taken: then the plugin's command is run in place of the other, and asking for help fails.",
  "every sequence of commands added, every set of plugin commands",
  "all sequences; tests know the commands of muacrypt and one of a plugin",
  "muacrypt/cmdline_utils.py:MyGroup.add_command", "muacrypt/cmdline_utils.py:MyGroup.list_commands", "muacrypt/cmdline.py:make_plugin_manager")
p("No field can be slipped into mail",
  "If in all fields of a message each line but the first begins with a blank or a tab, as is so in every message read from a file, then it is so in all fields of the mail which is made of it: of the result of process_outgoing, of the message which is encrypted for it with its Autocrypt-Gossip fields, of what process-outgoing prints and sendmail passes on, and of the reply of the bot. So in their text no line of a value can be taken for another field. This supposes that python's functions for addresses break no lines.",
  "every message, account, state, store and behaviour of gpg and plugins; all functions for addresses which keep lines together",
  "all values of all fields, and all keys and addresses; tests use fields of one line",
  "muacrypt/mime.py:make_ac_header_value", "muacrypt/account.py:Account.process_outgoing", "muacrypt/account.py:Account.encrypt_mime", "muacrypt/bot.py:bot_reply")
p("What was in encrypted mail is told to nobody",
  "If gpg decrypted to other texts, whose mail has the same values of To, Cc and Autocrypt-Gossip, then every call of the API, every command and every history of them, including processes which died, would end alike, store the same, print the same, send the same mail, write the same files and give the same data to gpg. So nothing else that is encrypted in mail, like its text or subject, ever leaves through the program; this includes the bot, which replies to encrypted mail, maybe in clear. Only plugins get the decrypted message.",
  "every history, message, store, behaviour of gpg and other texts of decrypted data; all plugins which do not look at the decrypted message",
  "this compares all pairs of runs with different texts; tests look at one run and for words they expect",
  "muacrypt/account.py:Account.process_incoming", "muacrypt/account.py:Account.decrypt_mime", "muacrypt/bot.py:bot_reply", "muacrypt/cmdline.py:scandir_incoming")
p("A known key stays known",
  "If some key of a peer is known, so that mail to them can be encrypted, then a key is known ever after: no later mail with or without a key, no gossip, no import, no other command and no process which dies in between makes encryption impossible again. The exceptions are removal of the account, a run of gpg which ends with an error, and API calls which record a key without a key handle. While none of these happens the recommendation for the peer is never `disable`.",
  "every history of calls and commands, state, peer, behaviour of gpg and point of interruption",
  "a key can get lost through any order of messages, gossip and interruptions; tests try a few orders",
  "muacrypt/account.py:Account.process_incoming", "muacrypt/account.py:Account._import_key", "muacrypt/states.py:PeerState.update_from_msg", "muacrypt/states.py:PeerState.update_from_msg_gossip")
out = os.path.join(os.path.dirname(os.path.dirname(os.path.abspath(__file__))), "properties.jsonl")
with open(out, "w") as f:
    for x in P:
        f.write(json.dumps(x) + "\n")
print(len(P), "properties")
