# Formal model of muacrypt: design

Code under study: `/repo` (muacrypt, python). Nothing from `/repo` is built or run; the model in
`/verif/lean/Verif` is written from reading it. Python 3 semantics (up to 3.11, since the code needs
`distutils`) are modelled; the python 2 branches are not.

## 1. Layout

| directory | content |
|---|---|
| `Verif/Py/` | the bits of python the code relies on: `str` methods, base64, message headers |
| `Verif/Model/` | the code, function by function, each definition citing file and lines |
| `Verif/Spec/` | small specifications used to state properties, independent of the model's helpers; `Spec/Mail.lean` has the words for addresses, message ids, encrypted mail, delivery and gpg command lines, with lemmas which connect them to the model |
| `Verif/Lemmas/` | helper lemmas |
| `Verif/Props/` | the property theorems, with a concrete `example` beside each |

`MANIFEST.json` maps each property of `properties.jsonl` to theorems.

## 2. Execution model

* A python function with effects is a `Prog α`: a tree of operations (`pure`, `raise`, `op o k`).
  Exceptions are values; `try/except/finally` is defined by recursion over the tree; state changed
  before an exception stays changed, as in python.
* Operations: store operations (read a chain, append an entry, list head names, remove heads, wipe),
  reading the clock, and *external* operations (run gpg, temp files, uuid, PATH lookup, plugin hooks,
  output).
* Externals are resolved by an arbitrary oracle over an arbitrary hidden state type: theorems are for
  all oracles, i.e. for every behaviour of gpg, plugins and the environment. Every external operation
  and its result is recorded in a trace, so "gpg was never asked to encrypt" is a statement about it.
* The clock is an arbitrary function from reads to times. Monotonicity is a hypothesis where needed.
* Two stores implement the store operations: `Disk` (block files named by hash, heads file, bytes,
  serializer) and `Store` (a list of names with logs). `C01` proves that every program behaves the same
  over both, so all other theorems are stated over `Store`.
* "Reachable state" means: reached from the empty store by any history (`Happening`): calls of the public API (`ApiCall`) and
  commands of the command line and the bot (`Cmd.Command`) with any arguments, each ending normally or by exception, or after any
  number of operations because the process died (`runFor`), and arbitrary changes of the environment from outside between them. Within such a history an append to the store happens or not; files
  torn by a crash are the subject of `C03` and `C97`.

## 3. Trusted base

* The Lean 4.33.0 kernel, and the axioms `propext`, `Classical.choice`, `Quot.sound` (see section 6 for
  the per-theorem list). No axiom is added; no `sorry`, `native_decide`, `bv_decide`.
* That the definitions in `Verif/Py` and `Verif/Model` describe the code. Each cites its lines.
* Externals which are parameters (structure `Env` and the oracle), about which nothing is assumed unless
  a theorem states a hypothesis: `email.utils.parseaddr/getaddresses`, `re.match` on account patterns,
  date parsing, utf-8 decoding, the execnet serializer, SHA-256, message parsing and flattening, gpg,
  plugins, the file system for temp files, smtp, click.

### Simplifications
* Time is an integer number of units of 2^-1074 seconds. Every finite double is one exactly; only the
  rounding of a float subtraction near the 35 and 90 day boundaries is not represented. NaN and infinities
  do not occur (`time.time()` and `mktime` do not return them).
* `str.lower` is exact for ASCII and given by a parameter outside ASCII; `isalnum` likewise.
* Each method of a state object reads its chain once; the code reads it once per property access. In a
  single process there is no difference (`C121`). Interleavings of processes are treated at the level of file
  operations (`C04`, `C05`) and of operations on chains (`C122`).
* `cached_property` is modelled on its own (`C62`). `Account.bingpg` and `BinGPG.gpg_version` are
  recomputed on each use in the model, which adds lookups to the trace. `C120` shows that on a machine which
  answers them alike each time this is the only difference.
* Iterators over a chain are lists; the code reads blocks lazily (`Model/Views.lean`; `C108`: no difference on files which
  hold logs). `os.path.exists` followed by reading the
  same file is one operation in `Model/Chainstore.lean`.
* Several processes (`C04`, `C05`): one step is the read or the write of a whole file. In `Model/Pieces.lean` (`C109`) a write is a
  truncation followed by the bytes at once or in pieces, with other processes between; a read is one step; a process may die
  between any two steps (`C112`). Crashes (`C03`, `C97`): a write is a truncation followed by the bytes, cut anywhere, in one process.
* `Model/Chainstore.lean` carries a ghost flag for a block file overwritten with other bytes. No program
  reads it.
* Header values are strings. Raw 8-bit octets in headers, which python represents by surrogate escapes and
  `Header` objects, are not representable.
* The command line (`Model/Cmdline.lean`, `Model/Commands.lean`) starts after option parsing by click. Log output on stderr
  is left out; colours and the formatting of dates, numbers, exceptions and `repr` are parameters (`CmdEnv`). What is
  passed to sendmail is the message, its flattening is not part of the model.
* The bot's report (`Model/Report.lean`) is the text before it is encoded as utf-8 or base64 by `MIMEText` (`encodeText`). File names, charsets, disposition
  parameters and sizes of multiparts, which python's `email` computes, and the text of tracebacks are parameters (`ReportEnv`).
* Log output, `__repr__`, progress text and html rendering are not modelled. I/O errors of the store's own
  files (ENOSPC, EIO) are the subject of `C115` (`Model/Faults.lean`); elsewhere the files can be read and written.
* `shutil.rmtree` of the directory (`remove_all`) is one step for the store. What it leaves if it is interrupted, or cannot remove some
  of the files, is the subject of `C111` and `C97`.
* Plugins get the account object and could change the store themselves. In runs of the model a plugin changes only the environment and
  the message it returns. `C123` and `C124` hold for all answers of the store, hence also if plugins change it.
* Error messages inside exceptions are dropped; the exception class is kept.

### Modelled and not modelled, by file
| file | modelled | not modelled |
|---|---|---|
| `chainstore.py` | block service, heads, chains, walks over them, `dump`, `shortrepr` | |
| `states.py` | manager, own, peer and out-of-band chains, entries, `PeerState.__str__` | |
| `myattr.py` | conversion and validation of entry fields as far as they can fail | `attrs` itself |
| `account.py` | all of it | `__repr__`, `__str__` |
| `recommendation.py` | all of it | |
| `mime.py` | header parsing and making, gossip, encryption test, message building used by the account and the bot, `render_mime_structure`, `make_displayable` | `gen_boundary` |
| `bingpg.py` | command lines, temp files, key listing, encryption, decryption, import, export, signing, packet lists, version comparison, the pattern of `decrypt`, `find_executable` | `killagent` |
| `bot.py` | `bot_reply` with the text of its report, `SimpleLog` | encoding of the text |
| `cmdline.py`, `cmdline_utils.py` | all commands with their output and exit status, `MyCommand.invoke`, `MyGroup`, `trunc_string` | click's parsing, help texts |
| `hookspec.py` | the hooks for gossip and encryption as oracle operations | pluggy |
| `testing_plugin.py` | | all (test support) |

## 4. Properties: what is modelled and how it is proved

Storage (`chainstore.py`, `states.py`)
* **C01** `Disk` against `Store`: simulation relation "heads file decodes to these names, and from each head
  the parent links spell the log". Proved for every operation, then by induction for every `Prog`. Hash
  collisions are tracked by a ghost flag (set when a block file is overwritten by different bytes), the
  serializer law `loads (dumps v) = v` is a hypothesis with a concrete instance.
* **C02** invariant of the same relation; the walk is a fuelled function and the theorem says the number of
  block files is enough fuel; determinism of links gives that no block repeats.
* **C03** file writes as truncate, then byte-wise writes; crash after any prefix. New block: the state
  before is preserved. Heads-file writes: false (the file is rewritten in place), shown by a witness. The `_partial` theorem lists
  all outcomes: state before, state after, torn heads file, torn file of a block which existed.
* **C04** false: lost update of the heads file, shown by a schedule. `_partial`: writers whose heads
  read-modify-write sections do not overlap.
* **C05** small-step semantics of processes whose steps are whole-file operations; invariant by induction
  over arbitrary schedules.
* **C06** injectivity of head name formatting on alphanumeric account names; peers listing.

Peer state (`states.py:PeerState`)
* **C07, C11, C54** invariants over reachable states by induction over API calls.
* **C08** abstract spec: maximum of dates over the updates; permutation invariance.
* **C09, C10, C13** state-transition lemmas on update functions, for all states.
* **C12** false (witness: key message dated between); `_partial`: exact characterisation of when it drops.
* **C14** false (gossip is ordered by arrival); `_partial`: it is the last accepted.
* **C15** false for future-dated mail and failed imports (witnesses); `_partial`: for the others; `C15_mail_partial` for whole mails, with any history between, `C15_encrypted_partial` for encrypted mails with gossip.
* **C16** run equation on traces; false if `mktime` raises `OverflowError`. **C17** false without Message-Id; `_partial` with distinct ids.
* **C18** invariant: dates bounded by clock reads.
* **C19** false (witness); `_partial`: import succeeds, or no key was known.

Incoming mail (`account.py`, `mime.py`)
* **C20, C22, C53** frame theorems on `Prog` (which heads an execution can append to).
* **C21** decision logic of header selection plus run equation.
* **C23** false (outer headers are merged before gossip is read); `_partial`: no gossip header outside.
* **C24** false (`=x` and gossip import failure); `_partial`: exact condition.
* **C25, C26** round trip through concrete base64, folding and attribute parsing.
* **C27, C28, C29** decision logic over all strings / header lists.

Recommendation (`recommendation.py`)
* **C30, C31, C32** refinement to a table; minimum over a linear order; reachable-state invariant.

Outgoing mail
* **C33–C43** run equations and trace predicates over `process_outgoing`, `encrypt_mime`, `decrypt_mime`.

Accounts
* **C44–C53, C55, C56** run equations plus reachable-state invariants; C51 and C56 also over histories with commands and
  interruptions (`C51_stays`, `C51_source`, `C56_kept`, `C56_source`). **C46** false (half-created account),
  `_partial`; **C47** the key handle argument of `mod_account` is ignored; **C48** verification records
  and the gpg home survive.

gpg wrapper (`bingpg.py`)
* **C57–C62** wrapper as `Prog`; trace predicates for temp files; string functions for parsing.

Bot, command line
* **C63, C64** trace of `bot_reply`: every delivery event is traced back to `makeReply`. **C63** false
  (substring test), **C64** false (reply to itself); `_partial` for both.
* **C65, C66** `SimpleLog` as a small language of nested sections; `trunc_string` on all strings.
* **C67, C68, C70, C74** commands as programs over the same API, each with the calls it makes. **C69** and
  **C73** false; `_partial`.

Added while modelling
* **C71** when outgoing mail is encrypted, as a condition on the recorded state. **C72** every gpg call of an
  account works in the home of that account. **C75**, **C76** what is refused before anything happens.
* **C77** and the message versions of **C08–C10**: `process_incoming` as a list of peer events
  (`incoming_fold`), then the order argument of C08 over all lists.
* **C78** a predicate on programs (`Heeds`): after a failed operation every path ends with an exception. For commands: the exit status is
  not 0 (`CommandFailed` leaves out the search for a program, where finding none is no failure).
* **C79, C80, C82** two installations with independent states, clocks and oracles; they share the pure library functions (`Env.at`). The
  message is carried from one to the other with stated headers unchanged (`Arrives`). **C81** is the other direction of C22.
* **C83** the commands with output and exit status (`Cmd.Command.prog`). What is printed or piped is read off the trace (`World.printed`,
  `World.piped`); the message is traced back to a run of `process_outgoing` of the first matching account (`Outbound`).
* **C84–C86** the printed lines of a successful command (`Said`: stored nothing, printed exactly this, piped nothing), stated with
  the specifications of the API properties (`FirstAccount`, `OwnAcValue`, `OwnKey`, `Weakest`, `Newest`).
* **C87, C88** the commands which change accounts, with the specifications of C44–C48 and C55 (`Wanted`, `SameOthers`, `Gone`,
  `ShowsKey`), and what they print first (`SaidFirst`); `Untouched` is an unchanged store up to the mark of initialisation.
* **C89** all lines of `status` (`AccountShown`, `PeerRow`); the order of the user ids is that of a python set, any permutation here.
* **C90, C91** the bot: `HeaderOf` and `EncryptedFor` describe the reply by the gpg runs in the trace; the stored state is that of a
  run of `process_incoming` from the same store.
* **C92–C94** the runs of gpg in the trace, with their command lines, input and result (`Gpg`, `commandLine`, `Unlocks`, `KeyRequest`,
  `NamedKey`). **C95** the packet list as an inverse: `PacketText` says which lines stand for which packets.
* **C96** the processing of a message cut after any number of operations. Programs are `Late` if they store only in their last operation.
  False: the sender's record is stored before decryption.
* **C97** `C03` lifted to whole programs: `Prog.Crash` lists the possible disks, `runFor` the states in between.
* **C98, C99** the lines of `process-incoming` and `scandir-incoming`: `IncomingLine` and `FileText` relate the line to the states before
  and after; `Complaint`, `HeaderFault` and `AttrFault` say which fault of which header is reported.
* **C100** the fields of the result: `HeaderResult`, `GossipResult`, `DecryptedMessage`; an import error means that the trace has a gpg
  command with an error status (`GpgFailed`), under the law `PlainErrors`: the functions of python and its libraries do not raise
  muacrypt's `InvocationFailure`. Of the dictionary given to plugins only the addresses are modelled.
* **C101** the drawing as a relation between messages and lines (`Drawn`), and `Drawable` for the messages which have one.
* **C102** the keys `decrypt` returns: `KeyLines` reads them off the lines of stderr. False if a key has no user id.
* **C103** `ReportText` lists the lines of the report; what it tells is stated by the specifications of C90, C99–C102 and of the recommendation.
* **C104** the logic of C72 for both modes: `RightRuns` says which program and which home options every gpg run has; a path counts only if
  it was found before in the same call. **C105** `Says` and `AtLeast` state the version and its order without the model's `LooseVersion`.
* The pattern of `decrypt` is a backtracking matcher (`Py/Regex.lean`); `NamingLine` states its result as longest divisions of the line,
  and `C102_parts`, `C102_recognised` prove that they agree.
* **C106** `find_executable` as a function of PATH and of which files exist. Programs of the model call it as an operation; `SearchesPath` says
  that the environment answers it by this function. False for relative paths with separators.
* **C107** an invariant between the store and the trace of what was done outside: every recorded key handle points to the run of gpg in
  which it was named. `ImportedAs`, `ExportedAs`, `OwnSource` are stated on the trace alone. `Kept` says that the invariant holds
  after every number of operations. Direct updates of peer states (`peerMsg`, `peerGossip`) are excluded, their caller chooses the handle.
* **C108** `Model/Views.lean` follows the generators of the code: a block is read when the loop reaches it. The theorem compares with a search
  in the log of the abstract store; `C108_search_damaged` assumes only the readable path from the head (`Reaches`).
* **C109** rely/guarantee: every step of a process keeps an invariant over the files which are closed; an open file is one of empty, a prefix
  or complete. `disturbed` marks a process which read a file that another had open. False for two writers of the same file in pieces.
* **C110** the functions of `Verif/Py` stand for python's library and are used in the model and in statements. Each is determined by a
  separate description (relations for lines, parts, fields; lists of code points; RFC 4648 by bits).
* **C111** a chain which ends at a missing block (`Cut`) in place of one which ends at a block without parent (`Linked`), and the same
  simulation as for `C01`.
* **C112** the invariant of `C109`: a cut block file does no harm while no writing of this block has ended, for then nothing leads to it. `C109` is
  the case without deaths.
* **C113** a list of uses for each call and command, each use with the form of its command line; what gpg is told to do is the first of
  its command words after the program, `--batch` and `--homedir`. That all of them are needed is shown by examples.
* **C114** a returned message has an Autocrypt field and no ENCRYPT field, so the second time only the decision is left; it depends on the
  store and the addresses alone.
* **C115** `Faulty` describes runs in which operations of the store fail, any number of them, each leaving what a process dying in it would
  leave. `GivesUp` is proved of every function: after a failed operation there is no write and no return; then the results of `C97` apply.
* **C116** two messages give the same program, or programs which differ only in what is handed to a plugin (`AlikeProgs`). That the named fields
  are all read is shown by an example.
* **C117** `Veiled` relates programs which differ only in the data for `gpg --encrypt` and the content for plugins; that the encrypted data
  do not show the content is assumed of gpg (`ContentBlind`), so the theorem says that there is no other way out.
* **C118** the same gpg, but another function in place of the parser of decrypted data, whose messages agree in three fields; `keepOnly` is the
  one which drops all else. The programs are related by `AlikeProgs` of `C116`.
* **C119** `ReadableBy` ties the returned message to a run of gpg and its recipients. False for Bcc.
* **C120** `Remembers` relates a program to all programs which answer some of its accesses from memory, and
  `Settled` says what of the machine has to stay as it is. `Fewer` compares the worlds: everything is equal,
  apart from lookups missing in the trace. The concrete machine has files.
* **C121** `Model/Accesses.lean` has the methods with a read for each access. `Reads` says that a program gives a function of the log.
* **C122** `runAmid` runs a program while others do arbitrary work between its operations. False for work on the same chain.
* **C123** `Prog.Path` says which operations with which answers, and which end, a program may have, if every answer may be anything of its
  type. What holds for every path holds for plugins which change the store, for other processes, and for damaged files.
* **C124** The same for incoming messages: which entries may be written, in terms of the message and of the answers during the call
  (`DirectThen`, `GossipedThen`).
* **C125** `AllProper`: each operation on gpg is judged by all operations before it in the same call. For every path, hence also for calls
  which fail and for changes of the configuration during the call.
* **C126** Two runs: `OraclesLike`, `WorldsLike` and `Discreet` (`Lemmas/Secret.lean`, `Props/Secret.lean`). `Like` relates two programs,
  so that the theorems cover the values returned too. An example shows that the relation does tell runs of `export-secret-key` apart.
* **C127** `viewOf n` is what account `n` can see of a store, `SeesOnly n p` compares runs in two stores with the same view. Together with
  `C53` (no call on an account changes another one) this separates accounts in both directions.
* **C128** `About env n P` are the logs of the account and of the people in `P`, `DependsOn V p` compares runs in two states with the same logs in
  `V`. An address is taken apart up to three times on its way to the name of a log, and `parseaddr` isn't assumed to leave an address as it is;
  `Spelled` names all the addresses which may come out.
* **C129** `OtherClock env ms` relates states with different clocks which give no mail of `ms` another effective date. `Anytime E p` says that
  equivalent readings of the clock lead to the same continuation. For scans `SameAges` says that the same files and mails are recent. For imports `AlikeFor n` relates states with the same machine,
  trace and own log of the account; clocks and what is stored about peers may differ. The time in a block file is not part of the abstract store.
* **C130** `Arrival.Concerns` names the addresses a mail is about, with what gpg can give for its encrypted part. `Footprint O R W p`: with the answers of `O`, `p`
  reads logs in `R` and writes logs in `W`. The hypothesis `Indifferent O` leaves out that gpg's answers may depend on keys imported before.
* **C131** pure functions of `Model/Texts.lean`; `repr`, `%d` and `out.__str__()` are given as texts.
* **C132** a mail concerns the addresses of `Arrival.Concerns` (C130): for decrypted mail those in To and Cc of what the gpg of the oracle can give for the
  encrypted part. Import of a key without an address counts as concerning every address.
* **C133** the specification is `Spec/Level1.lean`, which has nothing of the code in it: a record with six fields, the two update rules and the three
  steps of the recommendation. `PeerEvent.Means` says which update of the code stands for which event. "In time" (`Timely`) is what the code needs
  to agree with it; mails and gossip in order of dates are in time. `Received` is the same for whole mails, with anything in between
  which leaves the peer alone (C132 tells what does). What an encrypted mail gossips (`GossipSays`) is read from the decrypted message and the outer
  fields together, as the code does (C23).
* **C134** the branches for win32 as a function of the three variables, `os.path.isabs`, `os.path.join` and `os.path.isfile`, which are any functions.
  Templates of `re.sub` follow Python 3.7 and later.
* **C135** `runsFor`, `mailsSent` count in the trace, `entryCount` in the store; the table is `ApiCall.gpgRuns` and `ApiCall.newEntries`. `Introduced` says whose keys
  may be imported from the gossip of a mail. The examples reach the limits.
* **C136** `AllKnown` says for each run of gpg on a path (as for C123 with any answers) that every argument is in `ownWords` or has an `ArgSource` earlier on the
  path. `C136_ever` follows stored handles back to what gpg printed, with C107, for histories without the calls which record a key directly.
* **C137** `Refolded` relates two texts with white space in the same places, of any kind which is used for folding (RFC 5322). `SameReading` compares what is
  read from a header. `C137_key_exchange` is C79 with the header `Refolded` on the way.
* **C138** `Conversation` is a chain of mails, each the reply of some bot (`BotAnswers`: any installation, state, environment and address) to the one before as it arrives.
* **C139** `Reordered` compares the attributes of two header values (`attrPairs`, the specification of C27) as a permutation. Examples show that attributes which occur
  twice and ones without name have to be excluded.
* **C140** `Device` is an account which got events `l` about a peer (`Received` of C133, in any order), `SameNews` compares two such lists as sets. The invariant `Heard`
  of the log does not depend on the order; it determines key and recommendation if the events are `Settled`.
* **C141** `Renews` lists the calls which may bring a newer key for an address; every other call keeps the newest one (`call_keeps`), also when it is interrupted.
* **C142** what is stored when the process dies within a call that removes nothing lies between what was stored before and what is stored at the end (`Safe.killed_suffix`),
  so it is enough to know the complete call. `SettingsFrom` says where each setting comes from.
* **C143** `DirectSource` and `GossipSource` name the call which brought a key and what of the mail says so. `Always` is an invariant of all states in which a program may be
  interrupted; with it the decryption is found in the trace before the gossip is recorded (`incoming_killed`).
* **C144** compares reads of two disks with the same heads file, of which the second has any other block files. `ChainIs` gives the block files of a chain, `SameFile` says that one is as it was.
* **C145** `Unused d`: a set of fields, by name and value, with none of the used names. `C145_ignored` compares the runs on a message with and without these fields; states and traces are equal.
* **C146** `MyGroup` with the dictionary of `click.Group` (`Model/Group.lean`); `sorted a = sorted b` if and only if `a` is a permutation of `b`.
* **C147** `Folded s`: after each line break comes a blank or tab. Kept by concatenation, so by all the ways in which values are made; `Keeping` tracks it through programs and hooks.
  `KeepsLines` is the hypothesis on `parseaddr` and `getaddresses`. `C147_lines` says what `Folded` means for the text of a message.
* **C148** `OtherTexts R O O'`: two environments which differ in the texts to which gpg decrypts, with texts related by `R`. `Unsaid` relates programs step by step, where the results of
  decryptions may differ; `SameGossip` is the relation for which all calls and commands are `Unsaid`. Unlike C118, which varies what is parsed, this varies the bytes themselves.
* **C149** `KnownKey` is the one of the recommendation; `RefusedSince t t'` reads off the trace that a run of gpg ended with an error. `OtherErrors` says that decoding and `int()` do not raise
  gpg's exception, and `Refusal` counts an operation which raises it as an error of gpg.

## 5. Findings

Behaviour of the code that contradicts a property. Each is proved with a concrete state or input
(`Cxx_refuted…`); the rest of the property is proved as `Cxx_…_partial`.

Storage
* The heads file is rewritten in place. A crash in the middle makes every chain unreadable [`C03_refuted`].
* Two chains which begin with equal entries share the file of their first block. Appending to one rewrites
  the file in place, so a crash damages the other [`C03_refuted_shared`].
* So every call and every command which changes the store can leave it unreadable if the process dies [`C97_refuted`,
  `C97_refuted_commands`].
* Two processes lose updates: each writes back the heads it read [`C04_refuted`].
* Two processes which write the heads file in several pieces at the same time (it is longer than the write buffer of python) can mix its
  contents such that a name points to the chain of another name [`C109_refuted`].
* Two processes which append the same entry at the same time write the same block file. If one dies when it has opened the file and the other
  one is done, the chain cannot be read [`C112_refuted_block`].
* A call which reads a file while another process writes it can raise an error from the decoder (example in `Props/Pieces.lean`).
* `dump` of a chain without entries raises `TypeError` [`C108_dump`].
* `get_block` does not compare a block with its name; a missing parent file ends the walk without an error. So after an
  interrupted `destroy-all` histories can be cut off silently, and an account whose configuration is gone but whose name is left in the
  heads file makes lookups for all addresses raise `AccountNotFound` (example in `Props/CrashCalls.lean`).

Accounts
* A failed `add_account` leaves a configured account without key. Later lookups by address raise
  `AccountNotFound`, also for addresses of other accounts [`C46_refuted`, `C50_refuted`, `C67_refuted`].
  `scandir-incoming` takes that for unroutable mail. `del_account` fails for such an account; adding it again
  repairs it.
* `del_account` keeps the out-of-band chain and the gpg home [`C48_refuted`].
* `mod_account` ignores its `keyhandle` argument [`C47_refuted`]; the command `mod-account` without
  `--gpgbin` resets the program to `gpg` [`C73_refuted`].
* An invalid `email_regex` is accepted; after that all lookups raise `re.error` [`C49_refuted`].
* `create` with an unknown key complains about "no secret key for None".
* `get_num_peers` raises `TypeError` always.
* With an account object kept after everything was removed, calls write peer logs into a directory which
  isn't initialised; `destroy-all` does not remove them [`C70_refuted`].

Incoming mail
* Messages without `Message-Id` share the id "None"; the second one is skipped [`C17_refuted`].
* A failed key import is recorded with an empty handle and hides a usable earlier key [`C19_refuted`]. It
  isn't idempotent either [`C15_refuted_failed_import`].
* A message dated in the future is recorded with the current time, so each processing changes the state
  [`C15_refuted_future_date`].
* The sender's record is stored before a message is decrypted. If the process dies in between, or gpg fails to decrypt,
  `scandir-incoming` skips the message from then on and its gossip is never learned [`C96_refuted`, `C96_refuted_failure`].
* Gossip is ordered by arrival, not by date [`C14_refuted`].
* `last_seen` can decrease [`C12_refuted`].
* Gossip headers outside of the encrypted part are accepted, and win over those inside [`C23_refuted`].
* Gossip recipients are compared with exact case.
* A failed import of a gossiped key raises `TypeError`, empty key data `AssertionError` [`C24_refuted`].
* An attribute without name, `=x`, raises `IndexError` [`C24_refuted`, `C29_refuted`]. The branch for an
  empty header can't be reached.
* Importing a key twice at the same clock value, with another key recorded in between, keeps the other key
  [`C55_refuted`].
* Mail without From is stored for the peer with the empty address.
* `multipart/encrypted` with a text of length 2 as payload raises `AttributeError`, without payload
  `TypeError`; `OverflowError` of `mktime` isn't caught [`C16_refuted`].

Outgoing mail
* Bcc is not looked at: a message is encrypted though somebody in Bcc has no key and cannot read it [`C119_refuted`]. The field stays in the
  outer headers; whether it leaves is up to sendmail.
* A semicolon in a quoted local part makes the added Autocrypt and Autocrypt-Gossip headers unparsable
  [`C36_refuted`, `C39_refuted`].

gpg wrapper
* gpg output that is not utf-8 raises `UnicodeDecodeError` instead of `InvocationFailure` [`C57_refuted`].
* An empty key id matches the empty id only [`C59_refuted`]; a key id found in a message also resolves to
  a listed shorter id which is its suffix [`C60_refuted`].
* A user id in the key line is attached to that key as well [`C61_refuted`]; a uid line before any key line
  raises `AttributeError` [`C61_orphan`].
* `list_packets` drops a line with a leading colon in the middle of a packet [`C95_refuted`].
* `decrypt` gives a key named without a user id the one of the key before it, or raises `UnboundLocalError`, and skips a key named right
  after another [`C102_refuted`].
* A relative `gpgbin` with separators is looked up below the directories of PATH, not used directly as documented [`C106_refuted`].
* An empty `gpgbin` raises `AttributeError`.
* `temp_written_file` writes the file before its `try`: if writing fails, e.g. on a full disk, the file stays [`C58_refuted`].

Bot and command line
* The bot answers if its address is a part of the text of To, e.g. robot@x.org for bot@x.org
  [`C63_refuted`]. Without a To header it raises `TypeError`.
* Mail from the bot's own address makes it reply to itself; its own address in other case stays in Cc
  [`C64_refuted`]. An encrypted reply fails if somebody in Cc has no key.
* `process-incoming` reports "found" if both timestamps are 0 [`C69_refuted`].
* `peerstate` shows as last_ac_msg the id of the newest message even if that one has no key (cmdline.py:247)
  [`C86_refuted`].
* `status -v` compares dates to tell whether the last message of a peer had a key (cmdline.py:548): a peer known only by
  gossip has both dates 0 and is shown as "last-was-autocrypt" [`C89_refuted`].
* An account object which is kept over `mod_account(gpgbin=…)` for its name goes on with the old gpg
  [`C120_forgotten`]; the command line does not keep account objects.
* A cached property which reads itself is computed twice [`C62_refuted_reentrant`]; no property of the code
  does so.
* **C122** two processes which receive an older and a newer message of the same peer at the same time may leave the older key in use: the
  check and the append are not one step [`C122_refuted`]. A recommendation may mix two states of a peer and be to encrypt though neither
  of them says so [`C122_refuted_recommendation`]. A message may be encrypted to one key and tell another one in its gossip
  [`C122_refuted_encryption`].
* **C114** a message with `ENCRYPT: no` loses this field when it is processed. If it is processed again, e.g. by `process-outgoing` and then
  `sendmail`, it is encrypted if that is recommended, against the wish of the user [`C114_refuted`].
* **C115** a full disk has the effect of a crash: the heads file is emptied before its new content is written, and if that fails then no chain
  of any account can be read any more [`C115_refuted`]. If `os.path.exists` fails on an existing file, e.g. by a passing error of a network file system, it answers
  `False`; when that happens to the heads file in an append then the file is replaced by one which has only this name [`C115_refuted_unseen`].
* **C133** where the code departs from Autocrypt Level 1: a mail with a key which comes late, dated before other mail of the peer, sets `last_seen` back,
  so that a key which is not in use for more than 35 days may be 'available' again [`C133_refuted_late`]; late gossip replaces newer gossip
  [`C133_refuted_gossip`]; if the last mail of the peer had no key then their preference for encryption is not followed
  [`C133_refuted_mutual`]. Not counted here: mail of type `multipart/report`, which the specification ignores, counts as mail without a key
  (mime.py:121-122).
* **C134** on Windows the value of SYSTEMROOT is passed to `re.sub` as a template (bingpg.py:409): for `C:\WINDOWS` it raises `re.error`, so that no program is
  found by a relative name [`C134_backslash`, `C134_refuted`].
* **C138** the bot answers every mail which names it in To, also automatic ones, and does not mark its own as automatic (`Auto-Submitted`, RFC 3834). A mail with
  the address of one bot in From and of another one in To, which anybody can send, starts an exchange between them which does not end [`C138_refuted`].
* **C140** what two devices know depends on the order in which they get mails, though all mails are dated. A mail without key is forgotten as the last one seen when an
  older one with a key comes later, so one device recommends 'available' and the other 'discourage'. Gossip which comes last counts, so they use different keys [`C140_refuted_recommendation`, `C140_refuted_key`].
* **C141** a mail counts as known by its sender address and Message-Id alone. Whoever sends a forged mail with the Message-Id of a mail which arrives later makes
  that mail be skipped, and the forged key stays in use until the peer writes once more [`C141_refuted`].
* **C144** `get_block` (`chainstore.py:39-45`) does not compare the name of a file with the hash of its content, and returns nothing if there is no file. A replaced block is read like
  the original, a missing one ends the chain, an older heads file brings back an older state, and reading a block which names itself does not end [`C144_refuted`].
  Comparing the hash would reduce all this to missing files [`C144_hashed_partial`].
* **C145** says also that Subject, and Bcc if the mail program leaves it in, go out in clear text with encrypted mail; nothing of them is moved into the encrypted part.
* **C146**: a plugin which adds a subcommand under a name already taken silently replaces that command, and `muacrypt --help` then fails with `AssertionError`.
* **C147**: `muacrypt make-header` does not check its argument; with a line break in the address it prints further fields. For mail this cannot happen.
* **C148**: the text of an `InvocationFailure` contains all that gpg wrote (bingpg.py:50-59). If gpg fails after it has decrypted something, as for a bad signature, an uncaught exception
  shows the decrypted text on stderr. Texts of exceptions are not modelled, so this is not part of the claim; scandir-incoming, which catches this exception, does not print it.

## 6. Axioms per theorem

Written by `tools/gen_axioms.py` from `#print axioms`; all names are in namespace `Verif`.

**none**: C62_refuted_reentrant.

**`propext`**: C105_none, C106_refuted, C110_split, C110_split1, C115_refuted_unseen, C116_case, C116_other_fields, C120_forgotten, C122_apart_partial, C122_refuted, C122_refuted_encryption, C122_refuted_recommendation, C129_import_recorded, C133_refuted_gossip, C133_refuted_late, C136_options, C140_refuted_key, C140_refuted_recommendation, C14_refuted, C15_refuted_failed_import, C15_refuted_future_date, C15_refuted_no_key, C17_refuted, C19_refuted, C23_refuted, C24_refuted, C29_refuted, C36_refuted, C46_refuted, C48_refuted, C55_refuted, C57_refuted, C61_refuted, C69_refuted, C70_refuted, C70_unconfirmed, C95_refuted, C96_refuted, C96_refuted_failure.

**`propext`, `Classical.choice`, `Quot.sound`**: C01_api, C01_history, C01_interrupted, C01_refinement, C02_blocks, C02_heads, C03_crash_partial, C03_refuted_shared, C04_serial_partial, C04_visible_partial, C05_calls, C05_sound, C08_messages, C08_messages_order, C08_order_irrelevant, C09_message, C100_result, C101_drawn, C101_total, C102_keys_partial, C102_parts, C102_recognised, C102_refuted, C103_report, C105_agent, C105_compare, C105_loopback, C105_unattended, C106_account, C106_direct_partial, C106_found, C106_none, C107_encrypted, C107_outgoing, C107_own, C107_peers, C109_calls_partial, C109_refuted, C109_whole_partial, C10_message, C110_ascii, C110_base64_decode, C110_content_type, C110_get, C110_get_all, C110_number, C110_removeSpace, C110_splitlines, C110_strip, C111_after, C111_again, C112_calls_partial, C112_whole_partial, C114_again_partial, C114_encrypted, C115_files_partial, C115_refuted, C116_encrypted, C116_order, C117_commands, C117_encrypted, C117_outgoing, C118_commands, C118_incoming, C118_only, C119_readers_partial, C120_code, C120_remembered, C123_control_header, C123_keys, C123_no, C123_own_header, C123_plugins, C123_store, C123_yes, C124_learned, C127_calls, C127_commands, C127_history, C127_results, C128_calls, C128_commands, C128_killed, C128_results, C129_calls, C129_commands, C129_history, C129_past, C129_results, C130_all, C130_two, C131_failure, C132_knowledge, C132_recommendation, C132_settings, C133_mails_partial, C133_recommendation_partial, C135_calls, C135_commands, C135_history_keys, C135_history_mails, C135_incoming, C135_killed, C136_calls, C136_commands, C136_ever, C136_ever_commands, C136_incoming, C136_runs, C137_encrypted, C137_header, C137_incoming, C137_key_exchange, C138_people_partial, C138_refuted, C138_two_partial, C139_encrypted, C139_header, C139_incoming, C13_message, C140_gossip_partial, C140_key_partial, C140_recommendation_partial, C141_heals_partial, C141_lasts, C141_used, C142_kept, C142_sent, C143_encrypted, C143_recorded, C144_refuted, C145_sent, C146_listed, C146_main, C146_replaced, C146_run, C147_bot, C147_header, C147_lines, C147_outgoing, C147_sent, C148_alike, C148_incoming, C148_leaving, C149_call, C149_kept, C149_recommended, C15_encrypted_partial, C15_mail_partial, C15_reprocessing_gossip_partial, C15_reprocessing_partial, C17_new_messages_processed_partial, C18_no_future_dates, C20_scope, C20_scope_result, C21_direct_key_origin, C22_gossip_origin, C23_no_outer_gossip_partial, C24_gossip_partial, C25_round_trip, C26_folding, C27_no_error, C27_parse_iff, C28_critical, C28_non_critical, C30_single_peer, C31_set_of_addresses, C31_weakest, C32_always_computable, C33_yes_encrypts, C34_no_is_obeyed, C35_no_control_header, C36_added_partial, C36_existing_kept, C36_other_headers, C37_outgoing, C37_recipients, C38_no_key, C38_outgoing, C39_gossip_partial, C40_shape, C41_round_trip, C41_written_back, C42_passed_through, C44_exists, C45_added, C46_failed_partial, C47_modified_partial, C48_deleted_partial, C49_lookup_partial, C49_refuted, C49_sound, C49_total, C50_refuted, C50_routing_partial, C50_sound, C51_deleted, C51_listed, C51_sorted, C51_source, C52_once, C55_imported_partial, C55_running_partial, C56_kept, C56_latest, C56_recorded, C57_calls, C57_export, C57_failure_partial, C57_incoming, C59_match, C59_refl_symm, C60_handle_partial, C61_listing_partial, C62_assigned, C62_once, C62_stable, C63_refuted, C64_fields, C64_partial, C64_refuted, C66_truncated, C67_bounced_partial, C67_matching, C67_refuted, C68_file, C68_nothing_due, C68_scan, C70_again, C70_destroyed_partial, C71_decision, C73_modified_partial, C75_accepted_values, C76_one_sender, C77_newer_key, C78_commands, C78_incoming, C78_incoming_commands, C78_no_failure_ignored, C79_key_exchange, C80_mutual_encrypts, C81_gossip_recorded, C82_gossip_exchange, C83_process_outgoing, C83_sendmail, C84_find_account, C84_make_header, C84_recommend, C85_export_public, C85_export_secret, C86_peerstate_partial, C86_refuted, C87_add, C87_del, C87_import, C87_mod, C88_exists, C88_unknown, C89_account_partial, C89_refuted, C89_status_partial, C90_keys, C91_state, C92_sign, C92_verify, C93_minimize, C94_account, C94_decrypt, C94_encrypt, C94_export, C94_generate, C95_listed, C95_packets_partial, C97_call_partial, C97_commands_partial, C97_refuted, C97_refuted_commands, C98_process_incoming, C99_scandir.

**`propext`, `Quot.sound`**: C03_refuted, C03_torn_heads, C04_refuted, C06_addr, C06_head_names, C06_peer_listing, C06_update_touches_one_peer, C07_autocrypt_timestamp_monotone, C08_newest_key_wins, C09_older_changes_nothing, C104_program, C108_contains, C108_dump, C108_getters, C108_last_parent, C108_length, C108_search, C108_search_damaged, C10_last_seen_is_maximum, C10_no_key_no_change, C110_base64, C110_change, C110_join, C110_lower, C110_parts, C110_sorted, C111_kept, C111_reads, C112_refuted, C112_refuted_block, C113_calls, C113_commands, C113_words, C114_refuted, C115_commands, C115_raises, C116_clear, C116_routing, C119_refuted, C11_timestamps_ordered, C121_accesses, C121_messages, C121_recommendation, C122_moments_partial, C122_peers_partial, C123_runs, C124_known, C124_runs, C125_calls, C125_commands, C125_runs, C125_sign, C126_calls, C126_commands, C126_history, C126_results, C129_import, C129_scan, C12_last_seen_monotone_partial, C12_refuted, C131_displayable, C131_shortrepr, C133_in_order, C133_refuted_mutual, C133_updates_partial, C134_backslash, C134_found_partial, C134_refuted, C135_import, C135_no_mail, C13_gossip_keeps_direct_key, C141_refuted, C144_hashed_partial, C144_newer_partial, C144_unreadable_partial, C144_untouched_partial, C145_alike, C145_ignored, C145_passed, C14_newest_gossip_partial, C15_no_key_twice_partial, C16_known_message_skipped_partial, C16_refuted, C18_import_date, C18_incoming_date, C19_failed_import_partial, C20_logs_grow, C24_autocrypt_partial, C24_parse_error, C29_several_partial, C39_refuted, C43_lookup, C43_reads, C47_refuted, C51_stays, C53_isolated, C54_append_only, C56_source, C58_commands_partial, C58_refuted, C58_removed_partial, C58_verify_partial, C60_fails, C60_none, C60_refuted, C60_search, C61_orphan, C63_partial, C64_smtp, C65_restored, C65_sections, C67_unmodified, C69_found_partial, C72_home, C72_others, C73_refuted, C74_commands, C75_unknown_value, C95_eddsa, C96_interrupted_partial, C97_torn.
