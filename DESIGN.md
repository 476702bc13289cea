# Design

Subject: Syndace/python-omemo at the pinned commit in /repo. All citations are `file:lines` in /repo.

## 1. What kind of model

python-omemo's core is asynchronous Python that talks to four outside parties: an application supplied
`Storage`, protocol `Backend`s, the XMPP server (abstract methods `_upload_*`, `_download_*`, `_delete_*`,
`_send_message`) and application callbacks (`_evaluate_custom_trust_level`, `_make_trust_decision`).

Every library function is modelled, branch by branch, as a *program tree* (`Prog`): it returns a value, raises
an exception, or performs one interaction and continues with the answer. The answer to every interaction is
either a value or an exception. Exceptions are values, `try/except` is a function on trees, sets and dicts are
lists, and the iteration order of Python sets is an arbitrary permutation (a parameter).

* `Exec p t r`: program `p`, confronted with the answers listed in the trace `t`, ends with `r`, where `r` is
  a value, an exception, or `crashed` (the process dies before any chosen interaction). No assumption is made on
  the answers. A statement about all `Exec` holds for every environment, every failure pattern, every crash
  point, and every interleaving with other tasks, since another task can influence this one only through answers.
* `Sem W` / `M.Runs w t w'`: an environment contract with a state `W`: which answers are allowed and how the state evolves.
  Used only where a property needs it: storage is a key-value map; the instance fields are variables; backends
  count pre keys; the server keeps device lists and bundles.
* Schedules: a concurrent execution is an interleaving (shuffle) of the traces of its tasks that the shared
  contract allows.
* Histories: induction over lists of calls, each with an arbitrary result, including `crashed`.

Proofs use a weakest-precondition function `wp` on trees, proved sound for `Exec`/`Runs`.

## 2. Modules (under lean/Verif)

| Module | Content |
|---|---|
| `Base/Prog.lean` | program trees, `Exec`, `Sem`, `wp`, soundness, interleavings, executable runner |
| `Base/Py.lean` | Python sets, dicts, `sorted(key=index)`, class hierarchy of exceptions |
| `Model/*.lean` | the model of /repo, one file per source unit, each definition citing its source lines |
| `Spec/*.lean` | small specifications, written without using the model |
| `Proofs/*.lean` | helper lemmas |
| `Props/*.lean` | the property theorems, one section per property, with non-vacuity examples |
| `Wrong/*.lean` | programs with mistakes, and proofs that they violate the claims (section 6) |

## 3. Plan per property

| Id | Model part | How |
|---|---|---|
| C01 | `Storage.load/store/delete` with cache over raw operations | refinement: cache coherence invariant, induction over operation sequences; lifted to arbitrary programs |
| C02 | typed loads over a JSON type | case analysis, characterisation by an independent `HasType` predicate |
| C03 | RFC 4648 url-safe base64 encoder and CPython's lenient decoder | induction in blocks of three bytes |
| C04 | rendering of keys to strings | injectivity under slash-freeness; counterexample with slashes; transfer theorem |
| C05 | a heap model of references, deepcopy, cache | separation invariant, induction over histories |
| C06 | interleaved cached load/store | refutation by a schedule; partial theorem without overlapping loads |
| C07, C08 | `IdentityKeyPair.get` | invariant over histories and crash points |
| C09 | two interleaved `get` | refutation by a schedule; positive theorem once stored |
| C10 | `Backend.__init__` | exact acceptance set; refutation of the documented one |
| C11 | `update_device_list` over the key-value contract | postcondition against an abstract merge spec |
| C12, C19, C24 | all calls of SessionManager over the key-value contract | invariants over histories, crash points |
| C13, C14 | `update_device_list` | trace property |
| C15, C16 | `update_device_list` | postcondition + crash invariant; merge spec absorbs partial updates |
| C17, C20 | interleavings | refutation by a schedule, sequential theorem |
| C18 | interleavings of any number of tasks | rely/guarantee: presence of data is monotone |
| C21, C22, C23 | `__get_device_information` | loop invariant; refutation for UnknownNamespace |
| C25, C26 | `set_trust` + `get_device_information` | frame + history induction |
| C27-C37 | `encrypt` | trace properties for arbitrary environments, loop invariants |
| C38-C47 | `decrypt` | trace properties for arbitrary environments; counting contract for C43 |
| C48-C50 | `after_history_sync`, `__send_empty_message` | loop invariants; refutation of C49 |
| C51-C55 | `create` | trace properties; refutation of C54 with a crash point |
| C56-C58 | purges | trace properties and key-value contract; refutation of the trust part of C57 |
| C59, C60 | rotation loop as one round + iteration | arithmetic invariant; refutation of doubling |
| C61, C62 | server contract | postcondition |
| C63, C64 | `replace_sessions`, `get_sending_chain_length` | trace properties |
| C65 | hex formatting | list induction |
| C66 | BTBV example manager | trace properties |
| C67, C69 | all calls | which exceptions leave a program tree (`Raises`), refutation and partial theorem for C67 |
| C68 | `encrypt` | trace properties |
| C70 | `create` over the life of an account | invariant |
| C71 | `encrypt` | which exceptions leave a program tree |
| C72–C75 | all calls | what must have happened before each interaction (`Kn`: knowledge about the history so far) |
| C76 | `IdentityKeyPair.as_priv` | direct |
| C77 | all calls, one after the other | invariant over the history of all calls: what was made with the stored session states did not leave the device |
| C78 | BTBV example manager within `encrypt` | key-value contract; uses C66 and C27 |
| C79 | `encrypt` on one device, `decrypt` on another | composition of C27, C35, C38, C46, C68 under `Fitting` |
| C80 | whole API | footprints of all methods, key-value contract |
| C81 | `decrypt`, `refresh_device_list` | structure of the executions of `findSender`, footprints, exceptions |
| C82 | `get_device_information`, `encrypt` | weakest preconditions over the history: obtained bundles are cached or belong to devices already processed |
| C83 | `encrypt`, `decrypt`, over `Course` | every way to raise is excluded: by the causes of exceptions, by C24 for stored data, by C28/C33 for `StillUndecided`/`NoEligibleDevices`; lookups find what storage or the device list contains; combined with C79 |
| C84 | whole API except `create`, `purge_backend` and the two history synchronization methods, interleaved | the places a call works with (domain of each method); executions that share no place commute under the key-value contract |
| C85 | `decrypt`, `after_history_sync`, over `Hist` | projection of executions to the queues; nothing but `after_history_sync` takes anything out; C48 |
| C86 | `decrypt`, interleaved | projection to the queues; an interleaving acts on them like the one thread that works with them; refuted in general |
| C87 | `encrypt`, `decrypt`, `replace_sessions`, `after_history_sync`, interleaved | interactions about sessions of different devices commute; an interleaving is rearranged into one call after the other, then C77; refuted in general |
| C88 | all calls, `update_device_list`, `create`, `encrypt` on objects (`Model/Refs.lean`) | simulation: executions on objects are executions on values as long as the contents are known; refuted in general |
| C89 | the same | the objects a program may change, tracked along the program; refuted for `set_own_label` |
| C90 | all calls, on all devices of an account (`Spec/Fleet.lean`) | triple `Keep` for the storage of a device and the server together (`Proofs/Backed.lean`), invariant over calls of all devices (`Proofs/Account.lean`); refuted in general |
| C91 | `create` (not the first run), all calls in between | invariant over lives, also at interruptions (`Proofs/CalmParts.lean`), state-dependent footprint `Doing` of `create` |
| C92 | `update_device_list`, `encrypt`, all calls in between | invariant over histories with the lists downloaded in them (`Proofs/ServerParts.lean`), combined with C11 and C32 |
| C93 | `encrypt`, `_make_trust_decision` | contract `Decisive` on the trust decision, levels tracked through the reload; C78 is an instance |
| C94 | tests/session_manager_impl.py (trust) | all contracts on trust decisions, bundled as `Exemplary`; C27, C28, C92, C93 for `encrypt` |
| C95 | tests/session_manager_impl.py (servers), all calls | guards C74, C75 turned into a frame property; simulation by `Online` |
| C96 | tests/session_manager_impl.py (servers) | history invariant `Fits`; refuted for missing bundles |
| C97 | tests/in_memory_storage.py, `Storage` | refinement as for C01, without failures |
| C98 | `encrypt`, `decrypt` | evaluations compared with the storage at that moment, composed along executions; levels from C21 (lookup) and from the reload |
| C99 | `encrypt`, `decrypt`, `refresh_device_list` | C83 with its conditions on trust, sender and key exchange derived from stored and published data: C93 and C98 for trust, an invariant on the stored identity key under the published one, C35 for key exchanges, C79 for contents |
| C100 | all calls | what is known of the interactions so far (the technique of C72 to C75), with the origin of each session, key material and bundle carried along |
| C101 | `decrypt`, `__send_empty_message` | what is known of the interactions so far, as for C100; induction on rows of replies with the position in the chain as measure |
| C102 | `encrypt`, `decrypt`, `replace_sessions` and all other calls | what is known of the interactions so far, on both sides; induction on the lives of both devices with a contract for one stored session |
| C103 | all calls, on one device | what is known of the interactions so far; induction on the history: the pre keys of all stored passive sessions were given up |
| C104 | all calls overlapping, except `create` | a guarantee for each call with a local state (what the call still owes), weights over the interleaving |
| C105 | all calls and rounds of the rotation task overlapping, except `create` | a guarantee for each program with a local state (what is still to be published), order of events in the interleaving |
| C106 | any programs of the library overlapping, on the code of `Storage` | simulation: one raw interaction is one or no interaction with a map; invariant on the cache and on what each program is about to put into it |
| C107 | all calls overlapping, except `create` | what is known of the interactions so far carries over to interleavings; invariant: the flag stays down, no backends are added |
| C108 | `decrypt` and `after_history_sync` one after the other, other calls overlapping | potential: what was sent and what is put off is paid for by what was received; other calls leave the queues alone |
| C109 | pairs of executions | the program for one plaintext simulates the program for the other, interaction by interaction |
| C110 | every interaction of every method, failing or not | structural: the program after a failure is the exception itself, or one of the handlers |
| C111 | pairs of executions | the program given one secret simulates the program given the other; all other programs have no interaction with the secret |
| C112 | all calls, on one device | what is stored after the first call has used up the message; induction on the history: the stored session either keeps this or was built by another key exchange, and by C103 no pre key is used twice |
| C113 | replacing sessions, decrypting, then all calls on two devices | `C102_remedy` for the first two calls; then a simultaneous invariant: what one side sends carries no key exchange but this one, so the other side builds no other session |
| C114 | creation, then all calls but two, overlapping | guards: sending and deleting come after asking whether history is synchronized, in every interleaving; the flag is set by `create` and not reset |
| C115 | all lives of an account | identity keys are pinned (C19) and compared with key exchanges; stored sessions stem from built ones, by induction on what the backend keeps |
| C116 | all lives of an account; overlapping calls | what requests and queue entries are preceded by within a call, then induction over the interleaving: queues contain named accounts only |
| C117 | all calls but the background task | amortized costs: a budget that is paid for each interaction, and grows with each entry of an answer; each function is shown to stay within it |
| C118 | decrypt, replace_sessions, get_device_information, get_own_device_information; other calls that ask for no remarks | simulation between the execution and the one with other remarks; device ids are unique, so the same device is found whatever the order of the sets |
| C119 | all calls; stored device data, sessions built, trust evaluated, devices reported | a logic of programs whose answers are backed by sources; the disk is an invariant of it |
| C120 | all calls between a merged device list and encrypt | the dual of the invariant of C92: nobody but a list with the device makes it known, supporting and active at once |
| C121 | set_trust, then any calls, then encrypt or decrypt | combines pinning (C19), the stored level (C25), current levels (C98) and the gates (C27, C38) in one statement about the device |
| C122 | pairs of executions of update_device_list, get_device_information, purge_bare_jid and encrypt that differ in the iteration order of sets | from the exact results C11, C21, C32, C57 and a description of the recipients in terms of the stored data |

Where the unchanged code violates a property, the violation is proved as a theorem named `..._refuted`
with a concrete execution, and what does hold is proved as `..._partial`.

## 4. Trusted base

### 4.1 Logic

* Lean's kernel (`vcheck` replays every module with it), version 4.33.0, and the parts of Mathlib that are imported.
* Axioms: every theorem named in MANIFEST.json depends on at most `propext`, `Classical.choice` and `Quot.sound`. There are no
  axioms of our own, no `sorry`, no `native_decide`, no `bv_decide`.
* `decide +kernel` and `rfl` are used for concrete runs only: for examples beside theorems and for refutations. A refutation is a
  proof of `¬ Claim`, where `Claim` is the full property with all its quantifiers; one execution suffices for it.

### 4.2 The reading of the source

The model was written by hand from the text of /repo. That it agrees with the code is trusted, not proved. What is modelled:

| Source | Model |
|---|---|
| `omemo/session_manager.py` | `Model/SessionManager.lean`: all public methods and all private ones they use, branch by branch, in source order; `Model/Refs.lean`: the methods that share lists, sets and dictionaries with the application, on objects with references |
| `omemo/storage.py` | `Model/Storage.lean` (Maybe, typed loads, cache), `Model/Base64.lean` (`load_bytes`, `store_bytes`), `Model/Heap.lean` (references and `copy.deepcopy`) |
| `omemo/identity_key_pair.py` | `Model/IdentityKeyPair.lean` |
| `omemo/backend.py` | `Model/Backend.lean`: the constructor, the only code. Abstract methods are interactions (`Op`) |
| `omemo/session.py`, `bundle.py`, `message.py`, `types.py` | `Model/Types.lean`: their fields |
| string keys used with the storage | `Model/Keys.lean` |
| `examples/btbv_session_manager.py` | `Model/BTBV.lean` |
| `tests/session_manager_impl.py`, `tests/in_memory_storage.py` | `Model/Reference.lean`: the implementation of trust, servers and storage that comes with the tests ("reference implementation") |

Not modelled: logging; texts of exceptions; `asyncio` as such (see below); other files in `examples`; documentation; the package
metadata; implementations of storages, backends and servers other than the reference implementation (they are the environment); the
tests themselves; cryptography (`XEdDSA` is a structure
of arbitrary functions).

Simplifications, each also noted at the definition:

* Objects of backends (`Session`, `Bundle`, `Content`, ...) are their public properties plus an opaque number. What a backend keeps in
  an object it mutates (the ratchet of a session) is handed to the library as a new value by the operation that mutates it.
* Sets are lists without repetition. A loop over a set goes over an arbitrary permutation of it, which is a parameter (`M.O`).
* `while` loops without a bound (drawing device ids, the rotation task, repeated uploads) get a fuel argument. Statements hold for all
  fuels. A run that ends for lack of fuel raises `outOfFuel`, which no statement counts as a success.
* JSON values have no bound on nesting; floats are kept as text.
* A subclass of an exception defined by the application is identified with its documented parent; other exceptions are `app n`.
  Cancellation of a task is `app n` as well.
* Time is what the rotation task sleeps.
* The fields of a session manager that change after creation (`__backends`, `__synchronizing`) are part of the world, and shared by all
  managers of the model. Two live managers for one account at the same time are thus not modelled faithfully in statements
  that use the contract `Lib`.
* The dictionaries of the reference implementation hold values. The code returns the stored device list itself from
  `_download_device_list`, so that the changes described in C89 reach the servers before the upload does.
* `asyncio`: a task is a program tree, an interleaving is a shuffle of traces. Tasks can switch at every interaction, which
  includes switches that cannot occur in Python (reading a field does not await).
* Statements about overlapping calls take `load`, `store` and `delete` of the storage object as single steps, except C06 and C106. By C106 this is right if the cache
  is disabled, or if the keys written are cached and written by only one of the calls.

### 4.3 Assumptions on the surroundings

Most theorems hold for arbitrary answers (`Exec`) and need none of these. Where one is needed, it is a hypothesis of the theorem:

| Name | Says |
|---|---|
| `KV`, `Lib` | the storage is a key-value map, a failing operation has no effect; fields are variables; nothing called by the library raises `Nothing`, `TypeError`, `KeyError`, `ValueError`, `RuntimeError` |
| `RawKV` | the same for the abstract storage methods below the cache, and for the dictionary of the cache |
| `RawLib` | `RawKV` for the storage and `Lib` for the rest |
| `heap` | objects have the content written last; new objects are not in use yet; at each interaction other code may change every object that is not declared safe from it |
| `CallbackQuiet` | the trust decision callback does not itself encrypt for devices or evaluate trust |
| `CallbackFair` | the trust decision callback raises only `TrustDecisionFailed` and what it got from its own interactions |
| `ViaApi`, `Polite`, `HandsOff`, `LeavesTrust` | the callback touches what the library stores only by calls of the public API, with restrictions on calls and on what it raises |
| `Refills`, `LeavesKeys` | the callback does not touch pre keys (C104) |
| `Deeds`, `Sequenced` | calls that raise or die have not changed the bundle before; bundles are uploaded in the order in which they were obtained (C105) |
| `Ordinary` | the callback does not hide pre keys, replace backends or start the synchronization (C107) |
| `NoQueues`, `SendsNone` | the callback does not touch the queues of replies and sends no messages (C85, C108) |
| `CallbackForwards` | the callback passes failures on, or tolerates them, by the same rule as the library (C110) |
| `Op.keyless` for the callback | the callback does not touch the stored secret of the identity key (C111) |
| `SamePublic` | two secrets have the same public key; for Curve25519 this is so for private keys that differ in the bits cleared by clamping (C111) |
| `BackendsOnce` | no backend is loaded twice (`create` checks it) |
| `BackendsStay`, `Loads` | the set of loaded backends does not change during the call |
| `Addressed` | backends return sessions and keys for the device that was asked for |
| labelled bundles (`hlab` in C36, C82) | a bundle is labelled with the namespace and device it was downloaded for |
| `BuiltActive` | sessions built actively are active and unconfirmed |
| `RandBelow` | `secrets.randbelow(n)` is below `n` |
| `Servers` | downloads return what is on the server, uploads replace it, nobody else writes during the call |
| `Counted`, `Steady` | pre keys are counted correctly; no failures of pre key operations, no deaths of the process |
| `Ratchets` | backends load the session stored last; sessions returned by backends were not used in this state before; encrypted key material is never the same twice |
| `Apart` | the trust decision callback does not use sessions, send messages or evaluate trust |
| `Fitting` | decrypting what another device encrypted gives what it encrypted, if it succeeds; only empty messages have empty content |
| `StoresSent` | directly after a message was sent, storing does not fail and the process does not die |
| `Sensible A` | the methods of the BTBV application do not withdraw trust decisions, the prompt decides about all devices it is given, neither raises `StillUndecided` |
| `Online own` | the device lists and bundles of the account on the server: downloads return them, uploads and deletions change them at once, a failing one not at all |
| `RetainsAll` | the trust decision callback goes through the public API and purges nothing |
| `Modest` | the trust decision callback does not change backends, the own device, or device lists and bundles |
| `Decisive lvl`, `EvaluatesBy lvl` | the trust decision callback decides about the devices it is given and withdraws nothing; custom trust levels are evaluated by `lvl` |
| `Exemplary lvl` | all of the above about the callback at once; met by the reference implementation (C94) |
| `Hosted own`, `InMemory` | servers and storage are those of the reference implementation |
| `Labelled` | backends label the bundles they return with what they were asked for |
| `Lasts`, `Shelf` | backends return sessions for the device asked for, sessions keep the key exchange they were built by; the session stored last is loaded |
| `PreKeyed pk offers` | `Lasts`; loaded sessions were stored; deleted pre keys build no sessions; bundles have no given up pre keys |
| `MildDecisions`, `PlainDecisions` | the trust decision callback does not touch sessions, messages, pre keys and bundles |
| `GivesUp` | after a session was built and stored, the process does not die before its pre key is given up, and giving it up does not fail |
| `Fading src used` | the key of a message is used once, and only by sessions built by the key exchange it was encrypted for; a device makes every key exchange anew (C112) |
| `Waiting k` | the overlapping call `k` is neither `after_history_sync` nor `replace_sessions`; its trust decisions neither end the synchronization, nor send, nor delete pre keys (C114) |
| `Tied peer`, `Honest peer h` | sessions are with the owner of the identity key of the key exchange or bundle they were built from, and stay so; the session stored last is loaded (C115) |
| `Story` | a `Life` from `New` in which the application's callbacks go through the public API and are mild (C115) |
| `Reserved` | trust decisions contact nobody and do not write the queues of waiting replies (C116) |
| `Brief q` | a trust decision takes at most `q` interactions per device it is asked about (C117) |
| `Judging` | trust decisions ask for devices and set trust levels; they do nothing else with the storage, build no sessions and evaluate no trust (C119) |
| `Retaining ns j d` | no call of the life removes device `d` of `j` from the list of `ns` or purges it, nor does the callback (C92) |
| `Withholding ns j d` | no call of the life, nor the callback, brings device `d` of `j` back on the list of `ns` (C120) |
| `NeverAnswers j d level bad` | the application does not evaluate the trust level `level` of device `d` of `j` as `bad` (C121) |
| `SameBundles t t'`, `SameTrust t t'` | in both executions the servers offer the same bundles, with one identity key per device, and the application evaluates devices alike (C122) |
| `Faithful`, `Right` | backends return sessions for the device a message came from; with `Addressed`: for the right device in general (overlapping calls) |
| `Sessionless` | the callback does not work with sessions (overlapping calls) |
| `Orderly own` | `Modest`; calls are made by the device that is currently the own one; `create` runs to its end (device lists and bundles on the server) |
| `Typed` | stored data has the form the library gives it; kept by all calls |
| `NoneRevived` | no session is built with a hidden pre key (C112) |
| `NoKex`, `OnlyKex x`, `Unpurged` | old messages carry no key exchanges, or none but `x`; sessions are not purged (C113) |
| `Life` from `New` | calls of one account, one after the other, each ending anywhere, from a storage that is empty but for the identity key pair |

That these can be met is shown by the `_example` beside each theorem: a run satisfying all hypotheses.

## 5. Where the code differs from its documentation or from what one would expect

Proved (`_refuted`):

* C06, C09, C17, C18, C20: lost updates and exceptions when calls overlap.
* C10: `Backend.__init__` rejects every nonzero `max_num_per_message_skipped_keys` (precedence of `or`).
* C12: a first `create` that dies between storing the device list and the device id makes the next one overwrite the list.
* C22: `UnknownNamespace` leaves `get_device_information` for devices that support only backends that are not loaded.
* C24: after an interrupted `purge_bare_jid`, `get_device_information` raises `NothingException`.
* C36: the bundle used to build a session in `encrypt` is not compared with the identity key that was trusted.
* C47: a failing automatic reply costs the caller the decrypted plaintext.
* C49: a failing empty message after history synchronization costs the rest of this backend's queue.
* C54: a `create` that fails after storing the own device is not made up for by repeating it.
* C55: after purging the own JID, the own identity key is taken from the server.
* C57: trust in identity keys that are not stored for a listed device survives `purge_bare_jid`.
* C59, C60: while an upload after a rotation fails, the other keys are not checked; the delay is not doubled.
* C67: `replace_sessions` for an unknown device and `get_own_device_information` after a purge raise `RuntimeError`. No other call does (`C67_life_partial`).
* C77: empty messages are sent before the session is stored; if the process dies in between, the next message is encrypted with a
  session state that was already used.
* C87: overlapping calls of `encrypt` for the same device use the same state of the session for two messages.
* C88: `encrypt` uses the caller's dictionary of plaintexts and priority order, not copies, after waiting for others; `update_device_list` uses its
  copy of the device list after passing it to `_upload_device_list`.
* C89: `set_own_label` and `purge_backend` modify the dictionary returned by `_download_device_list`.
* C86: of two replies that fall due in overlapping calls of `decrypt` during history synchronization, one may be lost.
* C90: if `create` is interrupted between storing the own device and uploading its bundle, no later call uploads the bundle, but later calls list the device. An outdated own device list passed to `update_device_list` is uploaded again with the own device added.
* C96: in the reference implementation, downloading a bundle that does not exist raises `BundleDownloadFailed` instead of the documented `BundleNotFound`, and
  deleting one raises although the documentation says it must not. Purging a backend for the second time therefore fails.
* C102: if two devices send each other first messages at the same time, each replaces the session it built by a passive one from the key exchange of the other.
  Afterwards they have no session in common. Passive sessions send no key exchanges, so nothing either of them sends can be decrypted until
  `replace_sessions` is called or sessions are purged.
* C103: a session built by a key exchange is stored before its pre key is hidden or deleted. If the process dies in between, the pre key can build
  another session.
* C104: overlapping calls of `decrypt` count the pre keys after each has given up one, and each replaces all that are missing, so that there may be more than 100.
* C105: `decrypt` and the rotation task obtain a bundle and upload it in two steps. If the other publishes a newer bundle in between, the older one replaces it, with
  a signed pre key or a pre key that is no longer current, until the next change.
* C106: if `get_device_information`, `encrypt` or `decrypt` loads a trust level while `set_trust` stores another one, the cache keeps the old level. A key that was distrusted
  stays trusted until the storage is created anew, and `encrypt` encrypts for it.
* C107: `decrypt` asks whether history is synchronized before it hides a pre key. If `after_history_sync` runs in between, the pre key stays hidden, and usable, until
  the next synchronization ends. The same happens if deleting hidden pre keys fails.
* C108: `decrypt` adds to the queue of an account in two steps. If `after_history_sync` takes the queue away in between, replies already sent are put off again, and
  sent again after the next synchronization.
* C112: while history is synchronized, hidden pre keys still build sessions. After a device began another session, replaying the first message of the former one
  builds the former one again. The old plaintext is returned once more, and the newer session is lost: further messages of the device cannot be decrypted
  until it begins another session.
  Calls of `decrypt` that overlap load a session before another one stores it, so that a message given to both is read twice, also outside of synchronization.
* C115: `encrypt` and `replace_sessions` do not compare the identity key of a bundle they download with the known identity key of the device. If they differ, a session with the owner of
  the other key is stored for the device, and what its owner sends is returned as sent by the known device, with its trust level.
  `purge_bare_jid` deletes identity keys first and sessions last, and only those of loaded backends; sessions that remain are used for whoever gets the device id next.

Seen while modelling, part of proved statements:

* Plaintexts and key material are written to the debug log (session_manager.py:1705, 1961, 2188, 2196); logging is not modelled, so C109 does not speak about it.
* Device ids are drawn from 1 to 2^31 - 2.
* `purge_bare_jid` deletes the identity keys before the trust levels, so that trust survives if it is interrupted in between (C58_example).
* The queue of empty messages is not purged by `purge_bare_jid` or `purge_backend`.
* `encrypt` may return a message without keys (C71_example).
* `encrypt` reports a failed key exchange in its result, although the docstring says it is raised (C71).
* A manager created later with a higher refill threshold does not refill until the next pre key is used up (C43).
* If sending the automatic reply fails, the session that was used to encrypt it is not stored.
* The BTBV example raises `ValueError` in its trust decision for stored trust level names it does not know.

## 6. Wrong programs

`seeded/LOG.jsonl` records changes made to the model in a copy, and which proofs then failed. A proof that fails shows that the change is noticed;
where the failing proof is a helper and not the property itself, it is not a proof that the statement became false. Entries with the field `run`
come from builds that were stopped at the first module with an error, and list only the failures in that module. Entries that survived are
explained: either the change has no effect on what the model does, or the theorems named under `tightened` were strengthened afterwards.

`Wrong/*.lean` goes further for the main claims. There, a claim is a predicate on programs, worded as the theorem, with the
program as a variable (`Wrong.C27 : Enc → Prop`). One theorem shows the predicate for the modelled function (`Wrong.C27_encrypt`); for each
program with a mistake a theorem shows that the predicate fails (`Wrong.C27_unfiltered : ¬ C27 unfiltered`). So the statement itself, and not
only its proof, excludes the mistake. The wrong programs are made by replacing one step of a skeleton; with the steps of the code the skeleton is
the modelled function (`encryptBy_right`, `decryptBy_right`, `updateBy_right`, `createBy_right`, `rotateBy_right`, `replaceBy_right`,
`callsBy_right`, `getBy_right`, `leaveBy_right`, `purgeBackendBy_right`, `makeBy_right`, `infoBy_right`, `attemptBy_right`). Covered are C01-C11,
C13-C16, C20-C23, C25, C27-C42, C44-C54, C56-C69, C71-C76, C78-C83, C93-C95, C97, C98, C100, C101, C109-C111, C114, C115,
C117, C118, C121, C122.

`Wrong/Life.lean` does the same for claims about sequences of calls and lives of an account. There a claim is a predicate on `Code`: what creates
a manager, and what each method does. `HistBy` and `LifeBy` are `Hist` and `Life` for such code; for the modelled code (`real`) they are the same
(`hist_real`, `life_real`). Covered are C12, C19, C25, C26, C43, C55, C70, C85, C91, C92, C116, C119, C120. `Wrong/OneTime.lean` adds the claims
about keys and messages that are used once (C77, C103, C112), with `DaysBy`, `SittingBy` and `TalkBy` for `Days`, `Sitting` and `Talk`.
`Wrong/Together.lean` adds what holds of claims about calls that overlap (C17, C18, C104), with `RunningBy` for `Running`; `Wrong/Blame.lean` adds C24.
