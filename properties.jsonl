{"id": "C01", "title": "Storage cache is transparent", "statement": "For any sequence of load/store/delete calls issued one after the other on a Storage, whether or not some of them fail with an exception raised by the underlying _load/_store/_delete before it takes effect, every load returns exactly what a plain key-value map fed with the successful writes would return; enabling or disabling the cache is not observable.", "quantifier": "all key-value contents, all finite sequences of operations, all patterns of failures of the underlying storage, cache on or off", "why_tests_cant": "unbounded histories and failure patterns", "anchors": ["omemo/storage.py:Storage.load", "omemo/storage.py:Storage.store", "omemo/storage.py:Storage.delete"]}
{"id": "C02", "title": "Typed loads return only values of the requested type", "statement": "load_primitive/load_optional/load_list/load_dict/load_bytes return Nothing exactly when the key is absent, return exactly the stored value when it is of the requested type (with Python's rule that a bool is an int), and raise TypeError in every other case, except that load_bytes raises ValueError for a stored string that is not base64; a stored None is distinguishable from an absent key.", "quantifier": "all stored JSON values, all keys, all requested primitive types", "why_tests_cant": "infinitely many JSON values", "anchors": ["omemo/storage.py:Storage.load_primitive", "omemo/storage.py:Storage.load_optional", "omemo/storage.py:Storage.load_list", "omemo/storage.py:Storage.load_dict", "omemo/storage.py:Maybe"]}
{"id": "C03", "title": "Bytes stored are the bytes loaded", "statement": "For every byte string b, store_bytes(k, b) followed by load_bytes(k) yields exactly b, with and without cache, and the string written to the underlying storage consists of URL-safe base64 characters only (so never a slash).", "quantifier": "all byte strings of all lengths, all keys", "why_tests_cant": "infinitely many byte strings, three padding classes", "anchors": ["omemo/storage.py:Storage.store_bytes", "omemo/storage.py:Storage.load_bytes"]}
{"id": "C04", "title": "Storage keys never collide", "statement": "The storage locations used for two different pieces of library data (own device id, identity key pair, device lists, per-device namespaces/activity/label/identity key, trust per (JID, identity key), queues) are different strings, provided namespaces and bare JIDs contain no slash. (For namespaces containing slashes the claim is false.)", "quantifier": "all bare JIDs, device ids, namespaces, identity keys", "why_tests_cant": "infinite family of keys", "anchors": ["omemo/session_manager.py", "omemo/identity_key_pair.py"]}
{"id": "C05", "title": "Values in storage are isolated from caller mutation", "statement": "Mutating, in place and at any later time, an object passed to Storage.store or obtained from a load never changes what later loads of a Storage with enabled cache return.", "quantifier": "all object graphs (including shared and cyclic ones of any size), all interleavings of mutations, stores and loads", "why_tests_cant": "unbounded aliasing and mutation histories", "anchors": ["omemo/storage.py:Just", "omemo/storage.py:Storage.load", "omemo/storage.py:Storage.store"]}
{"id": "C06", "title": "Concurrent load cannot resurrect an overwritten value", "statement": "Once a store(k, v) call has returned, loads of k started afterwards return v until the next write to k, also when other loads were in flight while the store ran.", "quantifier": "all interleavings of concurrent loads and stores at await points", "why_tests_cant": "schedules", "anchors": ["omemo/storage.py:Storage.load", "omemo/storage.py:Storage.store"]}
{"id": "C07", "title": "Identity key pair is stable", "statement": "Once the identity key pair was obtained from a storage, every later IdentityKeyPair.get on this storage, in this or any later process, and after any history of library calls and crashes, returns the same key pair in the same representation (seed or private key).", "quantifier": "all histories of API calls, crash points and storage failures", "why_tests_cant": "unbounded histories and crash points", "anchors": ["omemo/identity_key_pair.py:IdentityKeyPair.get"]}
{"id": "C08", "title": "Identity key generation is crash safe", "statement": "If the process dies or a storage operation fails at any point in IdentityKeyPair.get on a fresh storage, a later get either returns a freshly generated 32-byte seed pair or exactly the pair whose key had been stored; a key is never combined with a representation flag of a different key.", "quantifier": "all crash points and failures, any number of retries", "why_tests_cant": "crash points", "anchors": ["omemo/identity_key_pair.py:IdentityKeyPair.get"]}
{"id": "C09", "title": "Concurrent identity key requests agree", "statement": "Two IdentityKeyPair.get calls running concurrently on a fresh storage return the same key pair.", "quantifier": "all schedules of two concurrent calls", "why_tests_cant": "schedules", "anchors": ["omemo/identity_key_pair.py:IdentityKeyPair.get"]}
{"id": "C10", "title": "Skipped message key limits are validated as documented", "statement": "Backend construction accepts a per-message maximum exactly when it is None, or 0 with a per-session maximum of 0, or between 1 and the per-session maximum; None defaults to the per-session maximum.", "quantifier": "all integers for both parameters", "why_tests_cant": "infinitely many pairs", "anchors": ["omemo/backend.py:Backend.__init__"]}
{"id": "C11", "title": "Device list updates implement the documented merge", "statement": "After update_device_list(ns, jid, L) succeeds: the known devices are the previously known ones plus those in L; every device in L is active for ns and advertises ns; a known device missing from L is inactive for ns if it advertised ns and otherwise unchanged; activity for other namespaces and identity keys are untouched; the label becomes the label in L unless that is None; no data of another JID changes.", "quantifier": "all stored states, all device lists, namespaces and JIDs", "why_tests_cant": "unbounded device lists and states", "anchors": ["omemo/session_manager.py:SessionManager.update_device_list"]}
{"id": "C12", "title": "Known devices are never forgotten", "statement": "Whatever sequence of library calls runs, and wherever it fails or crashes, a device that was once listed for a JID stays listed for that JID with namespaces, activity and label available, unless purge_bare_jid is called for that JID.", "quantifier": "all histories of API calls issued one after the other, all failures and crash points", "why_tests_cant": "unbounded histories and crash points", "anchors": ["omemo/session_manager.py:SessionManager.update_device_list", "omemo/session_manager.py:SessionManager.get_device_information"]}
{"id": "C13", "title": "Own device is kept on the own device list", "statement": "Whenever update_device_list for the own JID and a loaded namespace returns successfully, either the given list already contained this device or a list was uploaded that consists of exactly the given entries plus this device with its stored label.", "quantifier": "all device lists, all states", "why_tests_cant": "all inputs", "anchors": ["omemo/session_manager.py:SessionManager.update_device_list"]}
{"id": "C14", "title": "Device list updates for unloaded namespaces have no effect", "statement": "update_device_list for a namespace whose backend is not loaded raises UnknownNamespace and performs no storage access and no upload.", "quantifier": "all inputs and states", "why_tests_cant": "all inputs", "anchors": ["omemo/session_manager.py:SessionManager.update_device_list"]}
{"id": "C15", "title": "Interrupted device list update is repaired by repeating it", "statement": "If update_device_list fails or the process dies at any point, then repeating the same call until it succeeds leads to the same device data as if the first attempt had not been interrupted.", "quantifier": "all states, lists, crash points and failures", "why_tests_cant": "crash points", "anchors": ["omemo/session_manager.py:SessionManager.update_device_list"]}
{"id": "C16", "title": "Device list update is idempotent", "statement": "Performing the same successful update_device_list twice leaves the same device data as performing it once.", "quantifier": "all states and lists", "why_tests_cant": "all inputs", "anchors": ["omemo/session_manager.py:SessionManager.update_device_list"]}
{"id": "C17", "title": "Concurrent device list updates lose no device", "statement": "When two update_device_list calls for one JID run concurrently and both succeed, all devices of both lists are known afterwards.", "quantifier": "all schedules", "why_tests_cant": "schedules", "anchors": ["omemo/session_manager.py:SessionManager.update_device_list"]}
{"id": "C18", "title": "No schedule breaks stored device data", "statement": "Under every interleaving of any number of concurrent library calls other than purges and creation, every listed device always has namespaces, activity and label data of the right type in storage, so no call fails with an internal error for missing data.", "quantifier": "all schedules of any number of concurrent calls", "why_tests_cant": "schedules", "anchors": ["omemo/session_manager.py:SessionManager.update_device_list", "omemo/session_manager.py:SessionManager.get_device_information"]}
{"id": "C19", "title": "Identity keys are pinned", "statement": "Once the identity key of a device (JID, device id) is known, no sequence of library calls changes it, whatever the server and other parties send, unless purge_bare_jid is called for that JID.", "quantifier": "all histories, all server responses, all crash points", "why_tests_cant": "unbounded adversarial histories", "anchors": ["omemo/session_manager.py:SessionManager.get_device_information", "omemo/session_manager.py:SessionManager.decrypt"]}
{"id": "C20", "title": "Concurrent lookups pin one identity key", "statement": "Two concurrent get_device_information calls for one JID report the same identity key for the same device.", "quantifier": "all schedules", "why_tests_cant": "schedules", "anchors": ["omemo/session_manager.py:SessionManager.get_device_information"]}
{"id": "C21", "title": "Device information is exact", "statement": "get_device_information(jid) returns one entry for each listed device whose identity key is known or whose bundle can be downloaded for one of its namespaces, and no other; the entry carries the stored namespaces, activity, label, identity key and trust level name (the undecided level if none is stored).", "quantifier": "all stored states, all download outcomes", "why_tests_cant": "all states and failure patterns", "anchors": ["omemo/session_manager.py:SessionManager.get_device_information"]}
{"id": "C22", "title": "Bundle download problems never make device lookup fail", "statement": "get_device_information never raises because a bundle could not be downloaded; the device is left out instead.", "quantifier": "all download outcomes including UnknownNamespace for namespaces of backends not currently loaded", "why_tests_cant": "all failure patterns", "anchors": ["omemo/session_manager.py:SessionManager.get_device_information"]}
{"id": "C23", "title": "Advertised namespaces always have activity information", "statement": "In every DeviceInformation returned, each namespace occurs in the activity information, whatever is in storage; in particular encrypt never fails with KeyError when it looks up the activity of a recipient.", "quantifier": "all stored states, including inconsistent ones", "why_tests_cant": "all states", "anchors": ["omemo/session_manager.py:SessionManager.get_device_information", "omemo/session_manager.py:SessionManager.encrypt"]}
{"id": "C24", "title": "Stored data stays well formed", "statement": "In every state reachable by any history of library calls with failures and crashes anywhere, no library call fails with TypeError, KeyError or NothingException because of data the library itself stored.", "quantifier": "all histories and crash points", "why_tests_cant": "unbounded histories and crash points", "anchors": ["omemo/session_manager.py:SessionManager.create", "omemo/session_manager.py:SessionManager.purge_bare_jid", "omemo/session_manager.py:SessionManager.update_device_list", "omemo/session_manager.py:SessionManager.get_device_information"]}
{"id": "C25", "title": "Trust is per JID and identity key", "statement": "set_trust(jid, ik, level) makes exactly the devices of jid with identity key ik report that level, for all backends and device ids, until the next set_trust for the same pair or a purge of the JID; the trust of every other pair is unchanged.", "quantifier": "all JIDs, keys, levels, histories", "why_tests_cant": "unbounded histories", "anchors": ["omemo/session_manager.py:SessionManager.set_trust", "omemo/session_manager.py:SessionManager.get_device_information"]}
{"id": "C26", "title": "New identity keys start undecided", "statement": "A device whose (JID, identity key) pair never had a trust level set is reported with the configured undecided level.", "quantifier": "all histories", "why_tests_cant": "unbounded histories", "anchors": ["omemo/session_manager.py:SessionManager.get_device_information"]}
{"id": "C27", "title": "Messages are encrypted only for trusted devices", "statement": "encrypt hands key material of a message to a backend for a device only after the application evaluated the trust level of that very device information to TRUSTED, with no later evaluation saying otherwise, whatever storage, server, application callbacks or concurrent calls do.", "quantifier": "all environments, schedules, failures, crash points and inputs", "why_tests_cant": "adversarial environments and schedules", "anchors": ["omemo/session_manager.py:SessionManager.encrypt"]}
{"id": "C28", "title": "Undecided devices block encryption", "statement": "If after the trust decision some recipient device still evaluates to UNDECIDED, encrypt raises StillUndecided; nothing was encrypted, no session was built and nothing was stored for sessions.", "quantifier": "all environments, inputs", "why_tests_cant": "all environments", "anchors": ["omemo/session_manager.py:SessionManager.encrypt"]}
{"id": "C29", "title": "Trust decisions are requested in bulk", "statement": "encrypt calls the trust decision callback at most once, exactly if at least one recipient device evaluated to UNDECIDED, and passes exactly the set of those devices and the given identifier.", "quantifier": "all environments, inputs", "why_tests_cant": "all environments", "anchors": ["omemo/session_manager.py:SessionManager.encrypt"]}
{"id": "C30", "title": "Only intended recipients receive keys", "statement": "Every device encrypt creates key material for belongs to one of the given JIDs or the own JID, is not the sending device, and is stored as active for the namespace it is encrypted with.", "quantifier": "all environments and inputs", "why_tests_cant": "all environments", "anchors": ["omemo/session_manager.py:SessionManager.encrypt"]}
{"id": "C31", "title": "Backend priority is honoured", "statement": "The namespace used for a recipient device is the first namespace of the effective priority order for which the device is active; no device receives the message through two backends.", "quantifier": "all device states and priority lists", "why_tests_cant": "all inputs", "anchors": ["omemo/session_manager.py:SessionManager.encrypt"]}
{"id": "C32", "title": "Every eligible trusted device is served or reported", "statement": "When encrypt succeeds, each eligible trusted recipient device has key material in exactly one returned message, the one of its selected namespace, or is reported as exactly one encryption error, never both.", "quantifier": "all environments and inputs", "why_tests_cant": "all environments", "anchors": ["omemo/session_manager.py:SessionManager.encrypt"]}
{"id": "C33", "title": "Missing recipients are reported and nothing is stored", "statement": "encrypt raises NoEligibleDevices exactly when some given JID other than the own one ends up without a device, naming exactly these JIDs; then and in every other failure before the last step no session was stored.", "quantifier": "all environments and inputs", "why_tests_cant": "all environments", "anchors": ["omemo/session_manager.py:SessionManager.encrypt"]}
{"id": "C34", "title": "Sessions are persisted only after encryption is complete", "statement": "encrypt stores sessions only after all encryption is done; on success exactly one session was stored per key material in the returned messages.", "quantifier": "all environments, failures and crash points", "why_tests_cant": "crash points", "anchors": ["omemo/session_manager.py:SessionManager.encrypt"]}
{"id": "C35", "title": "Key exchange data is attached exactly while needed", "statement": "In messages produced by encrypt and in empty messages, key exchange information accompanies key material exactly when the session used was actively initiated and is not yet confirmed.", "quantifier": "all sessions, environments", "why_tests_cant": "all environments", "anchors": ["omemo/session_manager.py:SessionManager.encrypt", "omemo/session_manager.py:SessionManager.after_history_sync", "omemo/session_manager.py:SessionManager.decrypt"]}
{"id": "C36", "title": "Keys go only to identity keys that were trusted", "statement": "The bundle from which encrypt builds a new session carries the identity key for which the device's trust was evaluated.", "quantifier": "all servers, i.e. all bundle download responses", "why_tests_cant": "adversarial server", "anchors": ["omemo/session_manager.py:SessionManager.encrypt"]}
{"id": "C37", "title": "Unknown priority namespaces are rejected up front", "statement": "encrypt with a priority order naming a namespace that is not loaded raises UnknownNamespace before any effect.", "quantifier": "all inputs and states", "why_tests_cant": "all inputs", "anchors": ["omemo/session_manager.py:SessionManager.encrypt"]}
{"id": "C38", "title": "Decryption is gated on addressing, sender and trust", "statement": "decrypt uses a session, builds a session or returns a plaintext only if the message's backend is loaded, the message contains key material addressed to this device, the sending device is known, and the trust evaluation of that device information did not yield DISTRUSTED.", "quantifier": "all messages, environments, schedules", "why_tests_cant": "adversarial messages and environments", "anchors": ["omemo/session_manager.py:SessionManager.decrypt"]}
{"id": "C39", "title": "Key exchanges with a foreign identity key are rejected", "statement": "decrypt never builds or uses a session for a message with key exchange information whose identity key differs from the identity key known for the sending device; it raises PublicDataInconsistency without touching any session or pre key.", "quantifier": "all messages and environments", "why_tests_cant": "adversarial messages", "anchors": ["omemo/session_manager.py:SessionManager.decrypt"]}
{"id": "C40", "title": "Failed decryption changes no session", "statement": "If decrypt fails before the plaintext is recovered, no session was stored, no pre key hidden or deleted, no bundle uploaded and nothing sent or queued; the session stored on success belongs to the session used for this message, and no other session is stored before.", "quantifier": "all messages, environments, failures, crash points", "why_tests_cant": "crash points", "anchors": ["omemo/session_manager.py:SessionManager.decrypt"]}
{"id": "C41", "title": "Existing sessions are reused or replaced correctly", "statement": "For a message with key exchange, decrypt uses the stored session exactly when it was passively initiated by a key exchange that builds the same session, and otherwise builds a new session from the key exchange; without key exchange it uses the stored session or raises NoSession.", "quantifier": "all messages and stored sessions", "why_tests_cant": "all inputs", "anchors": ["omemo/session_manager.py:SessionManager.decrypt"]}
{"id": "C42", "title": "Pre keys are consumed exactly by key exchanges", "statement": "A successful decrypt of a message with key exchange hides (during history synchronization) or deletes (otherwise) the pre key of the session exactly once; a message without key exchange never touches pre keys.", "quantifier": "all messages, environments", "why_tests_cant": "all environments", "anchors": ["omemo/session_manager.py:SessionManager.decrypt"]}
{"id": "C43", "title": "Pre key stock is maintained", "statement": "Given a backend that counts correctly, after every successful library call sequence the number of visible pre keys of a loaded backend is above the refill threshold (at least 26) and at most 100, and the number of keys requested from the backend is never negative or zero.", "quantifier": "all histories, thresholds 25..99", "why_tests_cant": "unbounded histories", "anchors": ["omemo/session_manager.py:SessionManager.decrypt", "omemo/session_manager.py:SessionManager.create"]}
{"id": "C44", "title": "Published bundle follows the pre keys", "statement": "Whenever decrypt changed the visible pre keys and succeeds, the bundle uploaded last for that backend is the one obtained after all pre key changes of the call.", "quantifier": "all environments", "why_tests_cant": "all environments", "anchors": ["omemo/session_manager.py:SessionManager.decrypt"]}
{"id": "C45", "title": "Automatic replies are sent exactly when required", "statement": "A successful decrypt sends or queues one empty message for the session exactly if the message had key exchange information or the receiving chain is longer than 53; during history synchronization it only queues, otherwise it only sends.", "quantifier": "all messages, sessions, environments", "why_tests_cant": "all environments", "anchors": ["omemo/session_manager.py:SessionManager.decrypt"]}
{"id": "C46", "title": "Empty messages yield no plaintext", "statement": "decrypt returns None as plaintext exactly for empty messages, and otherwise exactly what the backend decrypted with the key material taken from the key addressed to this device.", "quantifier": "all messages and environments", "why_tests_cant": "all environments", "anchors": ["omemo/session_manager.py:SessionManager.decrypt"]}
{"id": "C47", "title": "Decrypted plaintext is not lost to follow-up failures", "statement": "If the backend decrypted a message and the ratchet state was persisted, the caller receives the plaintext.", "quantifier": "all failures after decryption", "why_tests_cant": "failure points", "anchors": ["omemo/session_manager.py:SessionManager.decrypt"]}
{"id": "C48", "title": "Queued empty messages are sent exactly once per session", "statement": "after_history_sync, when it succeeds, sends exactly one empty message for each queued (namespace, JID, device id) of the loaded backends that has a session, none for others, and leaves the processed queues empty.", "quantifier": "all queue contents and environments", "why_tests_cant": "unbounded queues", "anchors": ["omemo/session_manager.py:SessionManager.after_history_sync"]}
{"id": "C49", "title": "Queued empty messages survive failures", "statement": "If after_history_sync fails to send one queued empty message, the remaining ones are still sent or stay queued.", "quantifier": "all failure points", "why_tests_cant": "failure points", "anchors": ["omemo/session_manager.py:SessionManager.after_history_sync"]}
{"id": "C50", "title": "History synchronization sends nothing", "statement": "While in history synchronization mode decrypt sends no message and deletes no pre key; leaving the mode deletes all hidden pre keys of all loaded backends before any queued message is sent.", "quantifier": "all messages and environments", "why_tests_cant": "all environments", "anchors": ["omemo/session_manager.py:SessionManager.decrypt", "omemo/session_manager.py:SessionManager.after_history_sync", "omemo/session_manager.py:SessionManager.before_history_sync"]}
{"id": "C51", "title": "Generated device id is fresh and in range", "statement": "On first run the generated device id lies between 1 and 2^31-1 and is not contained in any of the own device lists downloaded for the loaded backends.", "quantifier": "all downloaded device lists, all random sequences", "why_tests_cant": "all inputs", "anchors": ["omemo/session_manager.py:SessionManager.create"]}
{"id": "C52", "title": "Invalid configuration is rejected without effects", "statement": "create raises ValueError, before any other effect, exactly if two backends share a namespace or the refill threshold is outside 25..99.", "quantifier": "all inputs", "why_tests_cant": "all inputs", "anchors": ["omemo/session_manager.py:SessionManager.create"]}
{"id": "C53", "title": "The device is listed online only after its bundles", "statement": "During create no device list containing a newly announced device is uploaded for a namespace before the bundle for that namespace was uploaded successfully; this holds at every crash point.", "quantifier": "all environments and crash points", "why_tests_cant": "crash points", "anchors": ["omemo/session_manager.py:SessionManager.create"]}
{"id": "C54", "title": "A failed creation can be completed by calling create again", "statement": "If create fails or the process dies, calling create again (successfully) results in published bundles and device list entries for all loaded backends and 100 pre keys generated for new ones.", "quantifier": "all failure and crash points", "why_tests_cant": "crash points", "anchors": ["omemo/session_manager.py:SessionManager.create"]}
{"id": "C55", "title": "Own device information matches the loaded backends", "statement": "After create succeeds, the own device is known, has the identity key of the identity key pair, and is recorded as supporting exactly the loaded namespaces, all active.", "quantifier": "all previous states reachable by library calls, all sets of backends", "why_tests_cant": "unbounded histories", "anchors": ["omemo/session_manager.py:SessionManager.create"]}
{"id": "C56", "title": "Purging a backend removes its online presence in a safe order", "statement": "purge_backend uploads the own device list without this device (if it was on it) before any other change, deletes the bundle as last step, and on success the backend is unloaded, its data purged, and the own device no longer advertises the namespace while all other namespaces keep their activity.", "quantifier": "all environments, states and crash points", "why_tests_cant": "crash points", "anchors": ["omemo/session_manager.py:SessionManager.purge_backend"]}
{"id": "C57", "title": "Purging a JID removes exactly its data", "statement": "After purge_bare_jid(jid) succeeds, no device list, device data or trust data for jid remains and every loaded backend was told to purge jid; data of other JIDs is unchanged.", "quantifier": "all states", "why_tests_cant": "all states", "anchors": ["omemo/session_manager.py:SessionManager.purge_bare_jid"]}
{"id": "C58", "title": "Interrupted purge can be repeated", "statement": "If purge_bare_jid is interrupted at any point, repeating it to success removes the device list and all device data of the JID.", "quantifier": "all states and crash points", "why_tests_cant": "crash points", "anchors": ["omemo/session_manager.py:SessionManager.purge_bare_jid"]}
{"id": "C59", "title": "Signed pre keys are rotated in time", "statement": "The background task rotates a signed pre key exactly when its age exceeds the rotation period at a check, and always schedules the next check so that no key that was not rotated gets older than the period plus 60 seconds before it is checked again.", "quantifier": "all ages, periods, numbers of backends, any number of rounds", "why_tests_cant": "unbounded rounds", "anchors": ["omemo/session_manager.py:SessionManager.__manage_signed_pre_key_rotation"]}
{"id": "C60", "title": "Bundle upload after rotation is retried with doubling delay", "statement": "After rotating, the bundle is uploaded; while uploads fail they are retried after 60, 120, 240, ... seconds, capped at one hour, and no other rotation happens before the upload succeeded.", "quantifier": "all failure sequences", "why_tests_cant": "unbounded failures", "anchors": ["omemo/session_manager.py:SessionManager.__manage_signed_pre_key_rotation"]}
{"id": "C61", "title": "ensure_data_consistency restores consistency", "statement": "After ensure_data_consistency succeeds, for every loaded backend the server's own device list contains this device and the server's bundle of this device equals the local bundle; a bundle already equal is not uploaded again.", "quantifier": "all server and local states", "why_tests_cant": "all states", "anchors": ["omemo/session_manager.py:SessionManager.ensure_data_consistency"]}
{"id": "C62", "title": "Own label is stored and published", "statement": "After set_own_label(label) succeeds, the own device reports the label and every loaded backend's own device list was uploaded with this label for this device and all other entries as downloaded.", "quantifier": "all states", "why_tests_cant": "all states", "anchors": ["omemo/session_manager.py:SessionManager.set_own_label"]}
{"id": "C63", "title": "Session replacement persists only announced sessions", "statement": "replace_sessions stores a new session only after the notification message carrying its key exchange was sent successfully; a backend failure is reported under its namespace and leaves the stored session untouched unless storing itself failed; backends without a session or not supported by the device are not touched.", "quantifier": "all environments, failures", "why_tests_cant": "failure points", "anchors": ["omemo/session_manager.py:SessionManager.replace_sessions"]}
{"id": "C64", "title": "Sending chain lengths cover exactly the shared backends", "statement": "get_sending_chain_length returns one entry for each loaded backend supported by the device, None without session and the session's sending chain length otherwise.", "quantifier": "all devices and states", "why_tests_cant": "all states", "anchors": ["omemo/session_manager.py:SessionManager.get_sending_chain_length"]}
{"id": "C65", "title": "Fingerprints are faithful", "statement": "format_identity_key splits the lowercase hex form of the converted key into groups of eight characters, eight groups for a 32 byte key, and different converted keys give different fingerprints.", "quantifier": "all keys", "why_tests_cant": "infinitely many keys", "anchors": ["omemo/session_manager.py:SessionManager.format_identity_key"]}
{"id": "C66", "title": "Blind trust ends with the first manual decision", "statement": "With the BTBV manager, a device is blindly trusted only if every known device of its JID is undecided or blindly trusted at that time; every other undecided device is presented for a manual decision, and no trust level other than that of the undecided devices passed is ever changed.", "quantifier": "all device states and environments", "why_tests_cant": "all states", "anchors": ["examples/btbv_session_manager.py:BTBVSessionManager._make_trust_decision"]}
{"id": "C67", "title": "Exceptions of internal lookups do not leak", "statement": "Public methods never raise RuntimeError (StopIteration inside a coroutine) for devices or own device information that can not be found.", "quantifier": "all states reachable by library calls", "why_tests_cant": "unbounded histories", "anchors": ["omemo/session_manager.py:SessionManager.replace_sessions", "omemo/session_manager.py:SessionManager.get_own_device_information"]}
{"id": "C68", "title": "Key material and content belong together", "statement": "The key material encrypt hands to a backend for a device is the key material produced by encrypting the plaintext given for exactly this backend's namespace; each returned message carries the matching content and plain key material and names this device as sender; no two returned messages are for the same namespace.", "quantifier": "all plaintexts, environments, failures", "why_tests_cant": "all inputs and environments", "anchors": ["omemo/session_manager.py:SessionManager.encrypt"]}
{"id": "C69", "title": "Exceptions have documented causes", "statement": "Every exception that leaves a public method was raised by something the library called (storage, backend, network method, trust decision), or is one the documentation of this method lists as its own, or reports malformed stored data, a device that could not be found, a backend unloaded in the meantime, or a plaintext that was not given for a namespace needed.", "quantifier": "all methods, arguments, environments and failures", "why_tests_cant": "all environments", "anchors": ["omemo/session_manager.py:SessionManager.create", "omemo/session_manager.py:SessionManager.update_device_list", "omemo/session_manager.py:SessionManager.replace_sessions", "omemo/session_manager.py:SessionManager.encrypt", "omemo/session_manager.py:SessionManager.decrypt"]}
{"id": "C70", "title": "The own device id never changes", "statement": "Once a session manager was created, every session manager created later for the same account has the same device id, and this id is the one in storage, whatever calls, failures and crashes happen in between.", "quantifier": "all lives of an account from empty storage, all failures and crash points", "why_tests_cant": "unbounded histories and crash points", "anchors": ["omemo/session_manager.py:SessionManager.create"]}
{"id": "C71", "title": "Problems of single devices do not abort encryption", "statement": "encrypt does not raise BundleDownloadFailed, BundleNotFound or KeyExchangeFailed because the bundle of a recipient device cannot be downloaded or found, or because a session with it cannot be built: if these exceptions occur only there (and the trust decision does not raise them itself), encrypt does not raise them.", "quantifier": "all arguments, environments, failures and interleavings of answers", "why_tests_cant": "all combinations of device problems", "anchors": ["omemo/session_manager.py:SessionManager.encrypt"]}
{"id": "C72", "title": "Only loaded backends are used", "statement": "Every method of a backend that a public method calls is called of a backend that was among the loaded backends when this call looked.", "quantifier": "all methods, arguments, environments and failures; trust decisions that keep to this", "why_tests_cant": "all environments", "anchors": ["omemo/session_manager.py:SessionManager.encrypt", "omemo/session_manager.py:SessionManager.decrypt", "omemo/session_manager.py:SessionManager.purge_backend", "omemo/session_manager.py:SessionManager.create"]}
{"id": "C73", "title": "Uploads of the device list keep the entries of other devices", "statement": "Every device list the library uploads is one that was downloaded for this backend during the same call, or the one passed to update_device_list, in which at most the entry of the own device was added, removed or given another label: the entries of all other devices are there with the same labels, and none are added.", "quantifier": "all methods, arguments, environments and failures; trust decisions that keep to this", "why_tests_cant": "all environments, device lists of any size", "anchors": ["omemo/session_manager.py:SessionManager.create", "omemo/session_manager.py:SessionManager.update_device_list", "omemo/session_manager.py:SessionManager.set_own_label", "omemo/session_manager.py:SessionManager.purge_backend"]}
{"id": "C74", "title": "Only own bundles are published and deleted", "statement": "Every bundle the library uploads was obtained from a backend for the own JID and device during the same call, and bundles are deleted from the server only for the own device.", "quantifier": "all methods, arguments, environments and failures; trust decisions that keep to this", "why_tests_cant": "all environments", "anchors": ["omemo/session_manager.py:SessionManager._upload_bundle", "omemo/session_manager.py:SessionManager.purge_backend"]}
{"id": "C75", "title": "The library itself sends only empty messages", "statement": "Every message the library sends on its own has the own JID and device as the sender, empty content made by the backend during the same call, key material for exactly one device, and goes to the JID of the session this key material was encrypted with.", "quantifier": "all methods, arguments, environments and failures; trust decisions that keep to this", "why_tests_cant": "all environments", "anchors": ["omemo/session_manager.py:SessionManager.decrypt", "omemo/session_manager.py:SessionManager.after_history_sync", "omemo/session_manager.py:SessionManager.replace_sessions"]}
{"id": "C76", "title": "Converting the identity key pair keeps the identity", "statement": "as_priv returns a private key representation with the same public identity key, namely the private key of the seed, and returns a private key representation unchanged.", "quantifier": "all key pairs, any coherent XEdDSA implementation", "why_tests_cant": "infinitely many keys", "anchors": ["omemo/identity_key_pair.py:IdentityKeyPair.as_priv"]}
{"id": "C77", "title": "No state of a session is used for two messages that leave the device", "statement": "If backends keep sessions as they were stored and every use takes a session to a state it was not used in before, then the library never encrypts key material with a session in a state it already used for key material that left the device, be it in a message it sent itself or in one returned by encrypt, whatever calls, failures and deaths of the process happen in between.", "quantifier": "all sequences of calls, one after the other, each ending anywhere; all failures", "why_tests_cant": "unbounded histories and crash points", "anchors": ["omemo/session_manager.py:SessionManager.encrypt", "omemo/session_manager.py:SessionManager.decrypt", "omemo/session_manager.py:SessionManager.replace_sessions", "omemo/session_manager.py:SessionManager.after_history_sync", "omemo/session_manager.py:SessionManager.__send_empty_message"]}
{"id": "C78", "title": "Encryption with blind trust before verification never leaves devices undecided", "statement": "With the session manager of the BTBV example and an application whose prompt decides about the devices it is given and that does not withdraw decisions, encrypt never raises StillUndecided, and key material is only made for devices that were trusted by hand or blindly.", "quantifier": "all applications with this behaviour, all arguments, stored data and failures", "why_tests_cant": "all applications and stored trust levels", "anchors": ["examples/btbv_session_manager.py:BTBVSessionManager._make_trust_decision", "examples/btbv_session_manager.py:BTBVSessionManager._evaluate_custom_trust_level", "omemo/session_manager.py:SessionManager.encrypt"]}
{"id": "C79", "title": "What the recipient reads is what was written", "statement": "If a device decrypts a message that encrypt returned on another device, and the cryptography of the backends fits together, it gets the plaintext that was passed to encrypt for the backend of the message and the key material encrypt returned, it identifies the sender as the device that encrypted, and the sender had evaluated the recipient as trusted before encrypting key material for it. Every device that was served finds exactly its own key material in the message.", "quantifier": "all pairs of devices, arguments, recipients, environments and failures; backends whose decryption inverts encryption if it succeeds", "why_tests_cant": "all recipients, plaintexts and environments on both sides", "anchors": ["omemo/session_manager.py:SessionManager.encrypt", "omemo/session_manager.py:SessionManager.decrypt"]}
{"id": "C80", "title": "What a call leaves alone in storage", "statement": "Every public method stores only to, and deletes only from, the places it is concerned with, which are listed for each method; everything else in storage is the same before and after the call, however it ends. In particular the data about devices and trust of JIDs the call is not about are left alone, only purge_bare_jid and after_history_sync delete anything, trust levels are stored by set_trust and the first create only, and the identity key pair and the own device id by create only.", "quantifier": "all methods, arguments, environments, failures and deaths of the process; places changed by the application's trust decision excepted", "why_tests_cant": "all stored data and all executions", "anchors": ["omemo/session_manager.py:SessionManager.create", "omemo/session_manager.py:SessionManager.encrypt", "omemo/session_manager.py:SessionManager.decrypt", "omemo/session_manager.py:SessionManager.purge_bare_jid", "omemo/session_manager.py:SessionManager.update_device_list", "omemo/session_manager.py:SessionManager.after_history_sync"]}
{"id": "C81", "title": "Device lists are fetched only for unknown senders, and once", "statement": "decrypt downloads at most one device list, that of the sender of the message for the backend of the message, and only if the sending device was not found in storage: it was not on a stored device list, or its identity key was neither stored nor obtainable. SenderNotFound is raised only after such a download succeeded and the device was still not found.", "quantifier": "all messages, environments, failures and deaths of the process", "why_tests_cant": "all environments", "anchors": ["omemo/session_manager.py:SessionManager.decrypt", "omemo/session_manager.py:SessionManager.refresh_device_list"]}
{"id": "C82", "title": "No bundle is downloaded twice, or without need", "statement": "get_device_information downloads the bundle of a device only if the identity key of the device is not stored, and stops at the first bundle obtained. encrypt downloads a bundle only if it did not obtain this bundle before during the call, and only to learn a missing identity key or because the backend has no session with the device; in particular the bundle a key was learned from is the one the session is built from, and a bundle with a key other than the one evaluated as trusted is used only if no bundle of this device and backend had been obtained before.", "quantifier": "all arguments, stored data, environments, failures and deaths of the process; bundles labelled with the device they were asked for; trust decisions that download no bundles", "why_tests_cant": "all combinations of stored data, sessions and failures", "anchors": ["omemo/session_manager.py:SessionManager.get_device_information", "omemo/session_manager.py:SessionManager.encrypt"]}
{"id": "C83", "title": "Messages get through", "statement": "Over the whole life of an account: if nothing the library calls fails, every recipient has a device that is known, active for one of the requested backends and trusted, and nothing stays undecided, then encrypt succeeds without errors and every trusted device finds one key in one message. If nothing the library calls fails, the message is for this device, its sender is known or in the device list on the server, is not distrusted, and has a session or sent a key exchange made with its identity key, then decrypt succeeds. Together, the recipient gets the plaintext that was passed to encrypt.", "quantifier": "all lives of an account in which purges of other JIDs that were begun were completed and the own JID was not purged; all recipients, devices, arguments and stored data", "why_tests_cant": "unbounded histories; a spurious failure shows only for particular stored data", "anchors": ["omemo/session_manager.py:SessionManager.encrypt", "omemo/session_manager.py:SessionManager.decrypt", "omemo/session_manager.py:SessionManager.get_device_information", "omemo/session_manager.py:SessionManager.refresh_device_list"]}
{"id": "C84", "title": "Calls about different things do not interfere", "statement": "Calls that run at the same time and work with different places in storage have no effect on each other: with the same answers from backends, server and application, every other interleaving, in particular one after the other in any order, is possible as well, gives every call the same result and leaves storage in the same state; each of them could have run alone, and leaves its places as it would have alone. Decryption of messages, device list updates, trust, device information, session replacement and removal of different accounts are such calls outside history synchronization.", "quantifier": "any number of calls, all arguments, all interleavings, failures and deaths of the process; calls other than create, purge_backend, before_history_sync and after_history_sync; trust decisions that stay with the accounts they are asked about", "why_tests_cant": "the number of interleavings is exponential", "anchors": ["omemo/session_manager.py:SessionManager.decrypt", "omemo/session_manager.py:SessionManager.update_device_list", "omemo/session_manager.py:SessionManager.encrypt", "omemo/session_manager.py:SessionManager.set_trust"]}
{"id": "C85", "title": "Replies put off during history synchronization are sent when it ends", "statement": "If decrypt succeeds in synchronization mode and an empty message is due, the message is queued when decrypt returns; it stays queued whatever else is called; and when after_history_sync has succeeded with the backend loaded, the message has been encrypted with the stored session and sent, unless there is no session any more, and is not queued any more.", "quantifier": "all messages, all sequences of other calls in between, each ending anywhere; trust decisions that do not touch the queues", "why_tests_cant": "unbounded histories", "anchors": ["omemo/session_manager.py:SessionManager.decrypt", "omemo/session_manager.py:SessionManager.after_history_sync", "omemo/session_manager.py:SessionManager.before_history_sync"]}
{"id": "C86", "title": "Overlapping calls lose no replies put off during history synchronization", "statement": "While calls overlap in synchronization mode, every empty message that falls due in a successful decrypt is queued in the end, and nothing that was queued is lost.", "quantifier": "any number of overlapping calls, all interleavings, failures and deaths of the process; trust decisions that stay with the accounts they are asked about", "why_tests_cant": "the number of interleavings is exponential", "anchors": ["omemo/session_manager.py:SessionManager.decrypt", "omemo/session_manager.py:SessionManager.after_history_sync"]}
{"id": "C87", "title": "Overlapping calls do not use the same session state for two messages", "statement": "While calls of the API overlap, no two messages that leave the device (returned by encrypt, or sent by decrypt, replace_sessions or after_history_sync) carry key material encrypted with the same state of a session.", "quantifier": "any number of overlapping calls after any history of calls, all interleavings, all interface implementations that return the session stored last and a new state for each message; devices, namespaces and accounts unbounded", "why_tests_cant": "the number of interleavings is exponential, and what matters is every pair of messages", "anchors": ["omemo/session_manager.py:SessionManager.encrypt", "omemo/session_manager.py:SessionManager.decrypt", "omemo/session_manager.py:SessionManager.replace_sessions", "omemo/session_manager.py:SessionManager.after_history_sync"]}
{"id": "C88", "title": "Calls work with their arguments as they were passed", "statement": "A call that is passed a list, set or dictionary (update_device_list, create, encrypt), or is returned a dictionary by _download_device_list, has the effects and the result it has for the contents of these objects when they were passed or returned, whatever other code does to the objects while the call waits.", "quantifier": "all calls, all contents, all changes other code makes to these objects at any await, all interface implementations, all interleavings with other code", "why_tests_cant": "changes between any two awaits of a call by code outside of the library cannot be enumerated by tests", "anchors": ["omemo/session_manager.py:SessionManager.update_device_list", "omemo/session_manager.py:SessionManager.create", "omemo/session_manager.py:SessionManager.encrypt", "omemo/session_manager.py:SessionManager.set_own_label", "omemo/session_manager.py:SessionManager.purge_backend"]}
{"id": "C89", "title": "Collections of the application are not modified", "statement": "No call modifies a list, set or dictionary it did not make itself: neither its arguments nor what _download_device_list returns.", "quantifier": "all calls, all executions, also those that end by an exception or the death of the process", "why_tests_cant": "a test observes only the objects it has thought of, along a few paths", "anchors": ["omemo/session_manager.py:SessionManager.update_device_list", "omemo/session_manager.py:SessionManager.create", "omemo/session_manager.py:SessionManager.encrypt", "omemo/session_manager.py:SessionManager.set_own_label", "omemo/session_manager.py:SessionManager.purge_backend"]}
{"id": "C90", "title": "Whoever finds a device on a device list finds its bundle", "statement": "If the devices of an account use the library one after the other, each call ending in any way, then at every moment there is a bundle on the server for each device on each device list of the account (given that the devices have different ids, and that this held for the devices of other clients at the beginning).", "quantifier": "any number of devices, any sequence of calls, each interrupted anywhere or failing in any way, any backends, all random numbers, all initial contents of the server that are in order", "why_tests_cant": "the sequences of calls on several devices with interruptions at any interaction are infinitely many; tests run one device on a mocked server", "anchors": ["omemo/session_manager.py:SessionManager.create", "omemo/session_manager.py:SessionManager.purge_backend", "omemo/session_manager.py:SessionManager.update_device_list", "omemo/session_manager.py:SessionManager.refresh_device_list", "omemo/session_manager.py:SessionManager.set_own_label", "omemo/session_manager.py:SessionManager._upload_bundle"]}
{"id": "C91", "title": "Starting again with the same backends changes and publishes nothing", "statement": "After a successful create, and any further calls that do not purge a backend or the own JID (each ending in any way, further create calls having the same backends in any order), creating a manager again with these backends only reads from the storage and looks up the identity keys of other devices of the account: nothing is uploaded or deleted, no keys are generated, no message is sent, no data about the own device is written. It returns the same device id, and the own device stays stored as supporting exactly these backends.", "quantifier": "any sequence of calls before, each interrupted anywhere or failing in any way, any device lists and messages received, any backends in any order, creation itself interrupted or failing anywhere", "why_tests_cant": "that nothing happens has to hold for all histories, including those with interruptions; tests start a manager once, on fresh storage", "anchors": ["omemo/session_manager.py:SessionManager.create", "omemo/session_manager.py:SessionManager.__get_device_information", "omemo/session_manager.py:SessionManager.update_device_list", "omemo/identity_key_pair.py:IdentityKeyPair.get"]}
{"id": "C92", "title": "No listed device is passed over without a reason", "statement": "After a device list was merged (update_device_list, refresh_device_list), and any further calls that do not purge the JID, as long as no list without the device is passed or downloaded for this backend: when encrypt returns, for a message that has the JID among its recipients and may use the backend, each device of the list other than the sending one is accounted for. Either it is trusted and has exactly one key in exactly one message, or is reported as exactly one error; or the last evaluation of its trust said something else; or its identity key is not stored and its bundle could not be downloaded for any of its backends. In the last two cases it has no key and no error.", "quantifier": "all stored states, device lists, histories in between with calls ending in any way, messages, environments, trust decisions that use the API", "why_tests_cant": "unbounded histories; a device that silently stops getting messages does not make any test fail", "anchors": ["omemo/session_manager.py:SessionManager.update_device_list", "omemo/session_manager.py:SessionManager.refresh_device_list", "omemo/session_manager.py:SessionManager.encrypt", "omemo/session_manager.py:SessionManager.get_device_information", "omemo/session_manager.py:SessionManager.decrypt"]}
{"id": "C93", "title": "If trust decisions decide, encrypt never fails with StillUndecided", "statement": "If _make_trust_decision does what is documented (the level of new devices is an undecided one, the devices passed have a decision afterwards, decisions are not withdrawn, StillUndecided is not raised by it or by any other method of the application), then encrypt never raises StillUndecided: levels are looked up again after the decision, for all devices.", "quantifier": "all applications of that kind, all messages, recipients, stored levels and device data, environments that fail anywhere", "why_tests_cant": "quantifies over implementations of an abstract method", "anchors": ["omemo/session_manager.py:SessionManager.encrypt", "omemo/session_manager.py:SessionManager._make_trust_decision"]}
{"id": "C94", "title": "The trust of the reference implementation meets all assumptions", "statement": "The implementation of _make_trust_decision and _evaluate_custom_trust_level that comes with the tests meets every assumption about trust decisions that any property here makes: it decides, withdraws nothing, uses only the API, touches only the levels of the devices it was given. Exactly these get the level TRUSTED, and nothing else is written. With it, encrypt never raises StillUndecided, hands out key material only for devices of level TRUSTED, and passes a listed device over only if it has the level DISTRUSTED or its identity key could not be found out.", "quantifier": "all sets of devices in any iteration order, all stored states, messages, recipients, failures anywhere", "why_tests_cant": "for all stored levels and device lists; assumptions of other theorems are shown to be met by existing code", "anchors": ["tests/session_manager_impl.py:SessionManagerImpl._make_trust_decision", "tests/session_manager_impl.py:SessionManagerImpl._evaluate_custom_trust_level", "omemo/session_manager.py:SessionManager.encrypt"]}
{"id": "C95", "title": "Accounts that share a server leave each other alone", "statement": "With the servers of the reference implementation: whatever a manager is called for, and however the call ends, device lists of other accounts and bundles of other accounts and other devices stay as they are, and messages are only appended, in the name of the own device. For the own account, these servers answer as assumed for C90.", "quantifier": "all calls, states of the servers, environments; calls failing or interrupted anywhere", "why_tests_cant": "that all other entries of the dictionaries are unchanged, for all contents, cannot be sampled", "anchors": ["tests/session_manager_impl.py:SessionManagerImpl._upload_bundle", "tests/session_manager_impl.py:SessionManagerImpl._delete_bundle", "tests/session_manager_impl.py:SessionManagerImpl._upload_device_list", "tests/session_manager_impl.py:SessionManagerImpl._send_message", "tests/session_manager_impl.py:SessionManagerImpl._download_bundle", "tests/session_manager_impl.py:SessionManagerImpl._download_device_list"]}
{"id": "C96", "title": "The servers of the reference implementation answer as documented", "statement": "Over any sequence of interactions, downloading a bundle or a device list gives exactly what was uploaded last and not deleted since, an empty list if none was uploaded, and BundleNotFound for a bundle that does not exist; uploading and sending succeed; deleting a bundle succeeds whether or not it exists.", "quantifier": "all sequences of interactions of an account", "why_tests_cant": "unbounded sequences", "anchors": ["tests/session_manager_impl.py:SessionManagerImpl._upload_bundle", "tests/session_manager_impl.py:SessionManagerImpl._download_bundle", "tests/session_manager_impl.py:SessionManagerImpl._delete_bundle", "tests/session_manager_impl.py:SessionManagerImpl._upload_device_list", "tests/session_manager_impl.py:SessionManagerImpl._download_device_list", "omemo/session_manager.py:SessionManager.purge_backend"]}
{"id": "C97", "title": "On the in-memory storage, the library runs as on a map that never fails", "statement": "Any program of the library, run on InMemoryStorage and the cache it enables, behaves like the same program on a plain map from keys to values whose operations never fail: same interactions with the rest, same result, same stored values, also if it is interrupted. Every call of a Storage returns, with the value stored last.", "quantifier": "all programs, keys, values, initial contents, interruptions", "why_tests_cant": "refinement for all programs", "anchors": ["tests/in_memory_storage.py:InMemoryStorage._load", "tests/in_memory_storage.py:InMemoryStorage._store", "tests/in_memory_storage.py:InMemoryStorage._delete", "omemo/storage.py:Storage.load", "omemo/storage.py:Storage.store", "omemo/storage.py:Storage.delete"]}
{"id": "C98", "title": "Trust is evaluated on current trust levels", "statement": "Whenever encrypt or decrypt evaluates the trust in a device, the custom trust level evaluated is the one stored for the bare JID and identity key of the device at that moment, or the initial undecided level if none is stored. This holds in all rounds of encrypt, also after _make_trust_decision has changed levels, and however the call ends. The device information returned by decrypt has the level that is stored when it returns.", "quantifier": "all managers, messages, recipients, stored data, trust decisions that change any levels, calls failing or interrupted anywhere", "why_tests_cant": "for all stored data and all decisions; a stale level is only visible if it was changed in between", "anchors": ["omemo/session_manager.py:SessionManager.encrypt", "omemo/session_manager.py:SessionManager.decrypt", "omemo/session_manager.py:SessionManager.get_device_information", "omemo/session_manager.py:SessionManager._make_trust_decision"]}
{"id": "C99", "title": "Two strangers can talk", "statement": "Let the application of a sending device decide about every undecided device and distrust nobody by itself. Then encrypt, called for recipients that each have a device which can be addressed and which no stored trust level refuses, returns messages and no errors unless something it calls fails or the process dies, and each such device gets exactly one key in exactly one message, whether or not it was known or decided about before. A receiving device that gets this message decrypts it to the given plaintext, also if it has never heard of the sender, as long as the sending device is in its device list, its published or stored identity key is the one its key exchange was made with, and no stored level refuses it. For a first message the receiver needs no session. The reference implementation of the session manager meets the conditions on the application.", "quantifier": "all accounts, histories of both accounts, recipients, stored data, set orders, answers of backends and servers without failures", "why_tests_cant": "for all histories of two accounts together; an end-to-end test covers one pair of histories", "anchors": ["omemo/session_manager.py:SessionManager.encrypt", "omemo/session_manager.py:SessionManager.decrypt", "omemo/session_manager.py:SessionManager.get_device_information", "omemo/session_manager.py:SessionManager.refresh_device_list", "omemo/session_manager.py:SessionManager._make_trust_decision"]}
{"id": "C100", "title": "Backends are handed only their own objects", "statement": "In every call, the objects handed to a backend or put into a message came from where they have to come from, during the same call. A session that is stored, used or whose pre key is hidden or deleted was loaded from or built by the same backend, and when decrypting it belongs to the sender of the message. Key material to be encrypted for a device came from the same backend together with the content of the message. A bundle used to build a session was downloaded for this namespace and device, or names them. What is decrypted is what the received message carries for the own device, and its content is decrypted with the key material recovered from that and not with any other. A message that is sent or returned has a content, keys and key exchanges made by the backend of its namespace, each key from the key material that belongs to the content, each key exchange from the session its key was encrypted with.", "quantifier": "all calls, parameters, executions, answers of all kinds, points of failure, trust decisions that keep to it", "why_tests_cant": "for all mixes of backends, devices and sessions in one call; mocks return interchangeable objects, so a swap goes unnoticed", "anchors": ["omemo/session_manager.py:SessionManager.encrypt", "omemo/session_manager.py:SessionManager.decrypt", "omemo/session_manager.py:SessionManager.replace_sessions", "omemo/session_manager.py:SessionManager.after_history_sync", "omemo/session_manager.py:SessionManager.__send_empty_message"]}
{"id": "C101", "title": "Automatic replies do not chase each other", "statement": "A message that decrypt sends by itself carries no key exchange, and was due: the decrypted message carried a key exchange or was the 54th or a later one of its chain. Such a reply is therefore answered by the other device, at once or after history synchronization, only if it is itself the 54th or a later message of its chain. Of several replies in a row, each is at least 53 positions earlier in its chain than the one it answers, provided that messages arrive in order and the sessions are used for nothing but such replies in between, so that every row of replies ends: n+1 replies in a row need a first one at position 53n+1 or later.", "quantifier": "all pairs of devices and managers, messages, states, answers, points of failure, lengths of rows; sessions that are confirmed by receiving, and chains as in the Double Ratchet", "why_tests_cant": "an endless exchange of empty messages between two clients shows only in unbounded runs of both", "anchors": ["omemo/session_manager.py:SessionManager.decrypt", "omemo/session_manager.py:SessionManager.__send_empty_message", "omemo/session.py:Session.receiving_chain_length"]}
{"id": "C102", "title": "The two ends of a conversation have a session in common", "statement": "Two devices that do nothing but encrypt messages for each other and decrypt what the other made, in any order and with any loss, delay and repetition, and that call anything else but replace_sessions, decrypt key material with a session that was built by the same key exchange as the session it was encrypted with.", "quantifier": "all pairs of managers, all sequences of calls on both sides with all answers and points of failure, all deliveries", "why_tests_cant": "needs all interleavings of two lives; with both sides sending first, tests pass as long as nobody sends a second message", "anchors": ["omemo/session_manager.py:SessionManager.decrypt", "omemo/session_manager.py:SessionManager.encrypt", "omemo/session_manager.py:SessionManager.replace_sessions"]}
{"id": "C103", "title": "Each pre key builds one session", "statement": "Once a session built from a received key exchange is stored, no later key exchange with the same pre key builds a session of this backend, except while the pre key is hidden during history synchronization, and bundles uploaded from then on do not contain the pre key.", "quantifier": "all sequences of calls of one device with all answers of backends that refuse deleted pre keys and leave given up ones out of bundles, all points of failure", "why_tests_cant": "needs all points at which a process can die, and what earlier calls left behind; reusing a pre key is silent", "anchors": ["omemo/session_manager.py:SessionManager.decrypt", "omemo/session_manager.py:SessionManager.after_history_sync", "omemo/backend.py:Backend.hide_pre_key", "omemo/backend.py:Backend.delete_pre_key"]}
{"id": "C104", "title": "Overlapping calls keep up the stock of pre keys", "statement": "If the number of visible pre keys of a loaded backend is above the refill threshold and at most 100, it still is when any number of overlapping calls have ended; while they run, no more than one pre key per running call is missing.", "quantifier": "all sets of overlapping calls, all interleavings, all points in between, all answers of backends that count correctly", "why_tests_cant": "interleavings of any number of calls; depends on when each call counts the pre keys relative to the others", "anchors": ["omemo/session_manager.py:SessionManager.decrypt", "omemo/backend.py:Backend.get_num_visible_pre_keys", "omemo/backend.py:Backend.generate_pre_keys"]}
{"id": "C105", "title": "Overlapping calls leave the current bundle published", "statement": "When overlapping calls and rounds of the rotation task are done, the bundle of a backend published last was obtained after all changes they made to its pre keys and its signed pre key.", "quantifier": "all sets of overlapping calls and rounds of the rotation task, all interleavings, all answers", "why_tests_cant": "interleavings of a background task with calls; an outdated bundle only shows when somebody uses a pre key that no longer exists", "anchors": ["omemo/session_manager.py:SessionManager.decrypt", "omemo/session_manager.py:SessionManager.__manage_signed_pre_key_rotation", "omemo/backend.py:Backend.get_bundle", "omemo/session_manager.py:SessionManager._upload_bundle"]}
{"id": "C106", "title": "Overlapping calls on a storage behave as on a map", "statement": "Calls that overlap on a Storage, whose load, store and delete consist of several steps because of the cache, return, raise and interact as they could on a plain key-value map; the same data is stored in the end, and later calls as well as a restart find it.", "quantifier": "all programs of the library, any number of them overlapping, all interleavings of the steps within Storage, all failures", "why_tests_cant": "interleavings within Storage.load and Storage.store; the effect, e.g. a distrusted key that stays trusted until the next restart, shows only in later calls", "anchors": ["omemo/storage.py:Storage.load", "omemo/storage.py:Storage.store", "omemo/storage.py:Storage.delete", "omemo/session_manager.py:SessionManager.set_trust", "omemo/session_manager.py:SessionManager.encrypt"]}
{"id": "C107", "title": "Hidden pre keys do not outlive history synchronization", "statement": "Once after_history_sync has returned and the calls that overlapped with it are over, loaded backends have no hidden pre keys left, and none are hidden until synchronization is started again.", "quantifier": "all calls, before, at the same time and after, overlapping and ending in any way", "why_tests_cant": "needs a message that arrives while the synchronization ends; what remains is a pre key that builds a second session much later", "anchors": ["omemo/session_manager.py:SessionManager.before_history_sync", "omemo/session_manager.py:SessionManager.after_history_sync", "omemo/session_manager.py:SessionManager.decrypt"]}
{"id": "C108", "title": "The library sends no more messages of its own than it has received", "statement": "Starting with no replies put off, the number of messages that are sent without the application asking for it by replace_sessions, failed attempts included, is at most the number of messages handed to decrypt.", "quantifier": "all calls, any number of them, overlapping and ending in any way", "why_tests_cant": "a bound over whole histories; sending twice takes a message that arrives while a synchronization ends, and a second synchronization", "anchors": ["omemo/session_manager.py:SessionManager.decrypt", "omemo/session_manager.py:SessionManager.after_history_sync", "omemo/session_manager.py:SessionManager.__send_empty_message"]}
{"id": "C109", "title": "Plaintexts pass between the application and the backends only", "statement": "What encrypt does and returns does not depend on the plaintexts, apart from the plaintext handed to encrypt_plaintext of a backend; what decrypt does does not depend on the plaintext given by decrypt_plaintext, which is only returned. No other call handles plaintexts. The debug log is not considered: plaintexts and key material are written to it.", "quantifier": "all pairs of plaintexts, all inputs and all answers of storage, network, backends and callbacks, however the call ends", "why_tests_cant": "compares two executions for each pair of plaintexts and each behaviour of the environment", "anchors": ["omemo/session_manager.py:SessionManager.encrypt", "omemo/session_manager.py:SessionManager.decrypt"]}
{"id": "C110", "title": "Failures are passed on at once, or tolerated", "statement": "When something a method calls fails, nothing else happens before the method raises the same exception; except for the failures it has to get over, which it does not raise: bundles that cannot be downloaded anywhere, sessions that cannot be built in encrypt, omemo exceptions while a session is replaced in replace_sessions, bundles that cannot be uploaded by the rotation task.", "quantifier": "all methods, arguments and answers of storage, network and backends, with failures anywhere", "why_tests_cant": "every possible failure of every interaction of every method", "anchors": ["omemo/session_manager.py:SessionManager.ensure_data_consistency", "omemo/session_manager.py:SessionManager.encrypt", "omemo/session_manager.py:SessionManager.replace_sessions", "omemo/session_manager.py:SessionManager.decrypt", "omemo/session_manager.py:SessionManager.create"]}
{"id": "C111", "title": "The secret part of the identity key goes to the storage only", "statement": "If the secret part of the identity key, wherever it is loaded or drawn, were another one with the same public key, exactly the same would happen, except that the other one is stored under its key; all calls end in the same way. Calls other than create and IdentityKeyPair.get do not touch the secret at all, and draw none.", "quantifier": "all pairs of secrets with the same public key, all calls and all answers of storage, network, backends and callbacks, however the call ends", "why_tests_cant": "compares two executions for each pair of secrets and each behaviour of the environment", "anchors": ["omemo/identity_key_pair.py:IdentityKeyPair.get", "omemo/session_manager.py:SessionManager.create"]}
{"id": "C112", "title": "No message is read twice", "statement": "When decrypt read key material from a device and returned, no later call of decrypt reads the same key material from that device again, whatever calls were made in between.", "quantifier": "all messages, all calls before, in between and after, each ending anywhere, all answers of a backend whose message keys are used once", "why_tests_cant": "quantifies over unbounded histories of calls and over all key exchanges an attacker can replay in between", "anchors": ["omemo/session_manager.py:SessionManager.decrypt", "omemo/backend.py:Backend.decrypt_key_material"]}
{"id": "C113", "title": "Replacing sessions repairs a conversation", "statement": "When replace_sessions stored a session with a device, it sent that device a message that repairs the conversation: once the device has decrypted it, and as long as no sessions are purged or replaced again, both devices use only sessions from this one key exchange for each other.", "quantifier": "all sessions either device had before, all later calls on both devices, all orders, repetitions and losses of their messages, and older messages without key exchanges", "why_tests_cant": "quantifies over unbounded histories on two devices and all orders in which the messages between them arrive", "anchors": ["omemo/session_manager.py:SessionManager.replace_sessions", "omemo/session_manager.py:SessionManager.decrypt"]}
{"id": "C114", "title": "Until after_history_sync, nothing is sent and no pre key is deleted", "statement": "A session manager synchronizes history from its creation on. Until after_history_sync is called, calls other than replace_sessions send no message and delete no pre key, hidden or not.", "quantifier": "all calls in any number, overlapping in all ways and each ending anywhere; trust decisions that do neither", "why_tests_cant": "quantifies over all interleavings of unboundedly many calls", "anchors": ["omemo/session_manager.py:SessionManager.create", "omemo/session_manager.py:SessionManager.before_history_sync", "omemo/session_manager.py:SessionManager.decrypt"]}
{"id": "C115", "title": "Messages are attributed to the owner of the session", "statement": "If decrypt returns a device as the sender of a message, the session with which the message was decrypted is with the owner of the identity key returned for this device: the key exchange or the bundle from which the session was built had this identity key. The same identity key is stored for the device of every session that is used to encrypt or decrypt.", "quantifier": "all lives of an account from an empty storage, with all calls, each ending anywhere, and all answers of servers; backends that keep sessions and know with whom they are", "why_tests_cant": "quantifies over all histories of an account of any length; needs a contract for backends", "anchors": ["omemo/session_manager.py:SessionManager.decrypt", "omemo/session_manager.py:SessionManager.replace_sessions", "omemo/session_manager.py:SessionManager.purge_bare_jid", "omemo/session_manager.py:SessionManager.get_device_information"]}
{"id": "C116", "title": "Only accounts the application named are contacted", "statement": "Device lists and bundles are requested of, and messages sent to, the own account and accounts the application named only: as recipients of encrypt, as the sender of a message given to decrypt, or in refresh_device_list(s), get_device_information or replace_sessions. Nothing a server, a device list, a bundle or a message contains makes the library contact anyone else. A call that names nobody, like after_history_sync, contacts only senders of messages received earlier whose replies were put off.", "quantifier": "all lives of an account from an empty storage, with all calls, each ending anywhere, and all answers of servers; calls that overlap in any way; backends that return sessions with the device they were asked for", "why_tests_cant": "quantifies over all histories of an account of any length and all interleavings", "anchors": ["omemo/session_manager.py:SessionManager.encrypt", "omemo/session_manager.py:SessionManager.decrypt", "omemo/session_manager.py:SessionManager.after_history_sync", "omemo/session_manager.py:SessionManager.replace_sessions"]}
{"id": "C117", "title": "The work of a call is linear in what it is given and what it reads", "statement": "A call makes at most 26 interactions with storage, servers and backends, plus 3 per entry of a device list it is given, one per recipient and one per draw of a device id, plus a fixed number for each entry of the stored lists and dictionaries, device lists and backends it reads. A message that is received causes at most four requests to servers plus one for each namespace stored for a device of its sender; a device list that is received causes at most one. No loop runs longer than what was read, however messages, lists and bundles are made.", "quantifier": "all calls but the background task, all executions, all answers of servers, backends and storage, ending anywhere; no backend loaded twice; trust decisions that take a bounded number of interactions per device", "why_tests_cant": "bounds the length of every execution for inputs of every size; tests measure a few", "anchors": ["omemo/session_manager.py:SessionManager.decrypt", "omemo/session_manager.py:SessionManager.encrypt", "omemo/session_manager.py:SessionManager.update_device_list", "omemo/session_manager.py:SessionManager.create", "omemo/session_manager.py:SessionManager.after_history_sync"]}
{"id": "C118", "title": "Activity, labels and trust levels have the documented influence only", "statement": "Whether a device is active, how it is labelled and which trust level is stored for it has no influence on reading a message of a known device, on replacing its sessions, on synchronization and waiting replies, or on which devices are found: for other activity, labels and trust levels there is an execution with the same interactions and the same outcome, up to what is reported about the devices. Trust levels matter in decrypt through their evaluation only; replacing sessions and empty messages never ask for them.", "quantifier": "all other values of the activity, the labels and the trust levels of all devices, all messages, all executions, all answers, ending anywhere; decrypt without a device list being fetched", "why_tests_cant": "compares every execution with those for all other activities, labels and trust levels; tests run one", "anchors": ["omemo/session_manager.py:SessionManager.decrypt", "omemo/session_manager.py:SessionManager.replace_sessions", "omemo/session_manager.py:SessionManager.get_device_information", "omemo/session_manager.py:SessionManager.get_own_device_information", "omemo/session_manager.py:SessionManager.after_history_sync"]}
{"id": "C119", "title": "Devices are known only from device lists of their account", "statement": "Everything stored about devices was said by a source: a device of an account is stored only if a device list of that very account listed it, with a backend only if the list was of that backend, with a label only if a list had that label, with an identity key only if a bundle of that very device had it; the own device has an id that was drawn. Lists are those downloaded and those the application passed to update_device_list. Sessions are built, trust is evaluated and devices are reported only for devices heard of before.", "quantifier": "all lives of an account, with any number of managers, calls, failures and interruptions; all interleavings of calls", "why_tests_cant": "quantifies over whole lives and all answers; a mix-up of accounts, devices or backends shows in few of them", "anchors": ["omemo/session_manager.py:SessionManager.update_device_list", "omemo/session_manager.py:SessionManager.get_device_information", "omemo/session_manager.py:SessionManager.create", "omemo/session_manager.py:SessionManager.encrypt", "omemo/session_manager.py:SessionManager.decrypt", "omemo/session_manager.py:SessionManager.replace_sessions"]}
{"id": "C120", "title": "Devices taken off the device list get no more messages", "statement": "Once a device list of an account that does not contain a device was merged for a backend, encrypt gives this device no key with this backend, whatever is called meanwhile, until a list of this account for this backend that contains the device is passed to update_device_list or downloaded. The same holds for all devices of an account and all backends after purge_bare_jid. This holds across failures, interrupted calls, repeated creation of managers, purges, and data left over by interrupted updates.", "quantifier": "all device lists, devices, histories of calls in between, and all encryptions afterwards", "why_tests_cant": "stale activity information can come back through any of the calls in between, or through data left over by an interrupted one", "anchors": ["omemo/session_manager.py:SessionManager.update_device_list", "omemo/session_manager.py:SessionManager.refresh_device_list", "omemo/session_manager.py:SessionManager.encrypt", "omemo/session_manager.py:SessionManager.get_device_information"]}
{"id": "C121", "title": "Distrust takes effect in all later calls", "statement": "Once set_trust was called for the identity key a device is known under, and until set_trust is called again for this key or the JID is purged: if the application never evaluates the level that was set as TRUSTED for this device, encrypt gives the device no key with any backend; if it evaluates it as DISTRUSTED, decrypt uses no session, changes no session data and returns nothing for messages of this device. The device cannot escape this with other bundles, other device lists, other backends, or by having the library restarted.", "quantifier": "all devices, keys, levels, histories before and after, managers, server answers, and all encryptions and decryptions afterwards", "why_tests_cant": "the stored level, the pinned key, the device information and the evaluation are four places that have to agree in every history", "anchors": ["omemo/session_manager.py:SessionManager.set_trust", "omemo/session_manager.py:SessionManager.encrypt", "omemo/session_manager.py:SessionManager.decrypt", "omemo/session_manager.py:SessionManager.get_device_information", "omemo/session_manager.py:SessionManager.__get_device_information"]}
{"id": "C122", "title": "The iteration order of sets does not matter", "statement": "Python iterates over sets in an order that differs between runs. The following does not depend on this order: two calls of update_device_list with the same list from the same stored data leave the same devices, namespaces, activity and labels; two calls of purge_bare_jid from the same state end in the same state; two calls of get_device_information from the same stored data return descriptions of the same devices with the same identity keys, levels, labels, namespaces and activity; and two successful calls of encrypt for the same JIDs and priorities select the same backend for the same devices, each of which gets a key or an error for this backend. For the last two, the servers offer the same bundles in both runs, with one identity key per device, and for the last one, the application evaluates the devices alike.", "quantifier": "all pairs of iteration orders, all stored data, device lists, JIDs, priorities and pairs of executions", "why_tests_cant": "the iteration order of sets of strings depends on the hash seed of the process; a test sees one order per run", "anchors": ["omemo/session_manager.py:SessionManager.update_device_list", "omemo/session_manager.py:SessionManager.get_device_information", "omemo/session_manager.py:SessionManager.__get_device_information", "omemo/session_manager.py:SessionManager.encrypt", "omemo/session_manager.py:SessionManager.purge_bare_jid"]}
