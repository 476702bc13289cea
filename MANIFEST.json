{"claims": [
 {"property": "C01", "status": "proved", "theorems": ["Verif.C01_cache_transparent", "Verif.C01_library_on_storage"], "note": "Conditions named in the theorems, explained in DESIGN.md 4.3: KV, RawKV."},
 {"property": "C02", "status": "proved", "theorems": ["Verif.C02_load_primitive", "Verif.C02_load_optional", "Verif.C02_load_list", "Verif.C02_load_dict", "Verif.C02_load_bytes"], "note": "Conditions named in the theorems, explained in DESIGN.md 4.3: RawKV."},
 {"property": "C03", "status": "proved", "theorems": ["Verif.C03_bytes_round_trip", "Verif.C03_outcome", "Verif.C03_url_safe"], "note": "Conditions named in the theorems, explained in DESIGN.md 4.3: RawKV."},
 {"property": "C04", "status": "proved", "theorems": ["Verif.C04_keys_injective", "Verif.C04_string_storage", "Verif.C04_slash_refuted"], "note": ""},
 {"property": "C05", "status": "proved", "theorems": ["Verif.Heap.C05_isolation"], "note": ""},
 {"property": "C06", "status": "partial", "theorems": ["Verif.C06_refuted", "Verif.C06_uncached_partial", "Verif.C06_other_keys_partial"], "note": "The full claim is false of the code (C06_refuted); it holds without cache and for concurrent loads of other keys. Conditions named in the theorems, explained in DESIGN.md 4.3: RawKV."},
 {"property": "C07", "status": "proved", "theorems": ["Verif.C07_identity_stable"], "note": "Assumption on the application: its trust decision callback does not overwrite the stored key pair. Conditions named in the theorems, explained in DESIGN.md 4.3: KV."},
 {"property": "C08", "status": "proved", "theorems": ["Verif.C08_generation_crash_safe"], "note": "Conditions named in the theorems, explained in DESIGN.md 4.3: KV."},
 {"property": "C09", "status": "partial", "theorems": ["Verif.C09_refuted", "Verif.C09_concurrent_stored_partial"], "note": "The full claim is false of the code (C09_refuted); it holds once a pair is stored. Conditions named in the theorems, explained in DESIGN.md 4.3: KV."},
 {"property": "C10", "status": "partial", "theorems": ["Verif.C10_refuted", "Verif.C10_accepted_partial", "Verif.C10_sound_partial"], "note": "The full claim is false of the code because of operator precedence in backend.py:114; the exact set of accepted parameters is proved."},
 {"property": "C11", "status": "proved", "theorems": ["Verif.C11_merge"], "note": "The own device always counts as listed for the own JID, as in sm:1030-1045. Conditions named in the theorems, explained in DESIGN.md 4.3: Lib, Typed."},
 {"property": "C12", "status": "partial", "theorems": ["Verif.C12_refuted", "Verif.C12_partial", "Verif.C12_example"], "note": "The property is false of the code: when the process dies in the first create after the own device list was stored but before the own device id was, the next create stores a list that has only the newly chosen device. Proved instead: a known device stays known, with its data, if no first create of this JID follows. Conditions named in the theorems, explained in DESIGN.md 4.3: Lib, ViaApi."},
 {"property": "C13", "status": "proved", "theorems": ["Verif.C13_own_device_listed"], "note": "Conditions named in the theorems, explained in DESIGN.md 4.3: Lib, Typed."},
 {"property": "C14", "status": "proved", "theorems": ["Verif.C14_unloaded_namespace", "Verif.C14_no_effect"], "note": "Conditions named in the theorems, explained in DESIGN.md 4.3: Lib."},
 {"property": "C15", "status": "proved", "theorems": ["Verif.C15_retry"], "note": "Conditions named in the theorems, explained in DESIGN.md 4.3: Lib."},
 {"property": "C16", "status": "proved", "theorems": ["Verif.C16_idempotent"], "note": "Conditions named in the theorems, explained in DESIGN.md 4.3: Lib."},
 {"property": "C17", "status": "partial", "theorems": ["Verif.C17_refuted", "Verif.C17_known_stay_known_partial"], "note": "The claim is false of the code (sm:1042-1181 loads and later stores the device list without a lock); proved: its negation, and that no interleaving loses a device known before. Conditions named in the theorems, explained in DESIGN.md 4.3: Lib."},
 {"property": "C18", "status": "partial", "theorems": ["Verif.C18_refuted", "Verif.C18_complete_partial"], "note": "KeyError is possible when two updates for one device overlap (C18_refuted); everything else of the claim is proved for any number of interleaved calls. Conditions named in the theorems, explained in DESIGN.md 4.3: Lib."},
 {"property": "C19", "status": "proved", "theorems": ["Verif.C19", "Verif.C19_example"], "note": "Conditions named in the theorems, explained in DESIGN.md 4.3: ViaApi."},
 {"property": "C20", "status": "partial", "theorems": ["Verif.C20_refuted", "Verif.C20_stored_key_reported_partial"], "note": "False while no key is stored yet (two downloads may race); proved for keys already stored, under any interleaving. Conditions named in the theorems, explained in DESIGN.md 4.3: Lib."},
 {"property": "C21", "status": "proved", "theorems": ["Verif.C21_exact", "Verif.C21_example"], "note": "For every stored state and every outcome of the downloads. A device is missing only if its identity key is not stored and the download failed for every namespace stored for it. Conditions named in the theorems, explained in DESIGN.md 4.3: Lib."},
 {"property": "C22", "status": "partial", "theorems": ["Verif.C22_refuted", "Verif.C22_partial", "Verif.C22_example"], "note": "False of the code: UnknownNamespace, which _download_bundle raises as documented for namespaces of backends that are not loaded, leaves get_device_information (C22_refuted, in a state reached by library calls). It holds if downloads raise only BundleDownloadFailed and BundleNotFound (C22_partial)."},
 {"property": "C23", "status": "proved", "theorems": ["Verif.C23_activity", "Verif.C23_encrypt", "Verif.C23_example"], "note": "For arbitrary stored data. encrypt raises KeyError only if the caller passed no plaintext for one of the loaded backends. Conditions named in the theorems, explained in DESIGN.md 4.3: Lib, CallbackFair."},
 {"property": "C24", "status": "partial", "theorems": ["Verif.C24_refuted", "Verif.C24_partial", "Verif.C24_values_partial", "Verif.C24_example"], "note": "The property is false of the code: purge_bare_jid deletes the data of devices before the device list referring to them, so that after an interrupted purge get_device_information raises NothingException. Proved instead: over the whole life of an account, with any calls ending anywhere, if every purge that was begun was completed later and the own JID was never purged, no call of the API (including create and trust decisions that call back into the API) raises NothingException, TypeError or KeyError, other than KeyError for a plaintext the caller did not pass; and none raises ValueError (say, for a stored key that does not decode), other than create called with an invalid configuration. Conditions named in the theorems, explained in DESIGN.md 4.3: Lib, Polite, Typed."},
 {"property": "C25", "status": "proved", "theorems": ["Verif.C25", "Verif.C25_kept", "Verif.C25_frame", "Verif.C25_example"], "note": "Conditions named in the theorems, explained in DESIGN.md 4.3: Lib, ViaApi, LeavesTrust."},
 {"property": "C26", "status": "proved", "theorems": ["Verif.C26", "Verif.C26_example"], "note": "Conditions named in the theorems, explained in DESIGN.md 4.3: Lib, LeavesTrust."},
 {"property": "C27", "status": "proved", "theorems": ["Verif.C27_only_trusted"], "note": "Assumptions named in the theorem: the trust decision callback itself neither encrypts nor evaluates trust (CallbackQuiet), no backend is loaded twice (checked by create). Conditions named in the theorems, explained in DESIGN.md 4.3: BackendsOnce."},
 {"property": "C28", "status": "proved", "theorems": ["Verif.C28_raised", "Verif.C28_undecided_blocks"], "note": "Assumptions named in the theorem: the trust decision callback itself neither encrypts nor evaluates trust (CallbackQuiet), no backend is loaded twice (checked by create). The converse assumes that trust evaluation is a function of the device information during the call. Conditions named in the theorems, explained in DESIGN.md 4.3: BackendsOnce."},
 {"property": "C29", "status": "proved", "theorems": ["Verif.C29_bulk", "Verif.C29_example"], "note": "Calls of the callback are observed by exchanging the callback: any other callback that returns leads to the same remaining interactions."},
 {"property": "C30", "status": "proved", "theorems": ["Verif.C30_only_recipients"], "note": "Assumptions named in the theorem: the trust decision callback itself neither encrypts nor evaluates trust (CallbackQuiet), no backend is loaded twice (checked by create). Conditions named in the theorems, explained in DESIGN.md 4.3: BackendsOnce."},
 {"property": "C31", "status": "proved", "theorems": ["Verif.C31_priority"], "note": "Assumptions named in the theorem: the trust decision callback itself neither encrypts nor evaluates trust (CallbackQuiet), no backend is loaded twice (checked by create). Conditions named in the theorems, explained in DESIGN.md 4.3: BackendsOnce."},
 {"property": "C32", "status": "proved", "theorems": ["Verif.C32_served_or_reported"], "note": "Assumptions named in the theorem: the trust decision callback itself neither encrypts nor evaluates trust (CallbackQuiet), no backend is loaded twice (checked by create). Backends answer with sessions and keys for the device asked for (Addressed), the set of loaded backends does not change during the call (BackendsStay). Conditions named in the theorems, explained in DESIGN.md 4.3: BackendsOnce."},
 {"property": "C33", "status": "proved", "theorems": ["Verif.C33_missing", "Verif.C33_reached"], "note": "Assumptions named in the theorem: the trust decision callback itself neither encrypts nor evaluates trust (CallbackQuiet), no backend is loaded twice (checked by create). As for C32. Conditions named in the theorems, explained in DESIGN.md 4.3: BackendsOnce, BackendsStay, Addressed."},
 {"property": "C34", "status": "proved", "theorems": ["Verif.C34_stored_last", "Verif.C34_all_stored"], "note": "Assumptions named in the theorem: the trust decision callback itself neither encrypts nor evaluates trust (CallbackQuiet), no backend is loaded twice (checked by create). Counting keys uses Addressed. Conditions named in the theorems, explained in DESIGN.md 4.3: BackendsOnce."},
 {"property": "C35", "status": "proved", "theorems": ["Verif.C35_encrypt", "Verif.C35_sent"], "note": "Assumptions named in the theorem: the trust decision callback itself neither encrypts nor evaluates trust (CallbackQuiet), no backend is loaded twice (checked by create). For replace_sessions: sessions built actively are active and unconfirmed (contract of build_session_active). Conditions named in the theorems, explained in DESIGN.md 4.3: BuiltActive."},
 {"property": "C36", "status": "partial", "theorems": ["Verif.C36_refuted", "Verif.C36_evaluated_key_partial"], "note": "False of the code: the bundle downloaded in encrypt is not compared with the trusted identity key (C36_refuted); what holds is proved. Conditions named in the theorems, explained in DESIGN.md 4.3: CallbackQuiet, BackendsOnce."},
 {"property": "C37", "status": "proved", "theorems": ["Verif.C37_unknown_priority"], "note": ""},
 {"property": "C38", "status": "proved", "theorems": ["Verif.C38_gated", "Verif.C38_result", "Verif.C38_rejected", "Verif.C38_distrusted"], "note": "Over all traces of decrypt."},
 {"property": "C39", "status": "proved", "theorems": ["Verif.C39_matching", "Verif.C39_rejected"], "note": "Over all traces of decrypt."},
 {"property": "C40", "status": "proved", "theorems": ["Verif.C40_first", "Verif.C40_failed", "Verif.C40_stored"], "note": "Over all traces of decrypt, interrupted ones included."},
 {"property": "C41", "status": "proved", "theorems": ["Verif.C41_used", "Verif.C41_built", "Verif.C41_noSession", "Verif.C41_once"], "note": "Over all traces of decrypt; the stored session is the one the backend returned to the load of this call."},
 {"property": "C42", "status": "proved", "theorems": ["Verif.C42_givesUp", "Verif.C42_untouched"], "note": "Over all traces of decrypt."},
 {"property": "C43", "status": "proved", "theorems": ["Verif.C43", "Verif.C43_requested", "Verif.C43_example"], "note": "For every account life without deaths of the process and failed creations, in which counting/generating/hiding/deleting pre keys does not fail: after each call every loaded backend has more visible pre keys than the least refill threshold used so far, at least 26 and at most 100. Numbers requested are positive in all lives, crashes and failures included. Managers created later with a higher threshold do not refill until the next pre key is used up, so the bound is the least threshold. Trust decisions use backends through the library only (HandsOff). Conditions named in the theorems, explained in DESIGN.md 4.3: Counted, Steady."},
 {"property": "C44", "status": "proved", "theorems": ["Verif.C44_published"], "note": "Over all traces of decrypt."},
 {"property": "C45", "status": "proved", "theorems": ["Verif.C45_reply"], "note": "Over all traces of decrypt."},
 {"property": "C46", "status": "proved", "theorems": ["Verif.C46_plaintext"], "note": "Over all traces of decrypt."},
 {"property": "C47", "status": "partial", "theorems": ["Verif.C47_refuted", "Verif.C47_partial", "Verif.C47_cause_partial"], "note": "False of the code: a failing automatic reply replaces the plaintext by an exception (C47_refuted). It holds when no key exchange is present and no reply is due (C47_partial), and any exception after storing the session stems from a later interaction (C47_cause_partial)."},
 {"property": "C48", "status": "proved", "theorems": ["Verif.C48_queues", "Verif.C48_example"], "note": "Conditions named in the theorems, explained in DESIGN.md 4.3: Lib."},
 {"property": "C49", "status": "partial", "theorems": ["Verif.C49_refuted", "Verif.C49_partial", "Verif.C49_example"], "note": "The property is false of the code: the queue of a backend is deleted before its messages are sent, so when one cannot be sent the remaining ones of this backend are lost. Proved instead: messages of all other backends are processed or stay queued, wherever the call stops. Conditions named in the theorems, explained in DESIGN.md 4.3: Lib."},
 {"property": "C50", "status": "proved", "theorems": ["Verif.C50_decrypt", "Verif.C50_leave", "Verif.C50_example"], "note": "Conditions named in the theorems, explained in DESIGN.md 4.3: Lib."},
 {"property": "C51", "status": "proved", "theorems": ["Verif.C51_fresh", "Verif.C51_example"], "note": "Over all traces of create that store an own device id, for every choice of random numbers within the range of the generator. Conditions named in the theorems, explained in DESIGN.md 4.3: RandBelow."},
 {"property": "C52", "status": "proved", "theorems": ["Verif.C52_rejected", "Verif.C52_accepted", "Verif.C52_example"], "note": ""},
 {"property": "C53", "status": "proved", "theorems": ["Verif.C53_bundles_first", "Verif.C53_example"], "note": "Over all traces of create, under the assumption that the set of loaded backends does not change during the call. Conditions named in the theorems, explained in DESIGN.md 4.3: BackendsStay."},
 {"property": "C54", "status": "partial", "theorems": ["Verif.C54_refuted", "Verif.C54_partial", "Verif.C54_example", "Verif.C54_example_added"], "note": "The property is false of the code: the own device is stored as supporting the backends before pre keys are generated and bundles are published, so if one of these fails, repeating create does not make up for it. Proved instead: a successful create does everything for all backends if the first one did not get as far as storing the device id, and otherwise for every backend that the device was not yet stored as supporting. Conditions named in the theorems, explained in DESIGN.md 4.3: Lib."},
 {"property": "C55", "status": "partial", "theorems": ["Verif.C55_refuted", "Verif.C55_partial", "Verif.C55_example"], "note": "The property is false of the code once purge_bare_jid was called for the own JID: the own device is then met again as if it were any device, and its identity key is taken from the bundle on the server. Proved instead: it holds over the whole life of an account in which the own JID is never purged. Conditions named in the theorems, explained in DESIGN.md 4.3: Lib, ViaApi."},
 {"property": "C56", "status": "proved", "theorems": ["Verif.C56_order", "Verif.C56_effect", "Verif.C56_example"], "note": "C56_order holds for every execution, with any ending: nothing is changed before this device is off the device list, nothing follows the deletion of the bundle, and a successful run ends with it. C56_effect: the stored data and the loaded backends after a successful run. Conditions named in the theorems, explained in DESIGN.md 4.3: Lib."},
 {"property": "C57", "status": "partial", "theorems": ["Verif.C57_refuted", "Verif.C57_partial", "Verif.C57_example"], "note": "As stated it is false: trust in identity keys that are not stored for a device on the list survives (for instance trust set before the list is known), as does data of devices that are not on the list. C57_partial gives exactly the places that are emptied, shows that all others keep their value, and that every loaded backend was told once, in order, to purge the JID. Conditions named in the theorems, explained in DESIGN.md 4.3: Lib."},
 {"property": "C58", "status": "proved", "theorems": ["Verif.C58_resume", "Verif.C58_example"], "note": "For any number of interrupted attempts, wherever each of them ends. C58_example also shows what the statement does not cover: trust in the identity keys survives an interrupted and repeated purge, because the identity keys are deleted first. Conditions named in the theorems, explained in DESIGN.md 4.3: Lib."},
 {"property": "C59", "status": "partial", "theorems": ["Verif.C59_due", "Verif.C59_refuted", "Verif.C59_partial", "Verif.C59_timely", "Verif.C59_example"], "note": "C59_due (first half) is proved for any number of rounds. The second half is false: while uploads fail after the rotation of one key, the other keys are not checked, and the time lost is not taken into account (C59_refuted). C59_partial: the age is at most the period plus 60 seconds plus 60 seconds per failed upload; C59_timely: as stated, while no upload fails. Time is what the task sleeps."},
 {"property": "C60", "status": "partial", "theorems": ["Verif.C60_refuted", "Verif.C60_partial", "Verif.C60_example"], "note": "The delay is not doubled: it is reset to 60 seconds at the beginning of each attempt (sm:680). The rest is proved: after a rotation nothing is done but getting and uploading the bundle and sleeping for 60 seconds after a failure, until the upload succeeded."},
 {"property": "C61", "status": "proved", "theorems": ["Verif.C61_consistent", "Verif.C61_no_reupload", "Verif.C61_example"], "note": "Against an explicit server contract (Servers): downloads return what is on the server, uploads replace it, nobody else changes it during the call. C61_no_reupload holds with arbitrary answers."},
 {"property": "C62", "status": "proved", "theorems": ["Verif.C62_trace", "Verif.C62_label", "Verif.C62_example"], "note": "C62_trace: exactly what is downloaded and uploaded. C62_label: any later lookup of the own device reports the label. Conditions named in the theorems, explained in DESIGN.md 4.3: Lib."},
 {"property": "C63", "status": "proved", "theorems": ["Verif.C63_announced", "Verif.C63_touched", "Verif.C63_report"], "note": "Over all traces of replace_sessions; the report under the assumption that the set of loaded backends does not change during the call and no backend is loaded twice. Conditions named in the theorems, explained in DESIGN.md 4.3: BackendsOnce, BackendsStay."},
 {"property": "C64", "status": "proved", "theorems": ["Verif.C64_entries", "Verif.C64_readonly"], "note": "Over all traces."},
 {"property": "C65", "status": "proved", "theorems": ["Verif.C65_hex", "Verif.C65_groups", "Verif.C65_injective"], "note": "For every conversion function."},
 {"property": "C66", "status": "proved", "theorems": ["Verif.C66", "Verif.C66_example"], "note": "\"Every known device\" means every device on the stored device list whose identity key is stored: devices of which the identity key cannot be obtained have no trust level and are left out by the code. Conditions named in the theorems, explained in DESIGN.md 4.3: Lib."},
 {"property": "C67", "status": "partial", "theorems": ["Verif.C67_refuted", "Verif.C67_refuted_own", "Verif.C67_others_partial", "Verif.C67_own_partial", "Verif.C67_replace_partial", "Verif.C67_life_partial", "Verif.C67_life_example"], "note": "False of the code: replace_sessions of an unknown device (C67_refuted) and get_own_device_information after purging the own JID (C67_refuted_own) raise RuntimeError. It holds for the methods that look for no particular device (C67_others_partial), and for devices that are listed with known identity key (C67_own_partial, C67_replace_partial). In the life of an account whose own JID was not purged, it holds for all methods but replace_sessions (C67_life_partial). Conditions named in the theorems, explained in DESIGN.md 4.3: Lib, CallbackFair, ViaApi."},
 {"property": "C68", "status": "proved", "theorems": ["Verif.C68_key_material", "Verif.C68_messages"], "note": "Assumptions named in the theorem: the trust decision callback itself neither encrypts nor evaluates trust (CallbackQuiet), no backend is loaded twice (checked by create). Conditions named in the theorems, explained in DESIGN.md 4.3: BackendsOnce."},
 {"property": "C69", "status": "proved", "theorems": ["Verif.C69_causes"], "note": "All methods, all traces. The trust decision callback is assumed to raise only TrustDecisionFailed or what it got from its own interactions. The model cuts off loops without a bound (draws of a device id, repeated uploads and rounds of the rotation task) after a number of steps that is a parameter; that end does not exist in the code. Conditions named in the theorems, explained in DESIGN.md 4.3: CallbackFair."},
 {"property": "C70", "status": "proved", "theorems": ["Verif.C70", "Verif.C70_example"], "note": "Conditions named in the theorems, explained in DESIGN.md 4.3: ViaApi."},
 {"property": "C71", "status": "proved", "theorems": ["Verif.C71", "Verif.C71_example"], "note": "The docstring of encrypt lists KeyExchangeFailed as forwarded from the building of sessions; the code reports it in the returned errors instead."},
 {"property": "C72", "status": "proved", "theorems": ["Verif.C72", "Verif.C72_example"], "note": ""},
 {"property": "C73", "status": "proved", "theorems": ["Verif.C73", "Verif.C73_example"], "note": ""},
 {"property": "C74", "status": "proved", "theorems": ["Verif.C74", "Verif.C74_example"], "note": ""},
 {"property": "C75", "status": "proved", "theorems": ["Verif.C75", "Verif.C75_example"], "note": ""},
 {"property": "C76", "status": "proved", "theorems": ["Verif.C76", "Verif.C76_example"], "note": ""},
 {"property": "C77", "status": "partial", "theorems": ["Verif.C77_partial", "Verif.C77_refuted", "Verif.C77_example"], "note": "Full statement: C77_Claim. Proved for histories in which the process does not die, and storing does not fail, directly after a message was sent: __send_empty_message and replace_sessions send first and store the session afterwards, so that otherwise the next message uses the same state again (C77_refuted). Conditions named in the theorems, explained in DESIGN.md 4.3: Ratchets, StoresSent."},
 {"property": "C78", "status": "proved", "theorems": ["Verif.C78", "Verif.C78_keys", "Verif.C78_stored", "Verif.C78_example", "Verif.C78_stored_example"], "note": "Conditions named in the theorems, explained in DESIGN.md 4.3: Lib, CallbackQuiet, BackendsOnce."},
 {"property": "C79", "status": "proved", "theorems": ["Verif.C79_round_trip", "Verif.C79_delivered", "Verif.C79_example"], "note": "Conditions named in the theorems, explained in DESIGN.md 4.3: CallbackQuiet, BackendsOnce, BackendsStay, Addressed, Fitting."},
 {"property": "C80", "status": "proved", "theorems": ["Verif.C80", "Verif.C80_rest", "Verif.C80_others", "Verif.C80_example"], "note": "Conditions named in the theorems, explained in DESIGN.md 4.3: Lib."},
 {"property": "C81", "status": "proved", "theorems": ["Verif.C81", "Verif.C81_once", "Verif.C81_reported", "Verif.C81_example"], "note": "Conditions named in the theorems, explained in DESIGN.md 4.3: Lib."},
 {"property": "C82", "status": "proved", "theorems": ["Verif.C82", "Verif.C82_info", "Verif.C82_key", "Verif.C82_example"], "note": "Conditions named in the theorems, explained in DESIGN.md 4.3: CallbackQuiet, BackendsOnce."},
 {"property": "C83", "status": "proved", "theorems": ["Verif.C83_encrypt", "Verif.C83_decrypt", "Verif.C83_delivered", "Verif.C83_example", "Verif.C83_delivered_example"], "note": "Conditions named in the theorems, explained in DESIGN.md 4.3: Lib, CallbackQuiet, Addressed, Fitting, Typed."},
 {"property": "C84", "status": "proved", "theorems": ["Verif.C84", "Verif.C84_alone", "Verif.C84_accounts", "Verif.C84_example"], "note": "Answers of backends, server and application are the same in the reordered execution; whether backends answer independently of the order is up to them. Conditions named in the theorems, explained in DESIGN.md 4.3: Lib."},
 {"property": "C85", "status": "proved", "theorems": ["Verif.C85", "Verif.C85_queued", "Verif.C85_kept", "Verif.C85_example"], "note": "Conditions named in the theorems, explained in DESIGN.md 4.3: Lib, NoQueues."},
 {"property": "C86", "status": "partial", "theorems": ["Verif.C86_partial", "Verif.C86_refuted", "Verif.C86_example"], "note": "The code does not have the property: two overlapping calls of decrypt load the queue before either stores it, and one reply is lost (C86_refuted). Proved if messages are decrypted one after the other, overlapping with any other calls. Conditions named in the theorems, explained in DESIGN.md 4.3: Lib."},
 {"property": "C87", "status": "partial", "theorems": ["Verif.C87_partial", "Verif.C87_calls_partial", "Verif.C87_devices", "Verif.C87_refuted", "Verif.C87_example"], "note": "The code does not have the property: two overlapping calls of encrypt for the same device load the same session and encrypt with it (C87_refuted). Proved if no two overlapping calls work with sessions of the same device, and, per call, which devices it works with: decrypt with the sender, replace_sessions with its argument, encrypt with the recipients and own devices. Conditions named in the theorems, explained in DESIGN.md 4.3: Addressed, Ratchets, Apart, StoresSent, Faithful, Sessionless."},
 {"property": "C88", "status": "partial", "theorems": ["Verif.C88_partial", "Verif.C88_encrypt_partial", "Verif.C88_refuted", "Verif.C88_leak_refuted", "Verif.C88_example"], "note": "The code does not have the property: encrypt looks up plaintexts and the priority order in the objects it is passed after awaiting trust decisions and device information (C88_refuted), and update_device_list goes on using its copy of the device list after passing it to _upload_device_list (C88_leak_refuted). Proved if other code does not change these while the call runs: every execution on objects is then one of the call on values."},
 {"property": "C89", "status": "partial", "theorems": ["Verif.C89_partial", "Verif.C89_existing_partial", "Verif.C89_refuted", "Verif.C89_example"], "note": "The code does not have the property: set_own_label and purge_backend (also when used by create) modify the dictionary returned by _download_device_list in place (C89_refuted). Proved for all other calls, and that nothing but such a dictionary or an object made by the call is modified by any call."},
 {"property": "C90", "status": "partial", "theorems": ["Verif.C90_partial", "Verif.C90_refuted", "Verif.C90_refuted_outdated", "Verif.C90_example"], "note": "The code does not have the property: if create is interrupted after the own device was stored and before its bundle was uploaded, later calls list the device without its bundle ever being uploaded (C90_refuted); and update_device_list, given a list from before the own device joined, uploads this list with the own device added, so that a device that left meanwhile is listed again (C90_refuted_outdated). Proved for any number of devices and calls, at every moment, if no create but the last call ended early, and lists passed to update_device_list for the own account are not outdated. Conditions named in the theorems, explained in DESIGN.md 4.3: Modest, Orderly."},
 {"property": "C91", "status": "proved", "theorems": ["Verif.C91", "Verif.C91_example"], "note": "Conditions named in the theorems, explained in DESIGN.md 4.3: Lib, ViaApi."},
 {"property": "C92", "status": "proved", "theorems": ["Verif.C92", "Verif.C92_merged", "Verif.C92_stays", "Verif.C92_accounted", "Verif.C92_example"], "note": "Conditions named in the theorems, explained in DESIGN.md 4.3: Lib, CallbackQuiet, Addressed, Retaining, Typed."},
 {"property": "C93", "status": "proved", "theorems": ["Verif.C93", "Verif.C78_example", "Verif.C94_example"], "note": "the hypotheses are met by BTBV (C78) and by the reference implementation (C94). Conditions named in the theorems, explained in DESIGN.md 4.3: Lib, Decisive, EvaluatesBy."},
 {"property": "C94", "status": "proved", "theorems": ["Verif.C94", "Verif.C94_decision", "Verif.C94_encrypt", "Verif.C94_stored", "Verif.C94_example"], "note": "Conditions named in the theorems, explained in DESIGN.md 4.3: Lib, Addressed, Exemplary."},
 {"property": "C95", "status": "proved", "theorems": ["Verif.C95", "Verif.C95_online", "Verif.C95_example"], "note": "Conditions named in the theorems, explained in DESIGN.md 4.3: Online, Hosted, Labelled."},
 {"property": "C96", "status": "partial", "theorems": ["Verif.C96_partial", "Verif.C96_refuted", "Verif.C96_purge", "Verif.C96_example"], "note": "false of the code for bundles that do not exist: downloading raises BundleDownloadFailed in place of BundleNotFound, deleting raises BundleDeletionFailed; the rest is proved. Conditions named in the theorems, explained in DESIGN.md 4.3: Hosted."},
 {"property": "C97", "status": "proved", "theorems": ["Verif.C97", "Verif.C97_calls", "Verif.C97_example"], "note": "Conditions named in the theorems, explained in DESIGN.md 4.3: KV, InMemory."},
 {"property": "C98", "status": "proved", "theorems": ["Verif.C98_encrypt", "Verif.C98_decrypt", "Verif.C98_returned", "Verif.C98_example"], "note": "Conditions named in the theorems, explained in DESIGN.md 4.3: Lib."},
 {"property": "C99", "status": "proved", "theorems": ["Verif.C99_encrypt", "Verif.C99_decrypt", "Verif.C99", "Verif.C99_strangers", "Verif.C99_reference", "Verif.C99_hosted", "Verif.C99_example", "Verif.C99_hosted_example"], "note": "Conditional on nothing failing; what fails is the subject of C24, C28 and C83. Conditions named in the theorems, explained in DESIGN.md 4.3: Lib, Addressed, Fitting, Hosted, Labelled, Typed."},
 {"property": "C100", "status": "proved", "theorems": ["Verif.C100", "Verif.C100_messages", "Verif.C100_reference", "Verif.C100_btbv", "Verif.C100_example", "Verif.C100_messages_example", "Verif.C100_excluded"], "note": "Objects that a trust decision obtains and hands over itself are assumed to keep to the rule; the reference implementation and blind trust before verification do."},
 {"property": "C101", "status": "proved", "theorems": ["Verif.C101_plain", "Verif.C101", "Verif.C101_row", "Verif.C101_terse", "Verif.C101_example", "Verif.C101_row_example"], "note": "The contract on chains holds while messages arrive in order; a late message of an earlier chain leaves the chains as they are and may cause one reply more."},
 {"property": "C102", "status": "partial", "theorems": ["Verif.C102_partial", "Verif.C102_takes", "Verif.C102_crossed", "Verif.C102_forever", "Verif.C102_unreadable", "Verif.C102_remedy", "Verif.C102_refuted", "Verif.C102_example", "Verif.C102_crossed_example", "Verif.C102_forever_example", "Verif.C102_remedy_example"], "note": "Refuted by the code: if both devices send their first message before they receive the one of the other, each replaces the session it built by the one of the other, and from then on nothing either of them sends can be decrypted (C102_crossed, C102_forever, C102_unreadable), until sessions are replaced on request (C102_remedy) or purged. Proved for all cases in which only one side builds sessions actively, by one key exchange. Conditions named in the theorems, explained in DESIGN.md 4.3: Lasts, Shelf."},
 {"property": "C103", "status": "partial", "theorems": ["Verif.C103_partial", "Verif.C103_after", "Verif.C103_refuted", "Verif.C103_example", "Verif.C103_after_example"], "note": "Refuted by the code: decrypt stores the session before it gives up the pre key. If the process dies in between, or giving up the pre key fails, the pre key stays available, and a key exchange of somebody else with it succeeds (C103_refuted). Proved for all histories in which this does not happen; without history synchronization, and after the hidden pre keys were deleted, there is no second session at all (C103_after). Conditions named in the theorems, explained in DESIGN.md 4.3: PreKeyed, GivesUp."},
 {"property": "C104", "status": "partial", "theorems": ["Verif.C104_partial", "Verif.C104_done", "Verif.C104_life", "Verif.C104_refuted", "Verif.C104_example"], "note": "Refuted by the code in its upper bound: two decrypts that both give up a pre key before either counts each generate two, so that there are 102 pre keys (C104_refuted). Proved: the lower bound, for any number of calls, at all times, with one missing pre key per running call; and after the calls of C43 (C104_life). Conditions named in the theorems, explained in DESIGN.md 4.3: Refills, Counted, Steady."},
 {"property": "C105", "status": "partial", "theorems": ["Verif.C105_partial", "Verif.C105_refuted", "Verif.C105_example"], "note": "Refuted by the code: get_bundle and the upload are separate steps. The rotation task may publish a newer bundle in between, which the older one then replaces (C105_refuted). Proved for all interleavings in which bundles are published in the order in which they were obtained. Conditions named in the theorems, explained in DESIGN.md 4.3: Deeds, Sequenced."},
 {"property": "C106", "status": "partial", "theorems": ["Verif.C106_partial", "Verif.C106_uncached_partial", "Verif.C106_seen", "Verif.C106_refuted", "Verif.C106_revoked", "Verif.C106_diverge", "Verif.C106_example"], "note": "Refuted by the code with the cache: a load under way while set_trust stores puts the old level into the cache, so that encrypt goes on to encrypt for a distrusted device (C106_refuted, C106_revoked); two overlapping stores may leave cache and storage different (C106_diverge). Proved: without the cache in full; with the cache if every key written by the calls is in the cache to begin with and written by only one of them; if only the former, everything the calls see is still as on a map (C106_seen). Conditions named in the theorems, explained in DESIGN.md 4.3: RawLib."},
 {"property": "C107", "status": "partial", "theorems": ["Verif.C107_partial", "Verif.C107_refuted", "Verif.C107_reused", "Verif.C107_failed", "Verif.C107_example"], "note": "Refuted by the code: decrypt asks whether history is synchronized, after_history_sync then ends the synchronization and deletes the hidden pre keys, and decrypt hides another one, which builds a second session later (C107_refuted, C107_reused). If deleting fails, after_history_sync raises, but the synchronization is over and what was hidden stays (C107_failed). Proved if no decrypt that overlaps with after_history_sync was told that the synchronization goes on, with purge_backend not at the same time as after_history_sync. Conditions named in the theorems, explained in DESIGN.md 4.3: Lib, Ordinary, PreKeyed."},
 {"property": "C108", "status": "partial", "theorems": ["Verif.C108_partial", "Verif.C108_refuted", "Verif.C108_example"], "note": "Refuted by the code: decrypt reads the queue of an account, after_history_sync takes it away and sends the replies, and decrypt stores the queue again with one more entry; the replies are sent again after the next synchronization. Proved if calls of decrypt and after_history_sync do not overlap with each other, whatever other calls overlap with them. Conditions named in the theorems, explained in DESIGN.md 4.3: Lib, NoQueues, SendsNone."},
 {"property": "C109", "status": "proved", "theorems": ["Verif.C109_encrypt", "Verif.C109_decrypt", "Verif.C109_others", "Verif.C109_example"], "note": "Logging is not modelled."},
 {"property": "C110", "status": "proved", "theorems": ["Verif.C110_failures", "Verif.C110_tolerated", "Verif.C110_foreign", "Verif.C110_example"], "note": "The trust decision callback is assumed to treat failures in the same way. Nothing is said about failures that do not fit the interaction (`Odd`), such as a backend that raises BundleUploadFailed. Conditions named in the theorems, explained in DESIGN.md 4.3: CallbackForwards."},
 {"property": "C111", "status": "proved", "theorems": ["Verif.C111_secret", "Verif.C111_untouched", "Verif.C111_example"], "note": "The trust decision callback is assumed not to touch the stored secret.  What backends do with the key pair they read from the storage is not modelled. Conditions named in the theorems, explained in DESIGN.md 4.3: SamePublic."},
 {"property": "C112", "status": "partial", "theorems": ["Verif.C112_partial", "Verif.C112_unsynced_partial", "Verif.C112_other_partial", "Verif.C112_refuted", "Verif.C112_overlap_refuted", "Verif.C112_example", "Verif.C112_other_example"], "note": "Refuted by the code, in two ways. Two calls that overlap both load the session before one of them stores it, and both read the message. While history is synchronized, hidden pre keys still build sessions, so after the sender began another session, replaying an old message together with its key exchange reads it again, and replaces the newer session.  Proved if no session is built with a hidden pre key, in particular outside of history synchronization, and if giving up a pre key is not interrupted and does not fail; in the same cases, other devices that pass the message off as their own do not succeed either (C112_other_partial). Conditions named in the theorems, explained in DESIGN.md 4.3: Shelf, PreKeyed, GivesUp, Fading, NoneRevived."},
 {"property": "C113", "status": "proved", "theorems": ["Verif.C113", "Verif.C113_lasting", "Verif.C113_example"], "note": "Of older messages, the first device is given only those without key exchanges and the second only those without key exchanges other than this one: others replace the session (see C102). Conditions named in the theorems, explained in DESIGN.md 4.3: Lasts, Shelf, NoKex, OnlyKex, Unpurged."},
 {"property": "C114", "status": "proved", "theorems": ["Verif.C114", "Verif.C114_waits", "Verif.C114_example"], "note": "Purging a backend discards all it has, including its pre keys; this is not counted as deleting a pre key. Conditions named in the theorems, explained in DESIGN.md 4.3: Lib, Waiting."},
 {"property": "C115", "status": "partial", "theorems": ["Verif.C115_partial", "Verif.C115_uses_partial", "Verif.C115_refuted", "Verif.C115_purge_refuted", "Verif.C115_example"], "note": "Refuted by the code in three ways: identity keys in bundles are not compared with the known one when sessions are built or replaced; purge_bare_jid deletes identity keys before sessions and may be interrupted in between; it deletes sessions of loaded backends only. Proved for JIDs that are not purged, if bundles from which sessions are built have the known identity key. Conditions named in the theorems, explained in DESIGN.md 4.3: Lib, ViaApi, MildDecisions, Honest."},
 {"property": "C116", "status": "proved", "theorems": ["Verif.C116", "Verif.C116_calls", "Verif.C116_example"], "note": "trust decisions that contact nobody themselves and do not write the queues; backends that return sessions for the device they were asked for (Lasts). Conditions named in the theorems, explained in DESIGN.md 4.3: Lib, Reserved."},
 {"property": "C117", "status": "proved", "theorems": ["Verif.C117", "Verif.C117_requests", "Verif.C117_list", "Verif.C117_example"], "note": "no assumption about answers; counts interactions, not local computation; the background task is left out, it never ends. Conditions named in the theorems, explained in DESIGN.md 4.3: BackendsOnce, Brief."},
 {"property": "C118", "status": "proved", "theorems": ["Verif.C118_decrypt", "Verif.C118_replace", "Verif.C118_info", "Verif.C118_own", "Verif.C118_others", "Verif.C118_example"], "note": "no assumption about answers; if decrypt fetches the device list of an unknown sender, activity and labels are compared with what is stored, see C11"},
 {"property": "C119", "status": "proved", "theorems": ["Verif.C119", "Verif.C119_uses", "Verif.C119_info", "Verif.C119_calls", "Verif.C119_example"], "note": "trust decisions use the storage for trust levels and ask for devices, nothing else (Judging); for the own device, label and key are not traced further. Conditions named in the theorems, explained in DESIGN.md 4.3: Lib."},
 {"property": "C120", "status": "proved", "theorems": ["Verif.C120", "Verif.C120_merged", "Verif.C120_encrypt", "Verif.C120_purged", "Verif.C120_example", "Verif.C120_purged_example"], "note": "the device is not one of the managers' own devices; the calls in between do not create a manager for the account of the device (Withholding). Conditions named in the theorems, explained in DESIGN.md 4.3: Lib, CallbackQuiet, BackendsOnce, Typed."},
 {"property": "C121", "status": "proved", "theorems": ["Verif.C121", "Verif.C121_encrypt", "Verif.C121_decrypt", "Verif.C121_example"], "note": "the identity key of the device is known when the level is set, and the trust decision callback does not set this level itself (LeavesTrust). Conditions named in the theorems, explained in DESIGN.md 4.3: Lib, NeverAnswers, Typed."},
 {"property": "C122", "status": "proved", "theorems": ["Verif.C122_info", "Verif.C122_update", "Verif.C122_purge", "Verif.C122_encrypt", "Verif.C122_example"], "note": "Relates two executions (two managers with the same account and different set orders). SameBundles: the bundles of a device hold one identity key and can be downloaded in both executions or in neither; SameTrust: the last evaluations of a device agree; for encrypt, the trust decision callback itself neither encrypts nor evaluates trust (CallbackQuiet) and the backends label what they return correctly (Addressed). Conditions named in the theorems, explained in DESIGN.md 4.3: Lib, Typed."}
]}
