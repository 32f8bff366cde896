{"id": "C01", "title": "Base64 encoding round-trips and has the announced size", "statement": "For both alphabets (standard and URL) and with or without padding, encoding any byte sequence into a large enough buffer succeeds, writes exactly oc_base64_encoded_output_size bytes (the terminator excluded), uses only alphabet characters plus trailing padding, and decoding that text with the same settings returns exactly the original bytes.", "quantifier": "every byte sequence of any length, both alphabets, both padding settings", "why_tests_cant": "The domain is all byte strings; tests cover a handful of RFC 4648 vectors and cannot rule out a length class or bit pattern that fails.", "anchors": ["api/oc_base64.c: oc_base64_encode_v1, oc_base64_decode_v1, oc_base64_encoded_output_size, oc_base64_decoded_output_size"]}
{"id": "C02", "title": "Base64 decoding accepts exactly well formed text and stays in its buffers", "statement": "Base64 decoding succeeds only on text whose length fits the padding mode, whose characters come from the selected alphabet and whose padding is at most two final characters; a success never reports more bytes than the output buffer holds and every other input is rejected.", "quantifier": "every input text, every output capacity, both alphabets and padding modes", "why_tests_cant": "Rejection must hold for every malformed text, an infinite set.", "anchors": ["api/oc_base64.c: oc_base64_decode_v1, base64_decode_char"]}
{"id": "C03", "title": "UUID text conversion round-trips", "statement": "Formatting any 16 byte UUID and parsing the text back gives the same 16 bytes (and reports 16), with the single documented exception of the wildcard form '*'; the formatted text always has 36 characters with dashes at positions 8, 13, 18 and 23.", "quantifier": "all 2^128 UUID values", "why_tests_cant": "2^128 values; the wildcard special case is exactly the kind of corner a sampled test misses.", "anchors": ["api/oc_uuid.c: oc_str_to_uuid_v1, oc_uuid_to_str_v1"]}
{"id": "C04", "title": "Generated UUIDs carry the RFC 4122 version and variant", "statement": "Whatever bytes the random source delivers, oc_gen_uuid yields a UUID whose version field is 4 and whose variant bits are the RFC 4122 ones (10).", "quantifier": "all outputs of the random source", "why_tests_cant": "A random test sees a few of 2^128 outcomes and existing tests do not look at the variant.", "anchors": ["api/oc_uuid.c: oc_gen_uuid"]}
{"id": "C05", "title": "CRC-64 is chunking independent and detects short bursts", "statement": "Feeding a message to oc_crc64 in any division into chunks gives the same checksum as one call, and two messages of equal length that differ only within a window of at most 64 bits never have the same checksum.", "quantifier": "every message, every division into chunks, every error burst of at most 64 bits at any position", "why_tests_cant": "Error detection ranges over all pairs of messages.", "anchors": ["util/oc_crc.c: oc_crc64"]}
{"id": "C06", "title": "Hex conversion round-trips within its buffers", "statement": "oc_conv_byte_array_to_hex_string followed by oc_conv_hex_string_to_byte_array returns the original bytes and length for every non-empty byte array and large enough buffers; texts of either case and of odd length are accepted, and each call refuses (returns -1) exactly when the destination is too small (the empty text is always refused).", "quantifier": "every byte array and every buffer capacity", "why_tests_cant": "Unbounded input domain and boundary capacities.", "anchors": ["api/oc_helpers.c: oc_conv_byte_array_to_hex_string, oc_conv_hex_string_to_byte_array"]}
{"id": "C07", "title": "Linked lists behave as finite sequences", "statement": "Under any sequence of add, push, insert, pop, chop, remove operations on items that are not already members, the list holds exactly the sequence obtained by the same operations on an abstract sequence, it stays acyclic, and length, tail and membership queries agree with that sequence.", "quantifier": "every history of list operations on any number of items", "why_tests_cant": "Histories are unbounded; corruption of an intrusive list only shows for particular orders.", "anchors": ["util/oc_list.c: oc_list_add, oc_list_push, oc_list_insert, oc_list_chop, oc_list_pop, oc_list_remove2, oc_list_length, oc_list_tail"]}
{"id": "C08", "title": "Block pools never hand out a block twice", "statement": "In a fixed size pool, an allocated block is never returned again before it is freed, allocation fails exactly when every block is in use, a freed block becomes available again, and the reported number of free blocks is exact after every history of alloc and free (including double frees and frees of foreign pointers).", "quantifier": "every history of allocations and frees on a pool of any size", "why_tests_cant": "Unbounded histories with interleavings of alloc and free.", "anchors": ["util/oc_memb.c: oc_memb_alloc, oc_memb_free, oc_memb_numfree, oc_memb_inmemb"]}
{"id": "C09", "title": "The compacting pool preserves the contents of live blocks", "statement": "In the statically allocated string pool, after any history of allocations and frees live blocks lie inside the pool, do not overlap, and hold the bytes last written to them even though freeing moves blocks; an allocation fails exactly when the free space is smaller than the request.", "quantifier": "every history of alloc, write and free with any sizes", "why_tests_cant": "Compaction bugs depend on the order of frees over an unbounded history.", "anchors": ["util/oc_mmem.c: _oc_mmem_alloc, _oc_mmem_free"]}
{"id": "C10", "title": "Timer arithmetic is exact over the whole clock range", "statement": "A timer that was set at time s with interval d is reported expired at a later time t exactly when at least d ticks elapsed, the remaining time is the exact difference until then, and resets from the expiration time accumulate no drift (sums within the 64 bit tick range; at the very last tick value an expired timer is reported as not expired).", "quantifier": "all start times, intervals and query times of the 64 bit tick counter", "why_tests_cant": "64 bit state space and wrap-around cannot be enumerated.", "anchors": ["util/oc_timer.c: oc_timer_expired, oc_timer_remaining, oc_timer_reset, oc_timer_restart, oc_timer_expiration_time"]}
{"id": "C11", "title": "Event timers fire once, never early, and the next wake-up is never late", "statement": "Under any history of setting, stopping, resetting and polling event timers, a timer event is only delivered to the owning process after its expiration time, exactly once per setting, and the time reported for the next wake-up is never later than the earliest pending expiration.", "quantifier": "every history of timer operations, clock advances and polls", "why_tests_cant": "Schedules are unbounded and the bug classes (lost wake-up, stale entry) need particular interleavings.", "anchors": ["util/oc_etimer.c: oc_etimer_set, oc_etimer_stop, oc_etimer_request_poll, etimer process thread, update_time"]}
{"id": "C12", "title": "The event queue is FIFO, lossless and exact about overflow", "statement": "Posting to the process event queue either appends the event behind all events posted before, or returns an error and leaves the queue unchanged; each accepted event is delivered exactly once, in order, also when the ring is full, wraps around or grows; dropping matching events removes exactly those and keeps the order of the others.", "quantifier": "every history of post, deliver and drop for every queue capacity", "why_tests_cant": "Ring wrap-around combined with growth and removal has unboundedly many states.", "anchors": ["util/oc_process.c: oc_process_post, oc_process_drop, oc_process_run, process_do_event"]}
{"id": "C13", "title": "CoAP option headers round-trip", "statement": "Every option delta and length expressible on the wire (0..65804) is serialized to a header which the parser reads back as the same delta and length consuming exactly the bytes written, using the shortest of the three forms.", "quantifier": "all deltas and lengths in 0..65804", "why_tests_cant": "4.3e9 pairs and three encodings with boundaries.", "anchors": ["messaging/coap/coap.c: coap_set_option_header, coap_option_nibble, coap_oscore_parse_options"]}
{"id": "C14", "title": "CoAP integer options round-trip minimally", "statement": "Every 32 bit option value is written in the minimal number of big-endian bytes (zero as empty) and reads back as itself; any byte string of at most four bytes reads back as its big-endian value.", "quantifier": "all 2^32 values", "why_tests_cant": "2^32 values.", "anchors": ["messaging/coap/coap.c: coap_serialize_int_option, coap_parse_int_option"]}
{"id": "C15", "title": "Block options round-trip and offsets are exact", "statement": "A block number, more flag and power-of-two size in 16..1024 set on a packet are read by the receiver as the same number, flag and size with offset = number times size; numbers above 0xFFFFF and sizes outside 16..2048 are refused.", "quantifier": "all block numbers, sizes and flags", "why_tests_cant": "2^20 numbers times sizes; 32 bit wrap-around of the offset.", "anchors": ["messaging/coap/options.c: coap_options_set_block1, coap_options_get_block1, coap_options_set_block2, coap_options_get_block2"]}
{"id": "C16", "title": "Uri-Path and Uri-Query split and merge are inverse", "statement": "A path (query) whose segments are non-empty is serialized to one option per segment and the receiver reassembles the identical string; the receiver sees the segments in order.", "quantifier": "all paths and queries", "why_tests_cant": "Unbounded strings, boundary cases of separators.", "anchors": ["messaging/coap/coap.c: coap_serialize_array_option, coap_merge_multi_option"]}
{"id": "C17", "title": "A serialized UDP CoAP message parses to the same message", "statement": "Any message with a valid header, token of at most 8 bytes, any subset of the supported options with valid values and a payload is serialized so that the parser returns the same type, code, message id, token, options and payload.", "quantifier": "all messages over the supported option set", "why_tests_cant": "Product of all option subsets and values.", "anchors": ["messaging/coap/coap.c: coap_oscore_serialize_message, coap_udp_parse_message, coap_oscore_parse_options"]}
{"id": "C18", "title": "Parsing a received datagram never reads outside it", "statement": "For every received byte sequence, CoAP message parsing terminates with success or an error and reads only bytes of the datagram.", "quantifier": "all byte sequences of any length", "why_tests_cant": "All inputs; out-of-bounds reads are invisible to functional tests.", "anchors": ["messaging/coap/coap.c: coap_udp_parse_message, coap_oscore_parse_options"]}
{"id": "C19", "title": "TCP framing splits a stream back into the sent messages", "statement": "The length header written before a CoAP-over-TCP message is read back as the exact total message size, for every payload and option length, so a concatenation of messages is split into the same messages whatever the chunking of the stream.", "quantifier": "all message lengths and all concatenations", "why_tests_cant": "Unbounded streams, four length encodings with boundaries at 13, 269 and 65805.", "anchors": ["messaging/coap/coap.c: coap_tcp_compute_message_length, coap_tcp_parse_message_length, coap_tcp_get_packet_size, tcp_set_header_fields"]}
{"id": "C20", "title": "Confirmable requests are retransmitted with exponential back-off and always terminate", "statement": "A confirmable message that is never acknowledged is transmitted exactly a fixed number of times with doubling intervals, then the transaction is removed and its observers and callbacks are cleaned up; an acknowledged message is never retransmitted again; no transaction exists for ever.", "quantifier": "every schedule of timer expirations and acknowledgements over any number of concurrent transactions", "why_tests_cant": "Schedules are unbounded.", "anchors": ["messaging/coap/transactions.c: coap_send_transaction, coap_clear_transaction, coap_check_transactions"]}
{"id": "C21", "title": "Blockwise reassembly yields the sender's payload", "statement": "Whatever the order, duplication or loss of received blocks of one transfer, the reassembly buffer always holds a prefix of the sender's payload, never more than its capacity, and completion is only reported with the whole payload.", "quantifier": "every sequence of block deliveries for payloads of any size", "why_tests_cant": "All orders and duplications of blocks.", "anchors": ["api/oc_blockwise.c: oc_blockwise_handle_block", "messaging/coap/engine.c: coap_process_inbound_message block1 flow"]}
{"id": "C22", "title": "Blockwise transmission covers the payload exactly once", "statement": "Requesting consecutive blocks of a response delivers consecutive slices inside the buffer whose concatenation is the payload; the more flag is set exactly on all but the last slice and no slice reads outside the stored payload.", "quantifier": "all payload sizes, block sizes and request offsets", "why_tests_cant": "All payload/block-size combinations; over-read at unusual offsets is invisible to functional tests.", "anchors": ["api/oc_blockwise.c: oc_blockwise_dispatch_block", "messaging/coap/engine.c: block2 handling"]}
{"id": "C23", "title": "Duplicate requests are processed at most once and only duplicates are dropped", "statement": "A non-confirmable request repeated while it is among the last 25 distinct requests of the device is not processed a second time, and a request that was not received before is never dropped as a duplicate.", "quantifier": "every history of received message ids per device", "why_tests_cant": "Histories unbounded; the initial state of the history buffer matters.", "anchors": ["messaging/coap/engine.c: check_if_duplicate, g_history"]}
{"id": "C24", "title": "Observe registrations are unique and exactly counted", "statement": "After any history of registrations, cancellations, resets, session losses and resource deletions, each (client endpoint, uri, interface) has at most one observation and the observer count of each resource equals the number of observations registered for it.", "quantifier": "every history of observe operations with any number of clients and resources", "why_tests_cant": "Unbounded histories.", "anchors": ["messaging/coap/observe.c: add_observer, coap_remove_observer, coap_remove_observers_by_client, coap_remove_observers_by_resource"]}
{"id": "C25", "title": "Query parsing finds the value of the first matching key", "statement": "For any query string, key lookup returns the value of the first pair whose key equals the requested key ignoring case, existence checks agree with it, and enumeration by position returns the pairs in order.", "quantifier": "all query strings and keys", "why_tests_cant": "All strings; separators, empty keys and missing values.", "anchors": ["api/oc_query.c: oc_ri_get_query_nth_key_value, oc_ri_get_query_value_v1, oc_ri_query_exists_v1"]}
{"id": "C26", "title": "JSON dumping is bounded and announces the exact size", "statement": "Dumping any representation into a buffer of any size never writes past the buffer and returns a length that does not depend on the buffer size, so that a second call with a buffer of that length plus one yields the full text.", "quantifier": "all representations (nested) and all buffer sizes", "why_tests_cant": "Unbounded trees times all buffer sizes.", "anchors": ["api/oc_rep_to_json.c: oc_rep_to_json, UPDATE_BUFFER_AND_TOTAL"]}
{"id": "C27", "title": "Access is granted only as the access control rules allow", "statement": "A request to a resource is allowed exactly in the cases of the documented rules: device owner or resource owner for security resources in the right states, owner role, or an ACE of the subject (uuid, role, or connection type) that covers the resource and has the permission bits for the method; otherwise it is refused.", "quantifier": "all requests, peers, device states, credential and ACE lists", "why_tests_cant": "Decision ranges over all policies and device states.", "anchors": ["security/oc_acl_util.c: oc_sec_check_acl, get_permission functions, oc_ace_get_permission"]}
{"id": "C28", "title": "Anonymous peers only get what anonymous rules grant", "statement": "A peer without an authenticated identity obtains access only through connection-type ACEs or the documented pre-provisioning exceptions, never through a rule for a particular subject.", "quantifier": "all policies, states and resources", "why_tests_cant": "Universal over policies.", "anchors": ["security/oc_acl_util.c: oc_sec_check_acl", "security/oc_ace.c: oc_sec_ace_find_subject, oc_sec_decode_ace"]}
{"id": "C29", "title": "ACE ids stay unique and updates are faithful", "statement": "After any history of ACL updates and deletions every ACE of a device has a different aceid, and a successful update makes exactly the updated subject/permission/resource entries visible.", "quantifier": "every history of ACL operations", "why_tests_cant": "Unbounded histories.", "anchors": ["security/oc_acl.c: oc_sec_acl_update_res, oc_sec_ace_update_or_create, oc_sec_decode_acl"]}
{"id": "C30", "title": "A rejected ACL update leaves the ACL unchanged", "statement": "When decoding an ACL update fails, the device's access control list is what it was before the request.", "quantifier": "all ACLs and all update payloads", "why_tests_cant": "All payloads and failure points.", "anchors": ["security/oc_acl.c: oc_sec_decode_acl"]}
{"id": "C31", "title": "Provisioning state changes follow the allowed transitions", "statement": "Whatever sequence of pstat updates, resets and loads occurs, the device onboarding state only moves along the transitions of the OCF state machine, and in RFPRO/RFNOP the device is owned with non-nil owner identifiers.", "quantifier": "every history of pstat updates", "why_tests_cant": "Unbounded histories over a large state.", "anchors": ["security/oc_pstat.c: valid_transition, oc_sec_decode_pstat, oc_pstat_handle_state, oc_pstat_check_state"]}
{"id": "C32", "title": "OSCORE partial IVs round-trip", "statement": "Every sender sequence number below 2^40 is stored in the shortest big-endian form of at most 5 bytes and reads back as itself.", "quantifier": "all 2^40 sequence numbers", "why_tests_cant": "2^40 values.", "anchors": ["messaging/coap/oscore.c: oscore_store_piv, oscore_read_piv"]}
{"id": "C33", "title": "OSCORE nonces never collide", "statement": "With the same common IV two nonces are equal only if the sender id (length and bytes) and the partial IV value are the same.", "quantifier": "all ids of at most 7 bytes, all partial IVs of at most 5 bytes", "why_tests_cant": "Pairs over a 2^96 domain.", "anchors": ["security/oc_oscore_crypto.c: oc_oscore_AEAD_nonce"]}
{"id": "C34", "title": "A replayed OSCORE request is not accepted", "statement": "Once a protected request has been accepted, the same request (same partial IV) is rejected whenever it is received again.", "quantifier": "every sequence of received partial IVs", "why_tests_cant": "Unbounded sequences.", "anchors": ["security/oc_oscore_engine.c: check_if_replayed_request"]}
{"id": "C35", "title": "OSCORE sequence numbers are never reused, also across crashes", "statement": "For any schedule of protected messages sent, delayed saves of the credentials, crashes and restarts, no sender sequence number is used twice with the same key.", "quantifier": "every schedule of send, save, crash and restart", "why_tests_cant": "Crash points and schedules cannot be enumerated.", "anchors": ["security/oc_oscore_engine.c: oscore_send_message, increment_ssn_in_context", "security/oc_oscore_context.c: oc_oscore_add_context", "security/oc_cred.c: oc_sec_decode_cred"]}
{"id": "C36", "title": "OSCORE option parsing is memory safe and inverse to serialization", "statement": "The OSCORE option written by the library parses back to the same partial IV, kid context and kid; for every option value the parser stays inside the option and its destination buffers.", "quantifier": "all option values", "why_tests_cant": "All byte strings; overflow is invisible to functional tests.", "anchors": ["messaging/coap/oscore.c: coap_parse_oscore_option, coap_serialize_oscore_option"]}
{"id": "C37", "title": "Credential ids stay unique", "statement": "After any history of credential additions and removals no two credentials of a device have the same credid, and lookup by credid returns the credential added last under that id.", "quantifier": "every history of credential operations", "why_tests_cant": "Unbounded histories.", "anchors": ["security/oc_cred.c: oc_sec_add_new_cred, oc_sec_get_new_credid, oc_sec_remove_cred_by_credid"]}
{"id": "C38", "title": "The active security profile is always a supported one", "statement": "After any history of security profile updates the current profile of a device is among its supported profiles, and a rejected update changes nothing.", "quantifier": "every history of oic.sec.sp updates", "why_tests_cant": "Unbounded histories and all payloads.", "anchors": ["security/oc_sp.c: oc_sec_sp_decode, oc_sec_sp_decode_for_device"]}
{"id": "C39", "title": "The audit log keeps the newest events within its size", "statement": "After any history of events the log's used space is the sum of the sizes of the stored events and does not exceed the maximum; the stored events are the newest admitted ones in order of arrival.", "quantifier": "every history of audit events and any maximum size", "why_tests_cant": "Unbounded histories.", "anchors": ["security/oc_ael.c: oc_sec_ael_add, ael_add_event"]}
{"id": "C40", "title": "Persistent data survives a crash during saving", "statement": "If power is lost at any point while a file is being saved, a later load returns either the complete old or the complete new content.", "quantifier": "every old content, new content and crash point", "why_tests_cant": "Crash points within a write cannot be exercised by unit tests.", "anchors": ["port/linux/storage.c: oc_storage_write, oc_storage_read", "api/oc_storage.c: oc_storage_data_save, oc_storage_data_load"]}
{"id": "C41", "title": "The storage directory configuration names the requested directory", "statement": "After oc_storage_config(path) succeeds, data is kept in files of exactly that directory, for every path with or without trailing slashes.", "quantifier": "all paths", "why_tests_cant": "All strings; corner cases of trailing separators.", "anchors": ["port/linux/storage.c: oc_storage_config"]}
{"id": "C42", "title": "Storage names of different devices and resources never collide", "statement": "The tag under which a resource of a device is stored identifies the resource name and device index uniquely for names that fit.", "quantifier": "all names and device indices", "why_tests_cant": "All pairs.", "anchors": ["api/oc_storage.c: oc_storage_gen_svr_tag"]}
{"id": "C43", "title": "Ownership data is only writable in the states the specification allows", "statement": "An update of the doxm resource that is not from storage changes a property only if the device state and peer (DOC) permit it, and a rejected update changes nothing.", "quantifier": "all payloads, states and peers", "why_tests_cant": "All payloads; atomicity needs every failure position.", "anchors": ["security/oc_doxm.c: oc_sec_decode_doxm"]}
{"id": "C44", "title": "Device identity (sdi) updates are atomic and state-guarded", "statement": "An sdi update either applies all of its properties, which the state permits, or none.", "quantifier": "all payloads and states", "why_tests_cant": "All payloads and failure positions.", "anchors": ["security/oc_sdi.c: oc_sec_sdi_decode_with_state"]}
{"id": "C45", "title": "Role credentials are confined to the session that asserted them", "statement": "Roles asserted by a peer are only visible for that peer and vanish when its session is freed, whatever other peers do.", "quantifier": "every history of role assertions and session closes", "why_tests_cant": "Unbounded histories with several peers.", "anchors": ["security/oc_roles.c: oc_sec_add_role_cred, oc_sec_get_roles, oc_sec_free_roles"]}
{"id": "C46", "title": "ETags strictly increase", "statement": "Each ETag handed out is larger than every ETag handed out before (until the 64 bit counter overflows), whatever the clock does, and it is never the uninitialised value.", "quantifier": "every clock behaviour and random sequence", "why_tests_cant": "Clocks may jump backwards at any point.", "anchors": ["api/oc_etag.c: oc_etag_get, oc_etag_set_global"]}
{"id": "C47", "title": "Representation lookup returns the first property of the requested name and type", "statement": "The typed getters return the value of the first property with exactly that name and type, and report absence otherwise; values are never reinterpreted as another type.", "quantifier": "all representations, names and types", "why_tests_cant": "All representations.", "anchors": ["api/oc_rep.c: rep_get_value, oc_rep_get_by_type_and_key"]}
{"id": "C48", "title": "Malformed UUID text never yields a UUID silently", "statement": "oc_str_to_uuid_v1 either rejects a text or stores the 16 bytes that the text denotes; text that is not a UUID is rejected.", "quantifier": "every text of every length", "why_tests_cant": "The set of malformed texts is unbounded; tests sample a few.", "anchors": ["api/oc_uuid.c: oc_str_to_uuid_v1, oc_str_to_uuid"]}
{"id": "C49", "title": "Validation of a received message agrees with parsing it", "statement": "The check applied to a datagram before it is queued does not change it, succeeds exactly when the later parsing succeeds, and finds malformed every message that the later parsing finds malformed; so no queued message is later found malformed.", "quantifier": "every datagram of every length and content", "why_tests_cant": "All inputs; the two passes run at different times on the same bytes.", "anchors": ["api/oc_udp.c: oc_udp_is_valid_message", "messaging/coap/coap.c: coap_udp_parse_message, coap_oscore_parse_options"]}
{"id": "C50", "title": "Notifications carry sequence numbers a client can order", "statement": "Each notification of an observation carries an Observe value in 2..2^24-1 that RFC 7641 defines to be newer than that of the previous notification of the observation, also across the wrap-around of the counter and across a new registration of the same client.", "quantifier": "every history of registrations, cancellations, notifications and resource deletions, with any number of notifications", "why_tests_cant": "The counters wrap after 16 million notifications and are shared by all observers.", "anchors": ["messaging/coap/observe.c: observe_increment_observe_counter, coap_add_observer, coap_send_notification_internal"]}
{"id": "C51", "title": "The access control list survives a restart", "statement": "Loading the stored access control list after a restart gives the list that was stored: the same ACEs with the same subjects, permissions and resources, hence the same access decisions.", "quantifier": "every access control list that any history of updates leads to", "why_tests_cant": "All histories and all lists.", "anchors": ["security/oc_acl.c: oc_sec_encode_acl, oc_sec_decode_acl", "security/oc_ace.c: oc_sec_encode_ace, oc_sec_decode_ace"]}
{"id": "C52", "title": "Provisioned security data survives a restart", "statement": "After a restart a device has the ownership, the security domain information, the provisioning status and the security profile it had stored before.", "quantifier": "every state of the device and every value of the stored resources", "why_tests_cant": "All values, in every onboarding state.", "anchors": ["security/oc_store.c: oc_sec_load_doxm, oc_sec_load_pstat, oc_sec_load_sp, oc_sec_load_sdi", "api/oc_main.c: main_load_resources", "security/oc_sp.c: oc_sec_sp_decode_for_device", "security/oc_pstat.c: oc_sec_encode_pstat, oc_sec_decode_pstat"]}
{"id": "C53", "title": "OSCORE messages are recognised exactly", "statement": "A received datagram is handed to the OSCORE layer exactly if it has an OSCORE option among its options before the payload, and recognising it reads nothing outside of the datagram.", "quantifier": "all datagrams", "why_tests_cant": "All byte strings; an over-read is invisible to functional tests.", "anchors": ["messaging/coap/oscore.c: oscore_is_oscore_message", "api/oc_udp.c: oc_udp_is_valid_message"]}
{"id": "C54", "title": "Credentials are only changed in the states that allow it", "statement": "A request changes the credentials of a device only in a provisioning state and changes the owner of the credential resource only during onboarding or a soft reset; in particular no request of an ordinary peer in normal operation changes either.", "quantifier": "all payloads, states, sessions and histories", "why_tests_cant": "All payloads to all resources that share the decoder, in every state.", "anchors": ["security/oc_cred.c: oc_sec_decode_cred, oc_sec_apply_cred, cred_resource_delete", "security/oc_roles.c: roles_resource_post", "security/oc_acl_util.c: oc_sec_check_acl"]}
{"id": "C55", "title": "An ETag never validates another payload", "statement": "If a GET with an ETag that an earlier GET of the resource returned is answered 2.03 Valid, then the resource has the payload that the earlier answer had, whatever happened in between: changes, deletions, device resets, dumping and loading of ETags, restarts.", "quantifier": "every history of resources, changes, dumps, loads, resets and restarts, every behaviour of clock and random numbers", "why_tests_cant": "Unbounded histories; reuse of an ETag after a restart depends on clock and random numbers.", "anchors": ["api/oc_etag.c: oc_etag_load_from_storage, oc_etag_dump, oc_etag_on_reset, oc_etag_decode_resource_etag", "api/oc_ri.c: ri_invoke_coap_set_etag", "api/oc_server_api.c: oc_notify_resource_changed"]}
{"id": "C56", "title": "Incremental change queries are read exactly", "statement": "The ETags listed in the incChanges values of a query are delivered in order, each item being the base64url text of eight bytes; other items are skipped, and nothing outside the query is read.", "quantifier": "all queries", "why_tests_cant": "All byte strings.", "anchors": ["api/oc_etag.c: oc_etag_iterate_incremental_updates_query, etag_process_incremental_updates_values, etag_process_incremental_updates_value"]}
{"id": "C57", "title": "The storage returns what was saved last under a name", "statement": "After any history of saves, clears, loads, failing calls and losses of power, a load decodes exactly the data whose save was completed last for this name and device, and reports success only if it decoded the data.", "quantifier": "every history, environment behaviour, name and device index", "why_tests_cant": "Unbounded histories; failures of each system call at each point.", "anchors": ["api/oc_storage.c: oc_storage_data_save, oc_storage_data_load, oc_storage_data_clear", "port/linux/storage.c: oc_storage_read, oc_storage_write"]}
{"id": "C58", "title": "The audit event log survives restarts", "statement": "If the log was written to storage after its last change and its events still pass the filters, restarting the device restores the filters, the maximum size and exactly the recorded events in their order; restarting never causes undefined behaviour, whatever was logged.", "quantifier": "every reachable log content, every event text, every platform word size, every history of adds, filter updates, resets and restarts", "why_tests_cant": "The log is written in one format and read back by re-adding each event through the filters and the size check; whether this is the identity depends on all combinations of filters, sizes, absent and empty texts.", "anchors": ["security/oc_ael.c:ael_decode", "security/oc_ael.c:ael_encode", "security/oc_ael.c:oc_sec_ael_add", "security/oc_store.c:oc_sec_load_ael"]}
{"id": "C59", "title": "RFC 3339 time texts are read and written exactly", "statement": "Parsing a text accepts exactly the RFC 3339 date-times with an existing date and time of day (no leap seconds, at most nine fraction digits) and yields the instant, nanoseconds and offset they denote, without reading outside of the text. Formatting a valid time stamp writes such a text, with a NUL, inside the buffer or nothing; parsing it again gives the same time stamp. A clock value written as text and parsed gives the same clock value. Comparison is the order of instants.", "quantifier": "all texts, all time stamps, all buffer sizes, all clock values", "why_tests_cant": "All byte strings and all 64-bit times; calendar arithmetic in 32-bit unsigned numbers.", "anchors": ["api/c-timestamp/timestamp_parse.c: timestamp_parse", "api/c-timestamp/timestamp_format.c: timestamp_format, timestamp_format_precision", "api/c-timestamp/timestamp_valid.c: timestamp_valid", "api/c-timestamp/timestamp_compare.c: timestamp_compare", "api/oc_clock.c: oc_clock_encode_time_rfc3339, oc_clock_parse_time_rfc3339_v1"]}
{"id": "C60", "title": "Validity times of certificates are converted exactly", "statement": "The broken-down time of a time stamp is the calendar date, time, weekday and day of the year of its instant; the validity time written into a generated certificate is that UTC time in 14 digits; the Unix time reported for a validity time of a certificate is the number of seconds from 1970 to it.", "quantifier": "all valid time stamps and all existing dates", "why_tests_cant": "All dates; truncating divisions and unsigned conversions.", "anchors": ["api/c-timestamp/timestamp_tm.c: timestamp_to_tm_utc, timestamp_to_tm_local", "security/oc_certs.c: oc_certs_time_to_unix_timestamp", "security/oc_certs_generate.c: oc_certs_timestamp_format"]}
{"id": "C61", "title": "Delayed callbacks run once per expiry and are released once", "statement": "A delayed callback runs exactly once for each time its interval expires, in the next poll of the event loop, until it says it is done or is removed; after it was released it never runs. Every callback is released exactly once, whatever callbacks add or remove, themselves included. Removing one removes the first that matches, removing all removes all that match; the function given for deletion is called for the removed ones only.", "quantifier": "all histories of adding, removing, expiring and polling, with arbitrary behaviour of the callbacks, including adding and removing callbacks while one runs", "why_tests_cant": "Callbacks change the list that is being walked; every interleaving of removals and expiries counts.", "anchors": ["api/oc_event_callback.c: oc_ri_add_timed_event_callback_ticks, oc_ri_remove_timed_event_callback_by_filter, event_callbacks_poll_timers", "include/oc_api.h: oc_set_delayed_callback, oc_remove_delayed_callback, oc_remove_delayed_callback_by_filter"]}
{"id": "C62", "title": "Periodic notifications follow the observers", "statement": "A periodically observed resource has at most one periodic callback; it has one as long as it has an observer and exists, and none afterwards.", "quantifier": "all histories of adding and deleting resources, registering and cancelling observations, expiring timers and polls", "why_tests_cant": "Needs every order of registrations, cancellations, deletions and expiries.", "anchors": ["api/oc_event_callback.c: oc_periodic_observe_callback_add, oc_periodic_observe_callback_remove, periodic_observe_callback_handler", "api/oc_ri.c: ri_add_observation, ri_remove_observation, ri_delete_resource"]}
{"id": "C63", "title": "The handler of a client request runs as often as promised", "statement": "Every request a client makes is held until it is released, exactly once; its handler never runs after that. A handler runs with a response only if the response carries the token of its request. A request that is not an observation, a multicast, a discovery or a ping leads to at most one call of its handler and is scheduled for removal as long as it is pending.", "quantifier": "all histories of requests, responses, retransmission timeouts, session closures and timers, with handlers that make arbitrary further calls", "why_tests_cant": "Handlers change the list of requests while the library walks it; all orders of responses, timeouts and closures count.", "anchors": ["api/oc_client_api.c: oc_do_get, oc_do_delete, oc_init_post, oc_do_post, oc_do_observe, oc_stop_observe, oc_do_ip_multicast, oc_stop_multicast, oc_do_ip_discovery", "api/client/oc_client_cb.c: oc_ri_alloc_client_cb, oc_client_cb_free, oc_client_cb_invoke", "api/oc_ping.c: oc_send_ping", "messaging/coap/transactions.c"]}
{"id": "C64", "title": "Closing a session ends all requests to its peer", "statement": "When a call that closes a session returns, no unicast request to that peer is pending, and the handler of each that was pending has been called; the call returns.", "quantifier": "all states of the client, all handlers", "why_tests_cant": "The handlers called may make new requests to the same peer or close other sessions.", "anchors": ["security/oc_tls.c: oc_tls_close_connection, oc_tls_free_peer", "messaging/coap/transactions.c: coap_free_transactions_by_endpoint", "api/client/oc_client_cb.c: oc_ri_free_client_cbs_by_endpoint_v1"]}
{"id": "C65", "title": "Handlers of requests may use the client API", "statement": "Whatever requests a handler makes, cancels or sends, and if it closes a session, the library uses no request, transaction or buffer after it was released.", "quantifier": "all histories and all behaviours of handlers", "why_tests_cant": "Use after release depends on rare orders, e.g. a handler of a timed out request making a new one while another request to the peer is pending.", "anchors": ["api/client/oc_client_cb.c: oc_client_cb_invoke, client_cb_notify_with_code", "messaging/coap/transactions.c: coap_check_transactions, coap_send_transaction, coap_free_transactions_by_endpoint", "api/oc_ping.c: oc_remove_ping_handler_async"]}
{"id": "C66", "title": "The text of an endpoint stands for the endpoint", "statement": "Whenever the buffer is large enough, converting an endpoint to text writes exactly scheme, address and port, terminated, and returns its length; otherwise it returns -1; it never writes outside the buffer. Reading the text gives an endpoint with the same transport, address and port, which compares equal.", "quantifier": "all endpoints with an IPv4 or IPv6 address, all ports, all buffers", "why_tests_cant": "All addresses and all buffer sizes; IPv6 texts have many shapes.", "anchors": ["api/oc_endpoint.c: oc_endpoint_to_cstring, oc_endpoint_to_string64, oc_endpoint_to_string, oc_string_to_endpoint", "port/common/oc_ip.c: oc_ipv4_address_and_port_to_string, oc_ipv6_address_and_port_to_string"]}
{"id": "C67", "title": "Endpoint texts are read as URIs", "statement": "A text of one of the four CoAP schemes, an address (dotted decimal, or IPv6 groups in brackets with or without '::') or a resolvable name, an optional port and an optional path is read as exactly that transport, address, port (or the default port) and path. Any other text is read without leaving its memory.", "quantifier": "all texts, all answers of the name resolver", "why_tests_cant": "The texts come from the network and from users; all lengths, all positions of colons and slashes.", "anchors": ["api/oc_endpoint.c: oc_string_to_endpoint, parse_endpoint_flags, parse_endpoint_uri, oc_parse_ipv4_address, oc_parse_ipv6_address, hex_to_bin"]}
{"id": "C68", "title": "Comparing endpoints", "statement": "Two endpoints compare equal exactly if transport, device, address and port agree and their TCP sessions do not differ; the comparison is reflexive for IP endpoints, symmetric and transitive. Link-local addresses are recognised.", "quantifier": "all pairs and triples of endpoints", "why_tests_cant": "All combinations of flags, sessions and addresses sharing one union.", "anchors": ["api/oc_endpoint.c: oc_endpoint_compare, oc_endpoint_compare_address, oc_ipv6_endpoint_is_link_local"]}
{"id": "C69", "title": "The path of an endpoint text", "statement": "Extracting the path of 'scheme://host/path?query' gives '/path', for every text; texts without path are refused.", "quantifier": "all texts", "why_tests_cant": "All positions of the separators.", "anchors": ["api/oc_endpoint.c: oc_endpoint_string_parse_path"]}
{"id": "C70", "title": "The list of cloud servers", "statement": "The list never holds two servers with the same address; exactly one server is selected as long as there is any. Adding appends, removing a server removes only it, and if it was the selected one, its successor (or the first) is selected; selecting the next one goes around the whole list. The application is told of every change of the selected server.", "quantifier": "all histories of adding, removing, selecting, clearing and initialising, all addresses, all moments of memory exhaustion", "why_tests_cant": "The selection is a pointer into the list; its validity depends on the whole history.", "anchors": ["util/oc_endpoint_address.c: oc_endpoint_addresses_init, oc_endpoint_addresses_add, oc_endpoint_addresses_remove, oc_endpoint_addresses_remove_by_uri, oc_endpoint_addresses_clear, oc_endpoint_addresses_select, oc_endpoint_addresses_select_by_uri, oc_endpoint_addresses_select_next, oc_endpoint_addresses_selected"]}
{"id": "C71", "title": "The cloud configuration survives restarts", "statement": "After a restart the device has the tokens, user, provider, provisioning status and cloud servers it had; the selected server is still selected; it is registered exactly if it was.", "quantifier": "all configurations, all lists of servers", "why_tests_cant": "The servers are written in two different forms (selected one, list) and read back through the functions that add servers; all lists count.", "anchors": ["api/cloud/oc_cloud_store.c: oc_cloud_store_encode, oc_cloud_store_decode, oc_cloud_store_load", "api/cloud/oc_cloud_endpoints.c: oc_cloud_endpoint_addresses_set", "util/oc_endpoint_address.c: oc_endpoint_addresses_encode", "api/cloud/oc_cloud_context.c: cloud_context_init"]}
{"id": "C72", "title": "Retries to the cloud follow the configured timeouts", "statement": "The timeouts of retries that were set are the ones read back, and a refused call changes nothing. The k-th try to register, log in or refresh waits between half of the k-th timeout and all of it; the request may take that timeout; after the last one the next server is selected.", "quantifier": "all lists of timeouts, all states of the client, all random numbers", "why_tests_cant": "Timeouts, counters and random delays combine without bound.", "anchors": ["api/cloud/oc_cloud_schedule.c: oc_cloud_set_retry_timeouts, oc_cloud_get_retry_timeouts, cloud_schedule_action", "include/oc_cloud.h: oc_cloud_set_schedule_action"]}
{"id": "C73", "title": "Every cloud server is tried before registering fails", "statement": "If a provisioned device is started and no server answers, every configured server is sent as many requests to register as there are timeouts, in the order of the list beginning with the selected one; only then registering fails.", "quantifier": "all lists of servers, all lists of timeouts, all kinds of failure", "why_tests_cant": "The walk goes through callbacks, responses and restarts; all lengths of both lists count.", "anchors": ["api/cloud/oc_cloud_manager.c: cloud_manager_register_async, cloud_manager_register_handler, cloud_manager_reconnect_async", "api/cloud/oc_cloud.c: oc_cloud_manager_start, oc_cloud_manager_restart", "api/cloud/oc_cloud_context.c: oc_cloud_registration_context_init"]}
{"id": "C74", "title": "The cloud status is consistent", "statement": "A device that is logged in is registered, and a registered device has a refresh token and a user identifier, whatever the cloud answers and in whatever order calls, responses, timers and session events come; nothing undefined happens.", "quantifier": "all histories of calls, responses (any code and payload), timers, session and network events", "why_tests_cant": "The status is changed by some thirty functions called in any order.", "anchors": ["api/cloud/oc_cloud.c", "api/cloud/oc_cloud_manager.c", "api/cloud/oc_cloud_apis.c", "api/cloud/oc_cloud_deregister.c", "api/cloud/oc_cloud_context.c"]}
{"id": "C75", "title": "Tokens are refreshed in time and the connection is kept alive", "statement": "The refresh of a token is scheduled before its end, with a margin that grows with its lifetime; a device that logged in sends pings, and reconnects exactly after as many lost pings in a row as there are timeouts.", "quantifier": "all lifetimes, all lists of timeouts", "why_tests_cant": "All lifetimes; counting of consecutive losses.", "anchors": ["api/cloud/oc_cloud_manager.c: cloud_manager_calculate_refresh_token_expiry, cloud_manager_login_handler, cloud_manager_send_ping_async, cloud_manager_ping_handler, on_keepalive_response_default"]}
{"id": "C76", "title": "Redirection by the cloud is followed", "statement": "A response to registering that redirects to another server makes that server the selected one, removes the old one, keeps all others, and leads to a new connection; the device then has the tokens of the response.", "quantifier": "all responses, all lists of servers, all moments of memory exhaustion", "why_tests_cant": "All combinations of the list and the redirect.", "anchors": ["api/cloud/oc_cloud_manager.c: cloud_manager_handle_redirect_response, cloud_manager_handle_register_response"]}
{"id": "C77", "title": "Deregistering ends in an unregistered device", "statement": "After a deregistration that the cloud confirmed, or whose connection was lost, the device is not registered; a deregistration that was started comes to an end.", "quantifier": "all states of the client, all responses", "why_tests_cant": "The deregistration may first refresh a token or log in; all orders of failures count.", "anchors": ["api/cloud/oc_cloud_deregister.c: oc_cloud_deregister, cloud_deregister_refresh_token, cloud_deregister_login"]}
{"id": "C78", "title": "Tokens only go to configured servers", "statement": "Every request of the cloud client goes to a server that is in the list of servers at the time it is sent.", "quantifier": "all histories of provisioning, redirection, removal, retries and restarts", "why_tests_cant": "An endpoint resolved earlier may outlive its server in the list.", "anchors": ["api/cloud/oc_cloud.c: oc_cloud_set_endpoint, oc_cloud_reset_endpoint", "api/cloud/oc_cloud_access.c: oc_cloud_access_register, oc_cloud_access_login, oc_cloud_access_refresh_access_token, oc_cloud_access_deregister", "api/cloud/oc_cloud_apis.c"]}
{"id": "C79", "title": "JSON payloads are decoded to what they say", "statement": "The JSON text of an object, or of a nonempty array of objects, with any white space, is decoded to exactly its members in order: names, null, booleans, 64-bit integers, strings without escape sequences, arrays of one type and nested objects. The empty array is reported as such.", "quantifier": "all object texts: any length, any nesting, any white space between tokens", "why_tests_cant": "The decoder works on tokens handed over while the text is scanned, recursively and twice for arrays; all nestings and separators count.", "anchors": ["api/oc_rep_decode_json.c: oc_rep_parse_json, json_parse_token, json_parse_array, json_parse_object", "util/jsmn/jsmn.c: jsmn_parse"]}
{"id": "C80", "title": "Any bytes can be given to the JSON decoder; cut texts are refused", "statement": "Decoding bytes as JSON reads only these bytes, ends, and gives a representation or an error. A text that ends before the last brace of an object is refused.", "quantifier": "all byte strings; all object texts and all places to cut them", "why_tests_cant": "Payloads come from the network; malformed ones are unbounded in number.", "anchors": ["api/oc_rep_decode_json.c: oc_rep_parse_json, json_parse_array_object, json_parse_object", "util/jsmn/jsmn.c: jsmn_parse, jsmn_parse_string, jsmn_parse_primitive"]}
{"id": "C81", "title": "The JSON encoder stays inside its buffer and never reports a cut text", "statement": "Whatever calls are made to the JSON encoder, in whatever order and with whatever size of buffer (fixed or growing to a maximum), nothing is written outside of it. The calls for an object give its JSON text if that fits, and an error otherwise; an error stays.", "quantifier": "all sequences of calls, all sizes of buffer, all objects", "why_tests_cant": "The buffer may be reallocated in any call, while containers are open; all sizes count.", "anchors": ["api/oc_rep_encode_json.c", "api/oc_rep_encode.c", "api/oc_rep.c: oc_rep_new_realloc_v1"]}
{"id": "C82", "title": "What is encoded as JSON is decoded again to the same", "statement": "If an object is encoded as JSON and the encoder reports success, decoding the payload gives exactly the object.", "quantifier": "all objects, all sizes of buffer", "why_tests_cant": "All values, nestings and buffer sizes.", "anchors": ["api/oc_rep_encode_json.c", "api/oc_rep_decode_json.c"]}
{"id": "C83", "title": "Resources have unique URIs and are found by them", "statement": "After every history of registering, deleting and later deleting resources and collections, two that are registered on a device have different URIs, none has the URI of a resource of the framework, each is found by its path with or without the leading slash, what is found is registered on the device under that path, and a deleted one is not found. The URI of a resource waiting for deletion cannot be registered again.", "quantifier": "all histories of registrations and deletions, all URIs, all request paths", "why_tests_cant": "Histories and paths are unbounded; the lookup is case by case over three lists.", "anchors": ["api/oc_ri.c: oc_ri_add_resource, oc_ri_URI_is_in_use, oc_ri_get_app_resource_by_uri, oc_delayed_delete_resource", "api/oc_collection.c: oc_collection_add, oc_get_collection_by_uri", "api/oc_resource.c: oc_resource_get_by_uri", "api/oc_core_res.c: oc_core_get_resource_by_uri_v1"]}
{"id": "C84", "title": "A handler runs only for a request that passes every check, and a refused one gets the right code", "statement": "The handler of a resource runs exactly if the path leads to it, the interface asked for (or the default one) belongs to the resource and allows the method, access is granted, the content format is readable, there is a handler for the method, the payload decodes, there is memory and the client's ETag is not current. Otherwise nothing changes and the client gets the code of the first reason: 4.04, 4.03, 4.01, 4.00, 4.05.", "quantifier": "all requests (paths, queries, options, payloads), all resources, all access control decisions", "why_tests_cant": "The number of combinations of options, interfaces, methods and permissions is unbounded; queries are arbitrary texts.", "anchors": ["api/oc_ri.c: ri_parse_coap_request_header, ri_invoke_handler, oc_ri_get_interface_mask, oc_ri_interface_supports_method", "messaging/coap/engine.c: coap_receive_request_with_method"]}
{"id": "C85", "title": "Multicast requests reach the devices they name and are never answered with an error", "statement": "A multicast request whose query names devices with di is handled by exactly these; a device that is not meant, or that would refuse or fail the request, sends nothing.", "quantifier": "all queries, all device identifiers, all results of handlers", "why_tests_cant": "Queries are arbitrary texts with any number of keys.", "anchors": ["api/oc_ri.c: oc_ri_filter_request_by_device_id, ri_validate_coap_set_response, ri_invoke_coap_entity_handler"]}
{"id": "C86", "title": "The Observe option of an answer tells the truth, and changes are notified", "statement": "An answer carries the Observe option exactly if the client was registered as an observer by the request. A cancelled observation is gone. Errors change nothing. After a successful PUT or POST the observers of the resource are notified, and only then.", "quantifier": "all requests, all results of handlers, all resources", "why_tests_cant": "All combinations of method, code, options and allocation failures.", "anchors": ["api/oc_ri.c: ri_handle_observation, ri_add_observation, ri_remove_observation, ri_invoke_coap_entity_set_response"]}
{"id": "C87", "title": "The payload of an answer is in the format its content format names", "statement": "For every Accept option the payload of an answer is encoded in the format that the answer's Content-Format names, the one asked for, whatever was encoded before.", "quantifier": "all values of the Accept option, all previous states of the encoder", "why_tests_cant": "The encoder is global state shared by all requests.", "anchors": ["api/oc_rep_encode.c: oc_rep_encoder_set_type_by_accept", "api/oc_server_api.c: oc_send_response_with_callback", "messaging/coap/coap.c: coap_parse_is_valid_accept_option"]}
{"id": "C88", "title": "Separate responses use their memory correctly", "statement": "For an application that, after indicating a separate response, fills in and sends the response only while its handle is marked active, and sends only proper status codes, no history of requests (with any pattern of failing allocations) makes the stack use or free the payload buffer wrongly; the request records held are exactly those of the waiting requests; with memory for everything no buffer is lost. (An invalid status leaves an active handle with a freed buffer; sending again with an idle handle frees twice; an allocation failing half-way loses the buffer.)", "quantifier": "all histories of requests, writes and sends on a handle, all patterns of failing allocations", "why_tests_cant": "use after free and leaks depend on the interleaving of requests, failures and sends over an unbounded history", "anchors": ["messaging/coap/separate.c: coap_separate_accept, coap_separate_clear", "api/oc_server_api.c: oc_send_separate_response, oc_set_separate_response_buffer, oc_indicate_separate_response"]}
{"id": "C89", "title": "Every client waiting for a separate response gets exactly one answer", "statement": "When requests postponed with one handle are finally answered, each confirmable request has been acknowledged once and each recorded request gets exactly one answer, at its endpoint, with its token, status and payload (or its first block), in order of arrival, and the handle can be used again. (Two clients using the same token are confused; a request that cannot be recorded is never answered although 5.03 is promised; a client with an unfinished block-wise answer is skipped and a transaction lost; the answer to an observe registration lacks the Observe option.)", "quantifier": "all earlier histories of the handle, all lists of distinguishable requests, all allocation failures, codes and payload lengths", "why_tests_cant": "the number of waiting requests, their order and the failures in between are unbounded", "anchors": ["messaging/coap/separate.c: coap_separate_accept, coap_separate_resume", "api/oc_server_api.c: handle_separate_response_request, oc_send_separate_response", "messaging/coap/separate_internal.h"]}
{"id": "C90", "title": "No session event is lost, repeated or invented", "statement": "Whatever the interleaving of the network threads that raise connect and disconnect events of TCP sessions with the main loop, the events of each kind are delivered in the order in which they were queued, each exactly once; after the last event only finitely many steps remain and then everything has been delivered. (The connection of a session can be delivered after its disconnection; connections waiting when the stack is shut down are kept for ever; running out of memory is not checked.)", "quantifier": "all schedules of any number of network threads, the main loop and its timers", "why_tests_cant": "lost wake-ups and reorderings show only in particular interleavings of atomic steps", "anchors": ["api/oc_session_events.c: oc_session_start_event, oc_session_end_event, oc_process_session_event, free_session_state_delayed", "util/oc_process.c: oc_process_poll, do_poll, oc_process_run"]}
{"id": "C91", "title": "Session callbacks are called once each and can be managed safely", "statement": "An event is delivered to every registered callback exactly once, in the order of registration, with its own data; removing takes away exactly the first matching registration; handlers may add callbacks and remove those of other handlers while an event is delivered. (A handler that removes itself makes the stack read freed memory.)", "quantifier": "all lists of callbacks and all handler behaviours", "why_tests_cant": "handlers that change the list while it is traversed are schedule dependent, the number of callbacks is unbounded", "anchors": ["api/oc_session_events.c: handle_session_event_callback, session_event_add_callback, session_event_remove_callback, oc_session_event_callback_find"]}
{"id": "C92", "title": "The synchronised time of a device is right and survives restarts", "statement": "A device that is told the real time now and then shows exactly the real time until its next restart or reset, and is never ahead of real time after any history of synchronisations, resets and restarts (with or without successful writes to the storage); the stored time comes back exactly after a restart, marked as coming from storage. (The time shown goes back at a restart; a reset calls the function that sets the system clock with the largest clock value.)", "quantifier": "all histories until the year 9999 in microseconds", "why_tests_cant": "histories are unbounded, times are 64-bit numbers that pass through a text format", "anchors": ["api/plgd/plgd_time.c: plgd_time_set_time, plgd_time, plgd_time_load, plgd_time_dump"]}
{"id": "C93", "title": "The resource of the synchronised time does what it answers", "statement": "A POST that cannot be understood is refused with 4.00 and changes nothing; a POST of a time answers 2.04, sets the time, shows it and stores it in a text that reads back as the same time; clients without a secure connection are shown the current time only. (The first instant of 1970 resets the time; a time before 1970 is answered with 5.00 but set, and afterwards the resource cannot be read.)", "quantifier": "all payloads, states and clock readings", "why_tests_cant": "payload times are arbitrary texts", "anchors": ["api/plgd/plgd_time.c: plgd_time_resource_post, plgd_time_resource_get, plgd_time_encode, plgd_time_decode, plgd_time_status_to_str"]}
{"id": "C94", "title": "A message is deallocated exactly once, after its last reference", "statement": "Whatever the interleaving of the threads that add and give back references of a message, it is never used after deallocation, is deallocated exactly when the last reference is given back, exactly once; a call that is not disturbed ends after two accesses; its bytes always fit its buffer. (The count has eight bits: with 257 references a message is deallocated while in use, with 256 it is never deallocated.)", "quantifier": "all schedules of atomic accesses of any number of threads", "why_tests_cant": "interleavings of threads cannot be enumerated by tests", "anchors": ["api/oc_message.c: oc_message_add_ref, oc_message_unref, oc_message_shrink_buffer", "util/oc_atomic.h"]}
{"id": "C95", "title": "Received messages are queued without loss, and a device that stops listening because its queue is full is always woken", "statement": "Each message accepted from the network is delivered to the handler exactly once in the order of acceptance unless it is dropped on request; no device ever has more than the configured number of messages waiting; and whatever the interleaving of the network threads, the main loop and requests to drop messages, when everything has come to rest every network thread listens to its sockets again and nothing is waiting.", "quantifier": "all schedules of any number of network threads, the main loop and drop requests, all queue sizes", "why_tests_cant": "lost wake-ups are schedule dependent", "anchors": ["port/linux/ipadapter.c: network_event_thread, process_events, oc_connectivity_wakeup", "api/oc_network_events.c: oc_network_receive_event, oc_process_network_event, send_wakeup_signal, oc_network_drop_receive_events"]}
{"id": "C96", "title": "The links of a collection are complete and in a fixed order, and are found by path", "statement": "After every history of adding and removing links, a collection has exactly the links that were added and not removed, ordered by the length of the URI, then by its bytes, then by when they were added; a link is found by the path of its resource, with or without leading slashes, and only then. (Adding a link twice makes the list endless or loses another link.)", "quantifier": "all histories of adding and removing links, all URIs", "why_tests_cant": "histories and URIs are unbounded; the place of a link depends on all others", "anchors": ["api/oc_collection.c: oc_collection_add_link, oc_collection_remove_link, oc_get_link_by_uri", "util/oc_list.c: oc_list_insert"]}
{"id": "C97", "title": "No collection links a deleted resource", "statement": "When a resource is deleted, no collection has a link to it afterwards, and the links to all other resources stay. (A second link of the same collection, the links of collections of other devices, and the links to a deleted collection stay and lead to freed memory; a link to another resource with the same path can be removed instead.)", "quantifier": "all sets of collections and links", "why_tests_cant": "the number of collections and links and their sharing is unbounded", "anchors": ["api/oc_ri.c: ri_delete_resource", "api/oc_collection.c: oc_get_next_collection_with_link, oc_collection_remove_link_and_notify, collection_free"]}
{"id": "C98", "title": "Requests through a collection reach only resources the client may access", "statement": "Whatever is sent to a collection through whatever interface, with collections linked in each other to any depth, the handler of a linked resource is called only for the method of the request and only if access control permits that method on that very resource at that moment. (The interface of the resource is not respected: a batch request changes a sensor that a direct request cannot change.)", "quantifier": "all requests, payloads, links, nestings, access decisions that may change from call to call", "why_tests_cant": "links, nesting and payloads are unbounded", "anchors": ["api/oc_collection.c: oc_handle_collection_request, collection_batch_request_process_links, collection_invoke_handler"]}
{"id": "C99", "title": "A batch request does what it says and its answer tells the truth", "statement": "A GET or DELETE through the batch interface visits every linked resource that passes the filter exactly once per link, in order, and succeeds exactly if there is one and all succeeded. The items of a PUT or POST reach exactly the links they name, each with its own payload, in order. The list interfaces list exactly the links that pass the filter. (The code of a PUT or POST depends on its last item alone; which link an item names is taken from its last text, whatever it is called; an item without payload gets the one of an earlier item; items before a malformed one stay applied; an empty collection answers 4.00; a successful POST to the baseline interface answers 4.00; errors in a linked collection are not seen.)", "quantifier": "all collections of any number of links, all lists of items, all results of handlers", "why_tests_cant": "the numbers of links and items are unbounded and results may depend on history", "anchors": ["api/oc_collection.c: oc_handle_collection_batch_request, collection_batch_request_process_links, oc_handle_collection_baseline_request, oc_handle_collection_request", "api/oc_core_res.c: oc_filter_resource_by_rt"]}
{"id": "C100", "title": "A request to a collection ends", "statement": "Every request to a collection ends, whatever collections are linked in collections. (Two collections that link each other with the batch interface as the default never finish.)", "quantifier": "all finite depths of nesting, all requests", "why_tests_cant": "nesting is unbounded", "anchors": ["api/oc_collection.c: oc_handle_collection_request, collection_batch_request_process_links"]}
{"id": "C101", "title": "Arrays of strings keep what is added", "statement": "A new array of any size has only free places whatever the memory contained; a text or byte string of at most 127 bytes is put into the first free place and read back unchanged, the other places are not affected; longer ones, or any when no place is free, are refused and change nothing; after any history of additions the array holds the accepted texts in their order. (An index outside the array is not refused when setting a text.)", "quantifier": "all sizes, all texts and byte strings, all histories of additions, all earlier contents of the memory", "why_tests_cant": "sizes, texts and histories are unbounded; overruns depend on uninitialised memory", "anchors": ["api/oc_helpers.c: _oc_alloc_string_array, _oc_copy_string_to_array, _oc_string_array_add_item, _oc_copy_byte_string_to_array, _oc_byte_string_array_add_item", "include/oc_helpers.h: oc_string_array_get_item_size"]}
{"id": "C102", "title": "Joining, setting, concatenating and comparing strings", "statement": "Joining an array gives its texts with one space between them in exactly the memory allocated; setting and concatenating give exactly the bytes and a terminating zero; two strings compare equal exactly if their bytes are the same, a missing one counting as empty. (Joining an array without texts fails an assertion; setting a string to a part of itself reads freed memory.)", "quantifier": "all arrays and strings of bytes", "why_tests_cant": "lengths are unbounded and off-by-one errors show only at the end of the memory", "anchors": ["api/oc_helpers.c: oc_join_string_array, oc_set_string, oc_new_string, oc_concat_strings, oc_string_view_is_equal, oc_string_is_equal"]}
{"id": "C103", "title": "The device keeps track of what it publishes to the cloud", "statement": "After every history of adding, removing and deleting resources, answers of the cloud, changes of the connection and failing requests, the cloud client keeps exactly the resources that were added and not removed, each once and all of them existing; every published resource that is removed gives exactly one instance id to remove at the cloud, in the order of removal, none twice and none lost until the context is reset. (Deleting a collection that was added leaves a pointer to freed memory that is read at the next publication.)", "quantifier": "all histories of operations, answers, connection changes and failures to send", "why_tests_cant": "the histories are unbounded and mix answers, failures and deletions", "anchors": ["api/cloud/oc_cloud_rd.c: oc_cloud_add_resource, oc_cloud_delete_resource, cloud_publish_resources_handler, cloud_rd_manager_status_changed, cloud_rd_reset_context", "api/oc_collection.c: oc_delete_collection"]}
{"id": "C104", "title": "Requests to the directory of the cloud say what they should", "statement": "A publication lists exactly the resources that wait for it, with their URIs; nothing is sent unless the device is logged in and in normal operation; on logging in, everything that waits is published and a removal is sent; a removal names at least one instance id (without any the cloud would remove everything), the first ones that wait, and never more than fit the header.", "quantifier": "all states, all lists of waiting resources and ids, all sizes of the header", "why_tests_cant": "lists and digits of ids are unbounded, the boundary of the buffer depends on all of them", "anchors": ["api/cloud/oc_cloud_rd.c: cloud_publish_resources, cloud_delete_resources", "api/cloud/rd_client.c: rd_publish, rd_delete, rd_delete_fill_uri_query"]}
{"id": "C105", "title": "The directory at the cloud becomes the list of published resources", "statement": "When all requests and answers have arrived, the cloud lists exactly the resources the device has added and not deleted, and nothing waits. (A resource deleted while its publication is unanswered stays at the cloud for ever, also after a periodic publication; a resource removed while logged out and added again is published and then removed; a removal lost with the connection is not sent again.)", "quantifier": "all interleavings of the device, the cloud and messages on their way", "why_tests_cant": "interleavings of operations with messages on their way are unbounded", "anchors": ["api/cloud/oc_cloud_rd.c: cloud_publish_resources_handler, delete_resources_handler, publish_published_resources", "api/cloud/rd_client.c: rd_publish, rd_delete"]}
{"id": "C106", "title": "Only proper certificates of certification authorities are accepted", "statement": "A certificate above the last one of a chain is accepted only if it has version 3, a signature and key with allowed algorithms (never others than SHA-256/384 and P-256/384), is marked as a CA with the key usages of a CA and a path length sufficient for its place; it is accepted as a root exactly if it is self-issued and as an intermediate otherwise. (The code compares the lengths of the names only, so another CA can pass as a root; a certificate with an RSA key or a very long issuer name makes it read invalid memory.)", "quantifier": "all certificates, configurations and depths", "why_tests_cant": "certificates come from peers that are not trusted, the fields are independent and unbounded", "anchors": ["security/oc_certs_validate.c: validate_x509v1_fields, oc_certs_validate_non_end_entity_cert", "security/oc_certs.c: oc_sec_certs_md_set_algorithms_allowed, oc_sec_certs_ecp_set_group_ids_allowed"]}
{"id": "C107", "title": "Only proper certificates of devices and roles are accepted", "statement": "A certificate is accepted for a device exactly if it has version 3, allowed algorithms, exactly the usages digitalSignature and keyAgreement, is no CA, and lists server and client authentication and the identity purpose but neither the role purpose nor any purpose; the same for roles with the purposes exchanged; none is accepted for both.", "quantifier": "all certificates with a key on an elliptic curve, all configurations", "why_tests_cant": "the combinations of fields are unbounded", "anchors": ["security/oc_certs_validate.c: oc_certs_validate_end_entity_cert, oc_certs_validate_role_cert"]}
{"id": "C108", "title": "A peer is accepted only with a checked chain and an authorising trusted CA", "statement": "If a handshake is accepted, all certificates of the chain are found good by the TLS library, in their period of validity and proper CA and device certificates; a device with an identity certificate accepts only peers with a chain containing a trusted CA of this device that names the peer or everybody, and accepts every peer with such a proper chain. (If a CA of a manufacturer or of another device is known, a peer no CA names is accepted; a CA found in one handshake is used in later ones, also for other chains and after it has been freed.)", "quantifier": "all chains of any length, all sets of CAs, all callbacks of the application that do not clear flags", "why_tests_cant": "chains and sets of CAs are unbounded and earlier handshakes matter", "anchors": ["security/oc_tls.c: verify_manufacturer_or_identity_certificate, tls_verify_certificate, oc_tls_remove_trust_anchor", "security/oc_pki.c: default_verify_certificate_cb"]}
{"id": "C109", "title": "The identity of a peer is the UUID its certificate names", "statement": "The UUID of a common name is the text of 36 characters after the first uuid:, there is none if fewer follow; the name the library writes for a UUID is read back as this UUID. (A text that is no UUID leaves the identity as it was before; the wildcard is written but cannot be read back; bytes above 127 are undefined behaviour.)", "quantifier": "all common names, all UUIDs", "why_tests_cant": "texts are unbounded and come from the peer", "anchors": ["security/oc_certs.c: oc_certs_parse_CN_buffer_for_UUID, certs_find_uuid_prefix, oc_certs_encode_CN_with_UUID, oc_certs_extract_CN_for_UUID"]}
{"id": "C110", "title": "A role is given only to the client its certificate names", "statement": "A client is given a role only for a valid role certificate, signed by a known CA, that names the client's UUID and, if the key of the client is known, has its key, and only the role the certificate names, none of the reserved ones except for the owner; such a client is given it; with a valid owner role it has all permissions, otherwise those of its valid roles, and roles that have become invalid give nothing. (CAs of other devices and of manufacturers count too; a longer key makes the comparison read before the client's key; a UUID in upper case letters is refused.)", "quantifier": "all certificates, clients, lists of roles and CAs", "why_tests_cant": "certificates and lists are unbounded, validity changes with time", "anchors": ["security/oc_cred.c: oc_sec_verify_role_cred, check_uuid_from_cert_raw, check_role_assertion", "security/oc_certs.c: oc_certs_parse_role_certificate, certs_extract_first_role", "security/oc_acl_util.c: get_peer_permissions"]}
{"id": "C111", "title": "Times of certificates are converted exactly", "statement": "The time of a certificate is converted to the seconds since 1970 by the Gregorian calendar, for every existing date and time from 1970 to 9999. (Before 1970 the result is wrong by a day in most years.)", "quantifier": "all dates and times", "why_tests_cant": "leap years and month lengths make sampled dates inconclusive", "anchors": ["security/oc_certs.c: oc_certs_time_to_unix_timestamp"]}
{"id": "C112", "title": "The directory of a device lists exactly its discoverable resources", "statement": "A discovery request is answered with a link for exactly those resources of the device that are discoverable and have a type asked for, none twice, each with exactly those endpoints of the device that the sender can reach, without plain ones for resources that must be secured; a request for another security domain, or to a device that keeps its domain private, is never answered; a multicast request that matches nothing is not answered, a unicast one gets 4.00; representations are never sent in a batch over a connection without security. (Over the baseline interface a multicast request that matches nothing is answered with 2.03 Valid by every device.)", "quantifier": "all devices, sets of resources and endpoints, all requests", "why_tests_cant": "the sets of resources, types and endpoints are unbounded and filters combine", "anchors": ["api/oc_discovery.c: discovery_resource_get, discovery_encode, discovery_check_sduuid, discovery_encode_endpoints"]}
{"id": "C113", "title": "A client that asks for increments is up to date after each answer", "statement": "In every history of changes, creations, deletions and restrictions of access, a client that keeps what it is sent and asks for the increments since any of the ETags it was sent has, right after each answer, the current representation of every resource it may read; a request without increments is answered with everything; an answer starts from the greatest ETag sent that some resource still has. (A resource the client may read only later, and the deletion of a resource, are never told; paths that differ after 256 bytes are confused.)", "quantifier": "all histories of changes and requests, all sets of ETags sent", "why_tests_cant": "histories are unbounded; an increment is right only relative to everything sent before", "anchors": ["api/oc_discovery.c: discovery_process_batch_request, discovery_find_incremental_updates_etag, discovery_batch_has_resource_with_etag, oc_discovery_get_batch_etag", "api/oc_etag.c: oc_etag_get"]}
{"id": "C114", "title": "A client learns exactly what a device publishes", "statement": "A client that gets the directory of a device, as links or over the baseline interface, calls its handler once for every published resource that has an endpoint, in order, with the identity of the device, the path, types, public interfaces, policy and endpoints of that resource; a handler that stops is not called again; no endpoint is leaked; and every array with proper anchors is read safely. (A map with a number or a short anchor makes the client read invalid memory; a link that omits its types gets those of the link before; other orders or names of properties lose interfaces, identities or endpoints; the last call may promise more.)", "quantifier": "all directories, all handlers, all arrays from the network", "why_tests_cant": "payloads come from any host on the network and are unbounded", "anchors": ["api/oc_discovery.c: oc_discovery_process_payload", "api/oc_endpoint.c: oc_string_to_endpoint, oc_endpoint_to_string64"]}
{"id": "C115", "title": "Messages over TLS are delivered one by one, whatever the records", "statement": "For every sequence of CoAP messages a peer sends over a TLS connection over TCP, each of more than six bytes and at most the largest PDU, however it cuts them into records and however records and readers interleave, with or without free memory: nothing is written outside of a buffer, the connection stays open, and the messages delivered are the first ones sent, in order and unchanged; as many calls of the reader as messages arrived deliver them all; a longer message closes the connection. (A two-byte CSM followed by a request is written behind the buffer; a six-byte message blocks the connection for ever; the second of two messages in one record waits for the next record.)", "quantifier": "all sequences of messages, all cuts into records, all schedules of the reader, all failures of allocation", "why_tests_cant": "the cuts and schedules are unbounded", "anchors": ["security/oc_tls.c: read_application_data_tcp, oc_tls_on_tcp_recv"]}
{"id": "C116", "title": "A TLS connection offers the cipher suites and identity its state demands", "statement": "For every history of choices of suites, identities and connections: a connection is set up exactly when the device has what its role needs; a server accepts the suite of the selected method while it waits for its owner, the suites chosen by the application for that connection, or the default ones; an anonymous peer is accepted only by the just-works method or by choice; a client uses the chosen suites, a pre-shared key if that is the first credential of the peer, or certificates; it presents the chosen or the first identity; at most one connection transfers ownership. (A choice is a global variable consumed by whichever connection is set up next, so a stranger that connects first is accepted anonymously, checked by the rules for a cloud or shown the chosen identity.)", "quantifier": "all histories of choices and connections, all device states", "why_tests_cant": "the choice lives in global variables between asynchronous calls", "anchors": ["security/oc_tls.c: oc_tls_set_ciphersuites, oc_tls_add_new_peer, oc_tls_select_*_ciphersuite, oc_tls_populate_ssl_config"]}
{"id": "C117", "title": "A pre-shared key is used exactly with the peer it is stored for", "statement": "For every identity a peer sends and all credentials of the device: the handshake uses the key of the first pre-shared key for exactly that identity, and the peer counts as it; else the key of the PIN if the device waits for its owner by that method; else it is refused. Whatever is sent, a handshake goes on only with one of these two. Two devices with the same key for one another agree, and so do a tool and a device on the PIN. (An identity of another length than 16 bytes is completed with what follows in the record, cut, or read behind the end of the buffer; all devices share one PIN.)", "quantifier": "all identities, all credentials, all histories", "why_tests_cant": "identities come from the network", "anchors": ["security/oc_tls.c: get_psk_cb, oc_tls_get_psk, oc_tls_generate_random_pin, oc_tls_use_pin_obt_psk_identity"]}
{"id": "C118", "title": "Owner and device derive the same key from their session", "statement": "For every session with secret material, every suite and all identifiers: the pseudo-random function is P_SHA256 of RFC 5246 for every length, the key shared with the owner is derived with it from the key block of the session over the name of the method, the owner and the device, tool and device get the same 16 bytes, and without such a session there is no key. (Over four of the suites a device accepts by default the key does not depend on the session: it is computable from public identifiers; without memory an uninitialised context is freed.)", "quantifier": "all sessions, suites, identifiers and lengths", "why_tests_cant": "keys of all lengths and all sessions cannot be enumerated", "anchors": ["security/oc_tls.c: oc_tls_prf, oc_sec_derive_owner_psk", "security/oc_cred.c: oc_sec_decode_cred", "security/oc_obt_otm_justworks.c", "security/oc_obt_otm_randompin.c", "security/oc_obt_otm_cert.c"]}
{"id": "C119", "title": "A software update is done once, at its time, with the URL the application accepted", "statement": "For every history of requests, time, reports of the application, failing allocations and restarts: a request is accepted exactly if each of its properties may be set, with a value of the right form, a time that is not past and a URL the application accepts, and then sets exactly these; a refused one changes nothing; the application is called only with URLs it has accepted, empty ones or none; an arranged action is performed once, at the first moment at or after its time, and not before; the resource is stored whenever no save is pending and a device starts again with it and with the action arranged. (An empty URL, documented to keep the old one, replaces it; times before 1970 are accepted and put the action off for ever; a report of the application or the target mode in between drops or replaces the arranged action; actions of the target mode are not stored.)", "quantifier": "all requests, all histories of requests, time, reports and restarts", "why_tests_cant": "histories, times and payloads are unbounded", "anchors": ["api/oc_swupdate.c: oc_swupdate_decode, swupdate_decode_*, swupdate_check_data, oc_swupdate_copy, swupdate_perform_action, swupdate_try_execute_action, oc_swupdate_load, oc_swupdate_dump, oc_swupdate_notify_*"]}
{"id": "C120", "title": "The onboarding tool owns a device exactly when it says so, and tells once", "statement": "For every history of discoveries, transfers of ownership by any method, answers in any order and with any content, and changes of the devices, where one device is handled by one procedure at a time: no freed memory is used; the application is told the result of each procedure at most once, and once it is told success the device is owned by the tool, is in normal operation and shares the key kept by the tool; when every request has been answered no procedure is left; a device that was lost is forgotten; the credential of a PIN is removed. (Starting a procedure from the callback of the same device, two procedures for one device, endpoints that arrive late use freed memory, a PIN whose credential cannot be stored a null pointer; a call that returns -1 may have called back and dropped the device; the application is told another UUID than it asked for; a device discovered again during a transfer loses its secured endpoint; a transfer that fails late leaves a device owned by a tool that has dropped the key.)", "quantifier": "all histories of operations and answers of all devices, all numbers of devices", "why_tests_cant": "histories and interleavings of answers of several devices are unbounded", "anchors": ["security/oc_obt.c: oc_obt_perform_*, free_otm_state, obt_check_owned, get_endpoints, oc_obt_discover_*", "security/oc_obt_otm_justworks.c", "security/oc_obt_otm_randompin.c", "security/oc_obt_otm_cert.c"]}
{"id": "C121", "title": "Provisioning by the onboarding tool takes effect when it is reported", "statement": "For every such history of provisioning access control entries, pairwise keys and of hard resets: success is told only after the device was in provisioning mode, received the entry or its key and went back to normal operation, and for a reset only after it was reset; every procedure whose requests are answered ends and is told once. (Two resets of one device or a reset during provisioning use freed memory; a provisioning that fails leaves the device in provisioning mode; a reset of a device whose answer is lost is not reported although it happened.)", "quantifier": "all histories of operations and answers", "why_tests_cant": "the interleavings of several procedures with several devices are unbounded", "anchors": ["security/oc_obt.c: switch_dos, oc_obt_device_hard_reset, oc_obt_provision_ace, oc_obt_provision_pairwise_credentials"]}
{"id": "C122", "title": "Endpoint options of DHCP are read exactly", "statement": "The hexadecimal text of the vendor options is read to exactly the bytes it denotes, and what is written as such text is read back; a list of options is read exactly as its type, length and value records, of which the address and the fingerprint of the provisioning service and the hash are used; new values replace the old ones and say whether provisioning must be repeated. (Empty places between colons and odd digits are read as bytes; one foreign option makes the whole list refused; an address of 128 characters leaves the device without any address although provisioning is announced; a fingerprint alone removes the address in use, and without its algorithm the pinning.)", "quantifier": "all texts and option lists of any length", "why_tests_cant": "texts come from the network and are unbounded", "anchors": ["api/plgd/device-provisioning-client/plgd_dps_dhcp.c: plgd_dps_hex_string_to_bytes, dps_dhcp_parse_vendor_encapsulated_options, plgd_dps_dhcp_set_values_from_vendor_encapsulated_options"]}
{"id": "C123", "title": "Failed provisioning steps are repeated on the configured schedule", "statement": "After k failures in a row with n configured timeouts the step is tried again with the timeout k mod n of the configuration, after a random delay between half of it and all of it, and the endpoint is changed after each full round, k div n times; a configuration is accepted exactly if it has one to eight timeouts, none zero, and is read back unchanged. (An application that schedules retries itself and never ends the round makes an assertion fail at the ninth failure.)", "quantifier": "all configurations, all numbers of failures, all random numbers", "why_tests_cant": "the number of failures is unbounded", "anchors": ["api/plgd/device-provisioning-client/plgd_dps_retry.c"]}
{"id": "C124", "title": "With a pinned fingerprint only the pinned provisioning service is accepted", "statement": "Without a pinned fingerprint a handshake with the service is accepted exactly if the library and all checks of the chain accept it; with one it is accepted only if its chain is good or its own certificate is, or descends by signatures from, the pinned one. (With a pinned fingerprint the complaints about all but the server's own certificate are dropped: any chain of two certificates made by anybody is accepted, and so is any chain that contains a public copy of the pinned certificate.)", "quantifier": "all chains of any length, all flags found by the TLS library, all hashes", "why_tests_cant": "chains come from peers that are not trusted and are unbounded", "anchors": ["api/plgd/device-provisioning-client/plgd_dps_verify_certificate.c"]}
{"id": "C125", "title": "Certificates of the provisioning service are checked and renewed in time", "statement": "A certificate is classified as valid, not yet valid, expiring or expired exactly by the clock, its period and the configured limit; the check of credentials succeeds exactly if every certificate of the service is valid and there are an identity and a trust anchor, and removes exactly the credentials that are not; the renewal is scheduled before the end of the last certificate of every chain and not more often than every ten seconds. (The device's own certificate may expire years before the renewal since the last certificate of its chain counts; with a small limit the renewal comes after the end; without a readable clock all credentials are deleted.)", "quantifier": "all lists of credentials with chains of any length, all times and limits", "why_tests_cant": "lists, chains and times are unbounded", "anchors": ["api/plgd/device-provisioning-client/plgd_dps_pki.c: dps_pki_validate_certificate, dps_check_credentials_and_schedule_renewal, dps_pki_calculate_renew_certificates_interval", "api/plgd/device-provisioning-client/plgd_dps_security.c", "security/oc_cred.c: oc_cred_verify_certificate_chain"]}
{"id": "C126", "title": "The provisioning status is truthful and steps are done in order", "statement": "For every history of starts, stops, resets, answers in any order, timers in any order, connection and interface events: the steps reported as done are a prefix of time, owner, cloud, credentials, access control (unless a full provisioning was asked for), each was found done by the last start or its answer was applied since; a step is asked for only in normal operation when all steps before it are done and it is not; the cloud client is started by provisioning only when all are done and no error is reported; the third time-out in a row makes provisioning start over with the first step, fewer do not.", "quantifier": "all histories of operations, answers, timers and events", "why_tests_cant": "histories and interleavings of timers and answers are unbounded", "anchors": ["api/plgd/device-provisioning-client/plgd_dps_provision.c", "api/plgd/device-provisioning-client/plgd_dps_manager.c", "api/plgd/device-provisioning-client/plgd_dps_provision_cloud.c", "api/plgd/device-provisioning-client/plgd_dps_provision_owner.c", "api/plgd/device-provisioning-client/plgd_dps_time.c"]}
{"id": "C127", "title": "Provisioning goes on until it is complete or stopped", "statement": "For every such history a client that was started and not stopped always has something pending that continues it, and once the service answers it completes all steps; after a stop nothing happens until it is started again. (A useless answer to the cloud step, a missing cloud context or a reset while a restart is pending end provisioning for good; a renewal that timed out followed by a switch of the cloud server blocks it for ever; a request in flight or an interface that comes up continue a stopped client.)", "quantifier": "all histories of operations, answers, timers and events", "why_tests_cant": "liveness after every history cannot be tested", "anchors": ["api/plgd/device-provisioning-client/plgd_dps_manager.c: dps_manager_start, dps_manager_stop, dps_manager_provision", "api/plgd/device-provisioning-client/plgd_dps_provision.c: dps_provision_next_step, dps_provisioning_handle_failure", "api/plgd/device-provisioning-client/plgd_dps_cloud.c", "api/plgd/device-provisioning-client/plgd_dps_pki.c", "api/plgd/device-provisioning-client/plgd_dps.c: dps_ep_session_event_handler, dps_interface_event_handler"]}
{"id": "C128", "title": "Processes get their events in order, one call at a time, and no request to be polled is lost", "statement": "For every number of processes, every behaviour of their threads (posting, calling one another, polling, starting, exiting at any depth) and every interleaving with other threads that ask for polls, provided nobody exits a process whose call is active: events are delivered in the order of posting, each at once when taken, exactly if its process was started and has not exited; a thread is called only between start and exit and never while a call of it is active; a process asked to be polled by any thread is polled by the next run or exits, and the main loop does not sleep before. (A process that exits itself with the documented function and yields goes on getting events; a process exited by one it has called is entered twice; a broadcast can reach a process twice; a process exited by the program right after it was called is not told.)", "quantifier": "all processes, thread behaviours and interleavings with polling threads, any depth of calls", "why_tests_cant": "schedules, depths of calls and interleavings are unbounded", "anchors": ["util/oc_process.c: oc_process_start, exit_process, call_process, do_poll, do_event, oc_process_run, oc_process_post_synch, oc_process_poll"]}
{"id": "C129", "title": "A change is pushed to exactly the targets that selected it", "statement": "For every history of creating, updating and deleting notification selectors, changes of resources and answers of targets: when the application announces a change, one request is sent for each selector of the device that waits for an update and whose conditions on path and types hold, to the target stated last, and for no other; a selector waits for a response exactly while its request is unanswered and never has two; after an error or a time-out it is silent until it is configured again; a refused creation leaves no trace. (A condition on interfaces never matches; a target cleared or refused sends to nowhere; a refused update keeps its first properties; a new target while a request is waiting gives two requests, a deletion then makes the answer write freed memory; a change while a response is awaited is never sent.)", "quantifier": "all histories of requests, changes, answers and time-outs, all numbers of selectors", "why_tests_cant": "histories and interleavings of answers are unbounded", "anchors": ["api/oc_push.c: oc_resource_state_changed, set_ns_properties, push_update, response_to_push_rsc, oc_create_pushconf_resource, free_ns_instance"]}
{"id": "C130", "title": "A push receiver keeps exactly what was pushed to it", "statement": "For every history of requests to add, change, rename, replace and delete receivers, of pushes and of retrievals, where paths are free and none is the beginning of another: every request is answered and takes effect as in a table of receivers; a push is accepted exactly if the receiver takes the types of its payload; a retrieval gives the last contents pushed; a resource can be discovered after the first push; the resources of the application are untouched. (A path selects every receiver whose path begins with it; a receiver with the path of a resource of the application is accepted and its deletion deletes that resource; refused requests leave receivers; paths without a slash leave resources behind; a null, byte strings in arrays and empty texts are altered; four requests make the device read a freed resource.)", "quantifier": "all histories of requests with any number of receivers and payloads of any depth", "why_tests_cant": "histories, sets of receivers and payloads are unbounded", "anchors": ["api/oc_push.c: post_pushrecv, delete_pushrecv, _create_recv_obj, _update_recv_obj, _replace_recv_obj_array, _purge_pushd_rsc, post_pushd_rsc, get_pushd_rsc, _build_rep_payload, _create_pushd_rsc_rep"]}
{"id": "C131", "title": "Resources created through a collection get the lowest free number and a URI of their own", "statement": "For every history of creating and deleting resources through a collection and of the application's own resources: a new resource gets the collection's URI followed by the lowest number from 1 that no member has; nothing else on the device has this URI and requests to it reach the new resource; each created resource has exactly one link in the collection. (A member numbered 0, two links to one resource or a name such as +7 make it choose the URI of a member; a collection with a URI of 62 bytes or more gets members with random URIs elsewhere; if another resource has the URI, the created one is linked but not reachable.)", "quantifier": "all histories, all collections and sets of links of any size, numbers with any number of digits that fit", "why_tests_cant": "the set of members is the result of an unbounded history", "anchors": ["api/oc_resource_factory.c: find_collection_unique_instance_index, get_collection_instance_uri, oc_rt_factory_create_resource", "api/oc_collection.c: oc_collection_add_link", "api/oc_ri.c: oc_delete_resource"]}
{"id": "C132", "title": "A request to create a resource does what it says or nothing, and gives rights only to its sender", "statement": "For every such history a request is carried out exactly if it has a supported type with a factory, an interface and contents the new resource accepts; a refused request leaves no resource, link, parameter or permission; one that is carried out adds exactly one resource and one link with the types, interfaces and parameters asked for, and lets its sender retrieve, update and delete the new resource and nobody else anything; deleting removes exactly the resource and its link, a reset everything created; a type is made by the factory registered first for it. (Permissions survive the resource and apply to the next one with its number; an anonymous sender gives them to every anonymous client; an entry with a wildcard counts as the new permission; interfaces are read from any array, types after the first are not checked, a policy that does not begin with bm is ignored; a destructor that deletes another created resource makes a reset read freed memory.)", "quantifier": "all histories, payloads, access control lists and registrations", "why_tests_cant": "payloads and histories are unbounded", "anchors": ["api/oc_collection.c: oc_handle_collection_create_request, oc_collections_add_rt_factory", "api/oc_resource_factory.c: oc_rt_factory_create_resource, oc_rt_factory_free_created_resource, oc_rt_factory_free_created_resources", "security/oc_acl.c: oc_sec_acl_update_res", "api/oc_ri.c: oc_delete_resource"]}
{"id": "C133", "title": "Messages over TCP keep their order and every attempt to connect is answered once", "statement": "For every history of sending, connecting, ending, accepting, lost connections, timeouts and shutdowns: what is written to a connection are the messages given to it while it was being made and afterwards, in the order given, each from its beginning and whole unless the system refused the rest; the callback of an attempt is called exactly once, with connected if and only if the connection was made; the references to queued messages are given back once; the events of a session are announced at most once. (When the system takes only a part of a message, the rest is dropped and the next message follows it in the same stream; a connection made at once keeps a non-blocking socket, others are blocking.)", "quantifier": "all histories of all threads' calls, all messages, all behaviour of the sockets", "why_tests_cant": "the interleaving of application, network thread and peers is unbounded", "anchors": ["port/linux/tcpsession.c: oc_tcp_send_buffer, oc_tcp_send_buffer2, tcp_send_message, tcp_send_waiting_messages_locked, oc_tcp_connect, free_waiting_session_locked, free_session_locked", "port/common/posix/oc_tcp_socket.c: oc_tcp_socket_connect"]}
{"id": "C134", "title": "Sockets of TCP connections are neither leaked nor closed twice and attempts end", "statement": "For every such history the open sockets are exactly those of the connections and attempts, each of one; none is closed twice; exactly they are watched; an address has at most one connection on the program's side; an attempt that is over is made again or given up at the next check, at most as often as configured; ended connections and a device that is shut down have no sockets left. (A retry that succeeds while there is no memory leaks its socket; descriptor 0 is never watched and 1024 is outside the set; a peer with a large scope id ends the program; the next check can come too late, and never with a timeout of 0; an attempt begun while the check waits for the lock is given up at once.)", "quantifier": "all histories, descriptors, clocks and configurations of retries", "why_tests_cant": "the histories, the clock and the descriptors are outside the program", "anchors": ["port/linux/tcpsession.c: tcp_connect_locked, tcp_end_session, tcp_process_async_sessions_locked, tcp_process_waiting_sessions, tcp_check_expiring_sessions, tcp_retry_waiting_session_locked, tcp_session_shutdown", "port/linux/ipadapter.c: network_event_thread"]}
{"id": "C135", "title": "Every request gets the one answer the protocol wants", "statement": "For every state of a device and every request: what is sent because of it is nothing, one reset with its message id, or one answer with its token, in the acknowledgement if the request was confirmable, otherwise in a message of its own with a new message id, possibly after an empty acknowledgement of its message id; a request the checks let through runs the handler once and gets its code, a refused one runs nothing and gets the code of the refusal, one during a reset of the device is rejected, a repeated non-confirmable one is ignored; a confirmable request is settled by exactly one acknowledgement or reset; a message that is not a request runs no handler and causes at most an empty acknowledgement, so exchanges between two devices end. (A block option goes around the check for a reset in progress; a confirmable upload whose handler sets no code is both acknowledged and reset; an empty confirmable message is acknowledged instead of reset; an unexpected notification is never reset; requests in acknowledgements and resets are served; any peer can stop the retransmissions to another by its message id.)", "quantifier": "all states, requests, messages and outcomes of the checks, the handler and the transfers", "why_tests_cant": "messages, states and decisions of other modules are unbounded", "anchors": ["messaging/coap/engine.c: coap_process_inbound_message, coap_receive_init_response, coap_receive_request_with_method, coap_receive_request_with_code, coap_receive_blockwise_block1, coap_receive_blockwise_block2, coap_send_response, coap_send_empty_response", "messaging/coap/transactions.c: coap_send_transaction, coap_get_transaction_by_mid"]}
{"id": "C136", "title": "No sequence of messages breaks the engine, and answers go to who asked", "statement": "For every sequence of messages from any peers over UDP and TCP, whatever the other modules decide, mixed with requests of the application, sessions that come and go and transactions given up: no freed transaction is used; what is sent because of a message goes to its sender; the message ids of confirmable and non-confirmable messages are different as long as fewer than 65536 were given out; a malformed message over TCP ends the connection and causes nothing else. (A message over TCP with a block option is processed with the context of the message before: as the first one it is a null pointer access, after a served one the use of a freed transaction; otherwise its answer goes to another peer, or there is none.)", "quantifier": "all sequences of messages and events", "why_tests_cant": "sequences are unbounded", "anchors": ["messaging/coap/engine.c: coap_process_inbound_message, coap_process_invalid_inbound_message, coap_send_response", "messaging/coap/transactions.c: coap_new_transaction, coap_send_transaction, coap_clear_transaction", "messaging/coap/coap.c: coap_get_mid"]}
{"id": "C137", "title": "Signals over TCP keep to their protocol", "statement": "For every history of a session: a ping is answered by exactly one pong with its token and custody option; a release ends the session with its sender and no other; a capabilities message is answered by one on a session that was accepted and has had none, and never again, and none is sent ahead of other messages afterwards; the exchange between two devices ends; no signal runs a handler. (Until the peer's capabilities message comes every message has one ahead of it; a device that connects never sends one; codes of signals over UDP are answered in the framing of TCP.)", "quantifier": "all states and histories of sessions, all signals, tokens and options", "why_tests_cant": "the histories of sessions are unbounded", "anchors": ["messaging/coap/signal.c: coap_signal_handle_message, coap_send_csm_message, coap_send_pong_message", "messaging/coap/coap.c: coap_send_message", "port/linux/tcpsession.c: oc_tcp_get_csm_state, oc_tcp_update_csm_state"]}
{"id": "C138", "title": "Observers of discovery with the batch interface learn of every change, and nothing pending refers to what is gone", "statement": "For every history of clients that observe the discovery resource with the batch interface and cancel, of resources that are created, added, changed and deleted, of turns of the event loop and of transfers, whatever fails: everything pending is for a registered observer and about a resource that is there or a removal, each once; what is told goes to a client that may read the resource and is its present state. In histories without a failure an observer for which nothing is pending knows of every resource it may see what is there, nothing pending is forgotten, and once no transfer runs one turn of the event loop tells everything. (A changed resource that was never added leaves a pointer to freed memory when deleted; a deleted resource with a long uri overflows a buffer; a change during the transfer of an ordinary answer is never told; failures lose changes for good; removals of hidden resources are told.)", "quantifier": "all histories of any number of observers and resources, all failures", "why_tests_cant": "the histories of observers, resources and transfers are unbounded", "anchors": ["messaging/coap/observe.c: coap_notify_discovery_batch_observers, coap_process_discovery_batch_observers, coap_remove_discovery_batch_observers_by_resource", "api/oc_server_api.c: oc_notify_resource_added, oc_notify_resource_removed, oc_notify_resource_changed", "api/oc_ri.c: oc_delete_resource"]}
{"id": "C139", "title": "A change is notified to exactly the observers it concerns, to each once and as itself", "statement": "For every set of observers, collections and handlers, whatever fails: what a change of a resource sends goes to observers of the resource and, after them, to batch observers of the collections it is a member of, to each at most one notification, with its endpoint and token; no registration is lost; a device that is not in its normal state sends nothing. When nothing fails each of them gets exactly one, with its own sequence number, which then advances, a message id of its own, and what the handler answers for its endpoint; observers of discovery get the answer for their interface; the call returns the number of observers notified. (Other observers get the default interface whatever they asked for; a change during the notification before it is lost but counted; a revert observer changes the code of those after it; errors do not end the observation, errors without payload are not told; a handler that does not answer for one observer makes it get what was made for another; one failure leaves the rest untold; a collection nobody observes hides the change from the collections after it.)", "quantifier": "all sets of observers and collections, all handlers, representations and failures", "why_tests_cant": "the set of observers is unbounded and handlers are arbitrary", "anchors": ["messaging/coap/observe.c: coap_notify_observers, coap_notify_observers_internal, coap_iterate_observers, coap_fill_response, coap_send_notification_internal, coap_prepare_notification_blockwise, coap_notify_collections, coap_notify_collection_observers, notify_discovery_observers"]}
{"id": "C140", "title": "What OSCORE lets through was said by the peer, for this request", "statement": "For every number of devices with OSCORE contexts, every history of messages they protect and every behaviour of a network that reads, reorders, repeats and changes messages but has no keys: a request that a device accepts was protected as a request by the holder of the sender key of that context, with its partial IV, code and contents; a response that is accepted was protected as a response by the peer in answer to the very request the receiver waits for with that token; no two messages are ever encrypted with one key and nonce before the sequence numbers run out; a message to a peer with a context leaves in clear only as the answer to an unprotected one; a protected message that is not interfered with arrives with its code, token, Observe value and contents. (An unprotected response with the right token is taken for the answer; notifications can be repeated, and old ones with a changed outer option; a retransmitted response is refused, as is the response to a request transmitted twice; the Observe value is not authenticated; undecryptable responses are answered; without memory a null pointer is used.)", "quantifier": "all systems of devices and contexts, all histories, all messages of a network without keys", "why_tests_cant": "the attacker's choices and the histories are unbounded", "anchors": ["security/oc_oscore_engine.c: oscore_parse_message, oc_oscore_recv_message, oc_oscore_send_message, oc_oscore_send_multicast_message", "security/oc_oscore_context.c: oc_oscore_find_context_by_kid, oc_oscore_find_context_by_token_mid, oc_oscore_find_context_by_UUID", "security/oc_oscore_crypto.c: oc_oscore_compose_AAD", "api/client/oc_client_cb.c: oc_client_cb_invoke"]}
{"id": "C141", "title": "A secured session is there while it is used, gone once closed, and loses no message", "statement": "For every history of messages sent and received over datagrams and TCP, of handshakes that end well, badly or not at all, of retries, sessions closed by the peer, the application, inactivity, a reset or the shutdown, whatever mbedtls answers: each message given to the handler is held by it exactly once or was given back exactly once; no two sessions have the same memory or endpoint; closing a session closes the sessions of that endpoint and no other, a reset those of that device and no other; a device waiting for its owner has at most one session, and none without a selected method; a session that is used within the timeout is kept and an unused one is gone once the timer is served; messages sent during the handshake wait in order and are written when it ends; in histories without the cases below no session is used after it was freed. (Sending to an endpoint that is opening a session throws it away while events refer to it; a session closed while the assertion of roles is pending is used later; a callback that closes sessions frees one in use; a handshake that ends in a retry, or whose assertion of roles fails, leaves the messages that wait; a later message can overtake them; a message mbedtls did not take is dropped.)", "quantifier": "all histories, numbers of sessions and messages, all behaviour of mbedtls and the network", "why_tests_cant": "histories and the behaviour of peers are unbounded", "anchors": ["security/oc_tls.c: oc_tls_add_peer, oc_tls_free_peer, oc_tls_remove_peer, oc_tls_close_connection, oc_tls_close_peers, oc_tls_inactive, check_retry_timers, oc_tls_recv_message, oc_tls_send_message, tls_read_application_data, tls_write_application_data, oc_tls_handler"]}
{"id": "C142", "title": "A message carries what was encoded for it", "statement": "For every sequence of requests with and without payload, multicast updates, stored records, closed connections and served requests whose handlers may do all of these after giving their answer, with payloads of any size up to the limit and any Accept options: the device sends and stores exactly what was encoded for each message and record, in order, labelled with the encoding of the payload, in blocks when it is long, and nothing undefined happens. Whatever the application is in the middle of, a stored record is exactly what was encoded for it, a record that does not fit is not stored, and a request begun, encoded and finished without anything in between carries its payload. (A request whose payload does not fit is sent without it and reported as sent; a GET answered with too long a payload lets the peer read memory behind it; a request, a stored record or a closed connection between oc_init_post and oc_do_post makes the device dereference NULL, disclose memory or use freed memory; so does a handler that stores or requests something before it encodes its answer; the encoding asked for by one peer stays in use for stored state and own requests; answers to unknown Accept options, and answers given twice, are labelled with a wrong format.)", "quantifier": "all sequences of jobs, payloads, encodings and configurations; for the second part all states of the device", "why_tests_cant": "what is encoded when, and into which memory, depends on the whole history of calls", "anchors": ["api/oc_client_api.c: dispatch_coap_request_set_payload, dispatch_coap_request, prepare_coap_request, oc_do_multicast_update, oc_init_multicast_update, oc_do_async_request_with_timeout", "api/oc_rep.c: oc_rep_new_v1, oc_rep_new_realloc_v1", "api/oc_rep_encode.c: rep_buffer_realloc, oc_rep_encoder_set_type_by_accept, oc_rep_encoder_payload_size, oc_rep_shrink_encoder_buf", "api/oc_server_api.c: oc_send_response, response_length", "api/oc_ri.c: ri_invoke_handler", "api/oc_storage.c: oc_storage_data_save"]}
{"id": "C143", "title": "Deleting a resource or collection leaves nothing behind that uses it", "statement": "For every history of resources and collections that are made, added, linked, unlinked, changed, deleted at once or later, of clients that observe them, cancel and leave, of resets of a device and of delayed callbacks in any order, with freed memory given out again: nothing that was freed is read or written; each observer is notified only of the resource it registered for, never of another one in the same memory; when a resource is deleted each of its observers is told so exactly once, nothing keeps it, everything else stays, and the collections that linked it tell their observers; one that is to be deleted later cannot be found, nor its URI taken. (None of this holds when a collection is deleted that has observers, pending notifications or links from another collection, or when a resource is linked twice, by a collection of another device, or by one that is not added: freed memory is then used, or observers are notified of another collection.)", "quantifier": "all histories of any number of resources, collections, links, observers and callbacks, all reuse of memory", "why_tests_cant": "the histories and the reuse of memory are unbounded", "anchors": ["api/oc_ri.c: oc_ri_add_resource, oc_delete_resource, oc_delayed_delete_resource, oc_ri_URI_is_in_use", "api/oc_collection.c: oc_collection_add, oc_collection_free, oc_collection_add_link, oc_collection_remove_link, oc_get_next_collection_with_link", "api/oc_link.c: oc_new_link, oc_delete_link", "api/oc_server_api.c: oc_notify_clear, oc_notify_resource_changed, oc_notify_resource_changed_delayed_ms, oc_notify_observers_delayed", "messaging/coap/observe.c: coap_add_observer, coap_remove_observer, coap_remove_observers_by_filter, coap_remove_observers_by_resource"]}
{"id": "C144", "title": "What an onboarding tool reads from a device is what the device has, without its keys", "statement": "For every device list of access control entries that any history leads to and every list of credentials: when the onboarding tool retrieves it, its callback is given the owner and exactly the entries of the device in order, with ids, permissions, subjects and resources; of credentials the ids, types, subjects, usages, public data and the roles of shared keys. What the device answers does not depend on its private keys. A device with nothing to tell, an error, a timeout or a malformed answer gives the callback nothing. Whatever requests are made and whatever responses come, the callback of a request that returned 0 is called exactly once by the first response, and that of one that failed never.", "quantifier": "all histories of the device's list, all credential lists, all response codes and representations, all histories of requests and responses", "why_tests_cant": "The two ends are tested apart, with sample lists; what one writes and the other reads must agree for all subjects, wildcards, encodings and sizes, and malformed answers are not sampled.", "anchors": ["security/oc_obt.c: oc_obt_retrieve_acl, oc_obt_retrieve_creds, decode_acl, decode_cred, acl2_rsrc, cred_rsrc", "security/oc_cred.c: oc_sec_encode_cred", "security/oc_acl.c: oc_sec_encode_acl", "security/oc_ace.c: oc_sec_encode_ace"]}
{"id": "C145", "title": "An onboarding tool told that a deletion is done has deleted just what it asked for", "statement": "For every history of requests to delete access control entries and credentials of devices by id, of requests served or refused by devices in any order, answers, failures and other changes of the devices: the callback of a request is called at most once; with success only after the device named has deleted the entry named for that request and was switched back to normal operation after that. A device deletes exactly the entry with the id and leaves the rest, deletes nothing in normal operation, and is unchanged unless it answers that it deleted. However devices answer, a request ends after three answers; without disturbances it succeeds.", "quantifier": "all numbers of devices, lists of entries and credentials, ids, and histories of requests, answers, failures and changes", "why_tests_cant": "It takes the interleaving of several requests over several devices with losses between each pair of steps; tests run one request against one device.", "anchors": ["security/oc_obt.c: oc_obt_delete_cred_by_credid, oc_obt_delete_ace_by_aceid, creddel_RFPRO, cred_del, creddel_RFNOP, acedel_RFPRO, ace_del, acedel_RFNOP, pstat_POST_dos1_to_dos2", "security/oc_acl.c: acl_resource_delete, oc_sec_remove_ace_by_aceid", "security/oc_cred.c: cred_resource_delete"]}
{"id": "C146", "title": "The keys of an onboarding tool are made once and survive restarts", "statement": "For every history of starts, crashes at any write and restarts of an onboarding tool: a first start succeeds exactly if the device has a UUID and a key pair, a root certificate and an id could be made, and then the root certificate is a trust anchor under the id kept, in memory and in the storage. Once the state was written, every later start has the same private key, root certificate, group id and group secret; a running tool makes no new keys and writes nothing. What the tool stored is loaded inside its arrays; exactly which stored contents are is known. Ids of group contexts differ from those of pairs.", "quantifier": "all keys, random bytes, stored contents, crash points and histories of starts and restarts", "why_tests_cant": "Crashes between the writes of a start, and stored contents that the tool did not write, are not produced by tests.", "anchors": ["security/oc_obt.c: oc_obt_init, oc_obt_dump_state, oc_obt_load_state, oc_obt_generate_root_cred, gen_oscore_ctxid", "security/oc_security.c: oc_sec_self_own", "security/oc_obt_certs.c: oc_obt_generate_self_signed_root_cert"]}
{"id": "C147", "title": "An onboarding tool finds the devices that answer, with the endpoints they have", "statement": "For every history of discoveries, answers of any contents, endings of discoveries and changes of ownership: the lists of devices have each device once and never the tool itself; a callback is made only for a discovery that has not ended, at most one per answer, and names a device other than the tool with at least one endpoint. The answer of a device that the tool owns, and of one that says it is not owned, is told with exactly the endpoints of the device that can be read and are of the family of the answer, in order; a device of another owner, an error, an answer without a link and what the tool says of itself change nothing. No answer removes a device. Good answers never lead to undefined behaviour.", "quantifier": "all histories of discoveries, answers and endings, all representations in answers, all endpoint readers", "why_tests_cant": "Answers come from any number of devices, in any order, late and malformed; tests use a few devices of the same implementation.", "anchors": ["security/oc_obt.c: oc_obt_discover_unowned_devices, oc_obt_discover_owned_devices, obt_check_owned, get_endpoints, update_endpoint, update_endpoints_from_links, cache_new_device, free_discovery_cb"]}
{"id": "C148", "title": "The configuration resource says what was written to it, and names of locations are read back", "statement": "For every device and every request to /oc/con: it succeeds exactly if it has nothing but non-empty texts for name and location, at least one, the device has a location if one is given, and the text names one; then reading tells the last name and location given, what was not given is as before, observers of /oic/d are notified exactly if the name was set, and the callback of the application is called once with the request if it is set. A request that is refused changes nothing, and none changes another device. A device without a location never gets one by a request. Every location, position and enumerated value is read back from its name and only from it; no number fails an assertion.", "quantifier": "all requests, devices, names and numbers", "why_tests_cant": "The set of requests is infinite, and what a refused request leaves behind is not looked at by tests.", "anchors": ["api/oc_con_resource.c: con_resource_get, con_resource_post, oc_set_con_write_cb", "api/oc_enums.c: oc_enum_to_string_view, oc_enum_from_str, oc_enum_pos_desc_to_string_view, oc_enum_pos_desc_from_str, oc_enum_locn_to_string_view, oc_enum_locn_from_str, oc_str_to_enum_locn"]}
