{
 "claims": [
  {
   "property": "C01",
   "status": "proved",
   "theorems": [
    "Verif.Base64.encode_spec",
    "Verif.Base64.encode_too_small",
    "Verif.Base64.decode_encode",
    "Verif.Base64.decodeInPlace_iff"
   ],
   "note": ""
  },
  {
   "property": "C02",
   "status": "proved",
   "theorems": [
    "Verif.Base64.decode_iff",
    "Verif.Base64.decode_no_ub",
    "Verif.Base64.decodeInPlace_no_ub",
    "Verif.Base64.decode_accepts_noncanonical"
   ],
   "note": "Acceptance is characterised exactly; non-canonical trailing bits are accepted (witness)."
  },
  {
   "property": "C03",
   "status": "proved",
   "theorems": [
    "Verif.Uuid.ofStr_hex",
    "Verif.Uuid.toStr_format",
    "Verif.Uuid.ofStr_toStr"
   ],
   "note": ""
  },
  {
   "property": "C04",
   "status": "partial",
   "theorems": [
    "Verif.Uuid.gen_version_partial",
    "Verif.Uuid.gen_variant_false"
   ],
   "note": "Version 4 holds for every random input; the RFC 4122 variant bits are NOT always set by the code (witness gen_variant_false)."
  },
  {
   "property": "C05",
   "status": "proved",
   "theorems": [
    "Verif.Crc.crc64_chunks",
    "Verif.Crc.crc64_burst"
   ],
   "note": ""
  },
  {
   "property": "C06",
   "status": "proved",
   "theorems": [
    "Verif.Hex.ofHex_spec",
    "Verif.Hex.toHex_spec",
    "Verif.Hex.ofHex_toHex",
    "Verif.Hex.empty_not_roundtrip"
   ],
   "note": "Texts with non-hexadecimal characters are outside the theorem (sscanf leaves the value uninitialised)."
  },
  {
   "property": "C07",
   "status": "proved",
   "theorems": [
    "Verif.OcList.exec_refines",
    "Verif.OcList.run_refines",
    "Verif.OcList.run_init",
    "Verif.OcList.queries",
    "Verif.OcList.add_member_cycles"
   ],
   "note": ""
  },
  {
   "property": "C08",
   "status": "proved",
   "theorems": [
    "Verif.Memb.alloc_spec",
    "Verif.Memb.free_spec",
    "Verif.Memb.live_disjoint",
    "Verif.Memb.exec_refines",
    "Verif.Memb.runs_refine",
    "Verif.Memb.init_spec",
    "Verif.Memb.inmemb_iff",
    "Verif.Memb.init_small_overrun"
   ],
   "note": "Static pools; blocks smaller than a pointer are overrun by oc_memb_init (init_small_overrun)."
  },
  {
   "property": "C09",
   "status": "proved",
   "theorems": [
    "Verif.Mmem.exec_refines",
    "Verif.Mmem.runs_refine",
    "Verif.Mmem.runs_progress",
    "Verif.Mmem.blocks_disjoint",
    "Verif.Mmem.inv_init"
   ],
   "note": ""
  },
  {
   "property": "C10",
   "status": "proved",
   "theorems": [
    "Verif.Timer.expired_iff",
    "Verif.Timer.expired_mono",
    "Verif.Timer.until_spec",
    "Verif.Timer.reset_no_drift",
    "Verif.Timer.set_spec",
    "Verif.Timer.expired_last_clock_false"
   ],
   "note": ""
  },
  {
   "property": "C11",
   "status": "proved",
   "theorems": [
    "Verif.Etimer.runs_inv",
    "Verif.Etimer.runs_progress",
    "Verif.Etimer.never_early",
    "Verif.Etimer.once_per_arming",
    "Verif.Etimer.never_lost",
    "Verif.Etimer.next_wakeup",
    "Verif.Etimer.pollAll_complete",
    "Verif.Etimer.inv_init",
    "Verif.Etimer.no_current_process_ub",
    "Verif.Etimer.stop_keeps_queued_event"
   ],
   "note": "Needs a current process when a timer is set (no_current_process_ub); an event already queued survives a stop (stop_keeps_queued_event)."
  },
  {
   "property": "C12",
   "status": "proved",
   "theorems": [
    "Verif.Process.exec_refines",
    "Verif.Process.runs_refine",
    "Verif.Process.fifo_lossless",
    "Verif.Process.post_full",
    "Verif.Process.iterate_spec",
    "Verif.Process.init_rep"
   ],
   "note": ""
  },
  {
   "property": "C13",
   "status": "proved",
   "theorems": [
    "Verif.Coap.header_roundtrip",
    "Verif.Coap.header_is_rfc",
    "Verif.Coap.rfc_header_read",
    "Verif.Coap.header_length_65805_false",
    "Verif.Coap.reserved_length_nibble_accepted"
   ],
   "note": "For lengths up to 65804 and deltas up to 65804; a length of 65805 or more is written wrongly (the _false witness)."
  },
  {
   "property": "C14",
   "status": "proved",
   "theorems": [
    "Verif.Coap.int_option_roundtrip",
    "Verif.Coap.int_option_read",
    "Verif.Coap.int_option_zero"
   ],
   "note": ""
  },
  {
   "property": "C15",
   "status": "proved",
   "theorems": [
    "Verif.Coap.block_roundtrip",
    "Verif.Coap.block_roundtrip_pow",
    "Verif.Coap.block_refused",
    "Verif.Coap.block_decode_offset",
    "Verif.Coap.block_decode_four_bytes_false",
    "Verif.Coap.block_size_rounded"
   ],
   "note": "The decoder also accepts four-byte block options, which the witness shows."
  },
  {
   "property": "C16",
   "status": "proved",
   "theorems": [
    "Verif.Coap.split_one_option_per_segment",
    "Verif.Coap.array_option_whole",
    "Verif.Coap.merge_appends",
    "Verif.Coap.split_empty_segment_false",
    "Verif.Coap.split_trailing_separator_overread",
    "Verif.Coap.split_unterminated_overread"
   ],
   "note": "For paths whose segments are not empty and that are followed by a readable byte; the witnesses show what happens otherwise."
  },
  {
   "property": "C17",
   "status": "proved",
   "theorems": [
    "Verif.CoapMsg.udp_roundtrip",
    "Verif.CoapMsg.serialize_succeeds",
    "Verif.CoapMsg.serialize_fits",
    "Verif.CoapMsg.exMsg_valid",
    "Verif.CoapMsg.accept_without_version_false",
    "Verif.CoapMsg.empty_message_token_false",
    "Verif.CoapMsg.serialize_zero_buffer_false"
   ],
   "note": "For the messages described by the predicate Valid. Accept or Content-Format values that need the OCF version options must come with a version: without one the serializer writes a wrong delta, which accept_without_version_false witnesses."
  },
  {
   "property": "C18",
   "status": "partial",
   "theorems": [
    "Verif.CoapMsg.udp_parse_defined_partial",
    "Verif.CoapMsg.udp_parse_datagram_only_partial",
    "Verif.CoapMsg.accepted_parse_exact_partial",
    "Verif.CoapMsg.tcp_parse_defined_partial",
    "Verif.CoapMsg.tcp_parse_message_only_partial",
    "Verif.CoapMsg.short_token_false",
    "Verif.CoapMsg.truncated_option_false",
    "Verif.CoapMsg.short_datagram_false"
   ],
   "note": "False as stated: the parser reads up to four bytes behind a truncated option header, the token without a length check and the header of datagrams shorter than four bytes (witnesses). Proved for every input: the parser is defined if the buffer has four bytes of slack, and accepted messages with the token inside the datagram depend on the datagram only."
  },
  {
   "property": "C19",
   "status": "partial",
   "theorems": [
    "Verif.TcpStream.serialized_framed",
    "Verif.TcpStream.stream_split_partial",
    "Verif.TcpStream.stream_delivered_partial",
    "Verif.TcpStream.receive_one",
    "Verif.TcpStream.receive_delivers",
    "Verif.TcpStream.tls_record_framed",
    "Verif.CoapMsg.tcp_roundtrip",
    "Verif.CoapMsg.exMsg_tcp",
    "Verif.TcpStream.short_messages_false",
    "Verif.TcpStream.split_header_false",
    "Verif.TcpStream.split_tls_header_false",
    "Verif.TcpStream.first_recv_interrupted_false"
   ],
   "note": "The length header is proved exact for all messages. Splitting is proved for all chunkings in which the first piece of each message holds the length header and no byte of the next message; for the other chunkings the property is false (witnesses)."
  },
  {
   "property": "C20",
   "status": "partial",
   "theorems": [
    "Verif.Trans.transmissions_allowed",
    "Verif.Trans.timeout_after_four",
    "Verif.Trans.due_step",
    "Verif.Trans.ends_after_four_checks",
    "Verif.Trans.gone_stays_gone",
    "Verif.Trans.acknowledged_removed",
    "Verif.Trans.exec_good",
    "Verif.Trans.foreign_message_ends_false",
    "Verif.Trans.secured_without_peer_false",
    "Verif.Trans.unsent_is_transmitted_false"
   ],
   "note": "Proved for all histories in which a (D)TLS peer is found at the timeout of a secured transaction. False otherwise (secured_without_peer_false); a message of another endpoint with the same message id ends a transaction (foreign_message_ends_false), and a transaction created but not yet sent is transmitted by a timer event (unsent_is_transmitted_false)."
  },
  {
   "property": "C21",
   "status": "partial",
   "theorems": [
    "Verif.Blockwise.server_memory_safe",
    "Verif.Blockwise.server_holds_prefix",
    "Verif.Blockwise.server_completes_whole",
    "Verif.Blockwise.client_completes_partial",
    "Verif.Blockwise.upload_whole",
    "Verif.Blockwise.plain_request_exact",
    "Verif.Blockwise.exBlk_block",
    "Verif.Blockwise.other_block_size_truncates_false",
    "Verif.Blockwise.restarted_upload_mixes_false",
    "Verif.Blockwise.client_refused_block_false",
    "Verif.Blockwise.plain_request_uninitialised_false"
   ],
   "note": "Proved for every order, repetition and loss of the blocks of one payload in one block size. False across attempts: a new attempt with another block size is completed with a truncated payload, a new upload to the same resource is mixed with the old one; a client reports a refused block as a response without payload; a payload of 65536 bytes or more without block options is handed over uninitialised (witnesses)."
  },
  {
   "property": "C22",
   "status": "proved",
   "theorems": [
    "Verif.Blockwise.dispatch_spec",
    "Verif.Blockwise.server_block_exact",
    "Verif.Blockwise.respond_exact",
    "Verif.Blockwise.download_rest",
    "Verif.Blockwise.download_whole",
    "Verif.Blockwise.upload_whole",
    "Verif.Blockwise.exBuf_holds",
    "Verif.Blockwise.dispatch_unaligned_false"
   ],
   "note": "Block offsets are multiples of the block size, as decoded from the option; the function itself over-reads at other offsets (dispatch_unaligned_false)."
  },
  {
   "property": "C23",
   "status": "partial",
   "theorems": [
    "Verif.Dedup.rep_init",
    "Verif.Dedup.decides_as_spec",
    "Verif.Dedup.repetition_dropped",
    "Verif.Dedup.fresh_processed_partial",
    "Verif.Dedup.first_request_mid0_false",
    "Verif.Dedup.other_client_dropped_false",
    "Verif.Dedup.confirmable_repetition_false"
   ],
   "note": "The decision is characterised exactly for every history. A repetition within the window is dropped; a fresh request is processed if no recorded request has the same message id and device. False in full: the first request with message id 0 is dropped, a request of another client with the same message id is dropped, a repeated confirmable request is processed again (witnesses)."
  },
  {
   "property": "C24",
   "status": "partial",
   "theorems": [
    "Verif.Observe.registrations_partial",
    "Verif.Observe.register_spec",
    "Verif.Observe.delete_spec",
    "Verif.Observe.byClient_spec",
    "Verif.Observe.byToken_spec",
    "Verif.Observe.byMid_spec",
    "Verif.Observe.dosChange_spec",
    "Verif.Observe.freeAll_spec",
    "Verif.Observe.notify_spec",
    "Verif.Observe.exOps_valid",
    "Verif.Observe.counter_wraps_false",
    "Verif.Observe.dangling_observer_false"
   ],
   "note": "Proved for all histories with at most 255 observers of a resource at a time, and arbitrary comparison of endpoints. With 256 observers the 8-bit counter is 0 and deleting the resource leaves dangling observers (witnesses)."
  },
  {
   "property": "C25",
   "status": "partial",
   "theorems": [
    "Verif.Query.getValue_spec",
    "Verif.Query.keyExists_spec",
    "Verif.Query.nth_spec",
    "Verif.Query.nth_empty",
    "Verif.Query.parts_build",
    "Verif.Query.next_position_partial",
    "Verif.Query.next_position_false",
    "Verif.Query.iterate_more_false",
    "Verif.Query.iterate_case_false"
   ],
   "note": "Lookup, existence and enumeration proved for all queries and all non-empty keys without NUL of at most 255 bytes. The position returned for a value-less key is wrong, so the iteration over the values of a key may announce parameters that do not exist; that iteration is case-sensitive (witnesses)."
  },
  {
   "property": "C26",
   "status": "partial",
   "theorems": [
    "Verif.RepJson.dump_memory_safe",
    "Verif.RepJson.dump_compact",
    "Verif.RepJson.dump_two_calls",
    "Verif.RepJson.compact_text",
    "Verif.RepJson.dump_compact_json",
    "Verif.RepJson.pretty_small_buffer_false",
    "Verif.RepJson.unescaped_false",
    "Verif.RepJson.empty_object_array_ub"
   ],
   "note": "Memory safety for every representation the decoder produces, both formats, every buffer. Length and contents for every buffer in compact format, and for the null buffer and a buffer with room in pretty format. In pretty format with a buffer that is too small the returned length is wrong (witness). Strings are not escaped, so the text is not always the JSON of the representation (witness)."
  },
  {
   "property": "C27",
   "status": "proved",
   "theorems": [
    "Verif.Acl.check_spec",
    "Verif.Acl.more_aces",
    "Verif.Acl.app_resource_needs_permission",
    "Verif.Acl.roles_kept",
    "Verif.Acl.svr_is_dcr",
    "Verif.Acl.app_resource_kind"
   ],
   "note": "oc_sec_check_acl decides exactly as the independent rules, for every device state, requester, credential, access control list, resource (URI with leading slash) and method."
  },
  {
   "property": "C28",
   "status": "partial",
   "theorems": [
    "Verif.Acl.anonymous_partial",
    "Verif.Acl.anonymous_svr",
    "Verif.Acl.nil_subject_false",
    "Verif.Acl.reset_owner_false",
    "Verif.Acl.two_peers_false"
   ],
   "note": "Holds if no ACE has the nil UUID as subject and the owners are set or the device is provisioned. Fails otherwise: an ACE without subject is one of the nil UUID, which anonymous requesters carry; in RESET, and in RFOTM with two or more peers, an anonymous requester matches an unset resource owner (witnesses)."
  },
  {
   "property": "C29",
   "status": "partial",
   "theorems": [
    "Verif.Acl.aceids_unique",
    "Verif.Acl.aceids_unique_from_default",
    "Verif.Acl.replace_exact",
    "Verif.Acl.replace_grants",
    "Verif.Acl.update_adds",
    "Verif.Acl.delete_exact",
    "Verif.Acl.permission_zero_false",
    "Verif.Acl.lost_wildcard_false",
    "Verif.Acl.empty_entry_deletes_false",
    "Verif.Acl.negative_permission_false",
    "Verif.Acl.delete_other_false",
    "Verif.Acl.href_without_slash_ub",
    "Verif.Acl.dangling_callback_ub"
   ],
   "note": "Uniqueness of ids: proved for every history. Faithfulness: proved for updates with an aceid whose entries are valid and do not overlap, for updates by subject with a permission other than 0, and for deletions. It fails for permission 0, overlapping wildcards and empty entries; two payloads reach a failing assertion or a dangling pointer (witnesses)."
  },
  {
   "property": "C30",
   "status": "partial",
   "theorems": [
    "Verif.Acl.rejected_unchanged_partial",
    "Verif.Acl.others_untouched",
    "Verif.Acl.failed_update_false",
    "Verif.Acl.failed_update_loses_ace_false"
   ],
   "note": "Updates refused because of the device state or a malformed first ACE change nothing; ACEs not named by the payload are never changed. Other failures leave what was applied before (witnesses)."
  },
  {
   "property": "C31",
   "status": "partial",
   "theorems": [
    "Verif.Pstat.owned_history",
    "Verif.Pstat.post_spec",
    "Verif.Pstat.transitions_partial",
    "Verif.Pstat.entered",
    "Verif.Pstat.refused",
    "Verif.Pstat.reset_requested",
    "Verif.Pstat.reset_stays",
    "Verif.Pstat.reset_completes",
    "Verif.Pstat.rfotm_to_rfnop_false",
    "Verif.Pstat.reset_escape_false",
    "Verif.Pstat.rowner_rfnop_false",
    "Verif.Pstat.interrupted_reset_false",
    "Verif.Pstat.failed_reset_false",
    "Verif.Pstat.empty_name_ub",
    "Verif.Pstat.prefix_name_false",
    "Verif.Pstat.state_truncated_false"
   ],
   "note": "Ownership in RFPRO, RFNOP and SRESET holds in every history in which generating key pairs succeeds. The transitions are those of OCF except for RFOTM to RFNOP and out of RESET (witnesses). A requested reset that is interrupted by a restart is never done (witness)."
  },
  {
   "property": "C32",
   "status": "proved",
   "theorems": [
    "Verif.Oscore.piv_roundtrip",
    "Verif.Oscore.piv_shortest",
    "Verif.Oscore.piv_value",
    "Verif.Oscore.piv_exhausted_false",
    "Verif.Oscore.piv_empty_false"
   ],
   "note": "All numbers below 2^40, with the byte swapping of the code on a little-endian machine. From 2^40 on the number is cut off silently (witnesses)."
  },
  {
   "property": "C33",
   "status": "proved",
   "theorems": [
    "Verif.Oscore.nonce_is_rfc",
    "Verif.Oscore.nonce_injective",
    "Verif.Oscore.nonces_of_numbers",
    "Verif.Oscore.nonce_long_piv_false"
   ],
   "note": "All ids of at most 7 and partial IVs of at most 5 bytes. Longer partial IVs, which the option parser does not refuse, could collide (witness)."
  },
  {
   "property": "C34",
   "status": "partial",
   "theorems": [
    "Verif.Oscore.accept_iff",
    "Verif.Oscore.replay_refused_partial",
    "Verif.Oscore.zero_replayed_false",
    "Verif.Oscore.old_replayed_false",
    "Verif.Oscore.forged_flush_false",
    "Verif.Oscore.forged_blocks_false",
    "Verif.Oscore.no_piv_replayed_false"
   ],
   "note": "The window is exactly: not among the 32 partial IVs that passed last. False in general: partial IV 0, older requests, forged requests move the window, requests without partial IV, and the window is empty after a restart (witnesses)."
  },
  {
   "property": "C35",
   "status": "partial",
   "theorems": [
    "Verif.Oscore.no_reuse_partial",
    "Verif.Oscore.no_reuse_scheduled",
    "Verif.Oscore.nonces_nodup",
    "Verif.Oscore.crash_before_save_false",
    "Verif.Oscore.multicast_reuse_false",
    "Verif.Oscore.skipped_save_false",
    "Verif.Oscore.reprovisioned_reuse_false"
   ],
   "note": "Proved for every history in which messages are protected while the number in memory is less than 160 above the stored one, in particular for every schedule that saves in time. False otherwise: four concrete histories that reuse a number. The write to storage is taken as atomic (see C40)."
  },
  {
   "property": "C36",
   "status": "partial",
   "theorems": [
    "Verif.Oscore.parse_layout",
    "Verif.Oscore.option_roundtrip",
    "Verif.Oscore.option_roundtrip_response",
    "Verif.Oscore.option_header",
    "Verif.Oscore.parse_defined_iff",
    "Verif.Oscore.piv_overflow_false",
    "Verif.Oscore.truncated_piv_false",
    "Verif.Oscore.truncated_ctx_false",
    "Verif.Oscore.reserved_bits_accepted",
    "Verif.Oscore.response_kid_lost_false"
   ],
   "note": "Round trip proved. Memory safety holds exactly for the options characterised by Spec.Fits; a partial IV length of 6 or 7 overflows a stack buffer and truncated options are read past their end (witnesses)."
  },
  {
   "property": "C37",
   "status": "partial",
   "theorems": [
    "Verif.Cred.ids_unique",
    "Verif.Cred.lookup_newest",
    "Verif.Cred.newest_created",
    "Verif.Cred.addDev_uniq",
    "Verif.Cred.addDev_lookup",
    "Verif.Cred.addDev_others",
    "Verif.Cred.addDev_existing",
    "Verif.Cred.addDev_defined",
    "Verif.Cred.delete_exact",
    "Verif.Cred.clear_exact",
    "Verif.Cred.not_created_present",
    "Verif.Cred.refused_loses_false",
    "Verif.Cred.duplicate_chain_loses_false",
    "Verif.Cred.refused_post_partly_applied_false",
    "Verif.Cred.replaced_owner_ub"
   ],
   "note": "Uniqueness and lookup proved for every history that does not run into undefined behaviour. A payload that replaces the credential it made the owner's reads freed memory (witness); refused or duplicate credentials remove the one they would have replaced (witnesses). Certificates, key derivation and random numbers are arbitrary oracles."
  },
  {
   "property": "C38",
   "status": "partial",
   "theorems": [
    "Verif.Sp.accepted",
    "Verif.Sp.selects",
    "Verif.Sp.current_supported_partial",
    "Verif.Sp.current_supported_history_partial",
    "Verif.Sp.refused_unchanged_partial",
    "Verif.Sp.unsupported_current_false",
    "Verif.Sp.refused_changes_false"
   ],
   "note": "What is accepted and what it selects is exact. An update may narrow the supported profiles so that the current one is not among them, and a refused update may have changed the profile already (witnesses)."
  },
  {
   "property": "C39",
   "status": "proved",
   "theorems": [
    "Verif.Ael.log_bounded",
    "Verif.Ael.log_newest",
    "Verif.Ael.addEvent_spec",
    "Verif.Ael.addEvent_inv",
    "Verif.Ael.post_filters_only",
    "Verif.Ael.no_memory_false",
    "Verif.Ael.unit_mixed_false"
   ],
   "note": "For all histories of events, filter updates, resets and restarts: used space = sum of sizes <= maximum, stored events are a suffix of the admitted ones, and the longest fitting one as long as memory suffices. Needs 8-byte pointers for restarts (see C58). Witnesses: with an allocation failure old events are evicted although the new one is lost; usedspace is reported in the unit of device 0."
  },
  {
   "property": "C40",
   "status": "partial",
   "theorems": [
    "Verif.Storage.storage_partial",
    "Verif.Storage.crash_loses_false",
    "Verif.Storage.failed_save_false"
   ],
   "note": "The property as stated is false (files are truncated before they are rewritten): witnesses. Proved for every history of saves, clears, failures and crashes: a completed save is intact until the next request for the same name, an interrupted one leaves the old content or a beginning of the new one, other files are never touched."
  },
  {
   "property": "C41",
   "status": "partial",
   "theorems": [
    "Verif.Storage.config_dir_partial",
    "Verif.Storage.config_single",
    "Verif.Storage.config_no_ub",
    "Verif.Storage.path_spec",
    "Verif.Storage.dir_exists",
    "Verif.Storage.dir_unique",
    "Verif.Storage.single_char_false"
   ],
   "note": "For all paths except those whose last component is a single character; for these the directory above is used (proved for all, with a witness that two paths collide)."
  },
  {
   "property": "C42",
   "status": "proved",
   "theorems": [
    "Verif.Storage.tag_unique",
    "Verif.Storage.genTag_spec",
    "Verif.Storage.genTag_no_ub",
    "Verif.Storage.index_fits",
    "Verif.Storage.tag_truncated_false"
   ],
   "note": "For all names that fit and all device indices; longer names are truncated and can collide (witness)."
  },
  {
   "property": "C43",
   "status": "proved",
   "theorems": [
    "Verif.Doxm.refused",
    "Verif.Doxm.accepted",
    "Verif.Doxm.guarded",
    "Verif.Doxm.sets_owner"
   ],
   "note": "For every state, connection and payload. Any text is accepted as UUID (garbage_owner_false)."
  },
  {
   "property": "C44",
   "status": "proved",
   "theorems": [
    "Verif.Sdi.refused",
    "Verif.Sdi.accepted",
    "Verif.Sdi.sets_uuid"
   ],
   "note": "For every state and payload. Any text is accepted as UUID (garbage_uuid_false)."
  },
  {
   "property": "C45",
   "status": "proved",
   "theorems": [
    "Verif.Cred.roles_wellformed",
    "Verif.Cred.roles_confined",
    "Verif.Cred.close_removes",
    "Verif.Cred.reset_removes",
    "Verif.Cred.closed_session_no_roles",
    "Verif.Cred.role_verified"
   ],
   "note": "All histories with any number of sessions. A session is its peer object; certificate checks are oracles."
  },
  {
   "property": "C46",
   "status": "proved",
   "theorems": [
    "Verif.Etag.etags_increase",
    "Verif.Etag.etag_never_uninitialised",
    "Verif.Etag.etag_near_clock",
    "Verif.Etag.wrap_around_false"
   ],
   "note": "For all clocks and random numbers, with the overflow bound stated; the wrap-around is shown."
  },
  {
   "property": "C47",
   "status": "proved",
   "theorems": [
    "Verif.Rep.getInt_spec",
    "Verif.Rep.getBool_spec",
    "Verif.Rep.getDouble_spec",
    "Verif.Rep.getByteString_spec",
    "Verif.Rep.getString_spec",
    "Verif.Rep.getIntArray_spec",
    "Verif.Rep.getBoolArray_spec",
    "Verif.Rep.getDoubleArray_spec",
    "Verif.Rep.getByteStringArray_spec",
    "Verif.Rep.getStringArray_spec",
    "Verif.Rep.getObject_spec",
    "Verif.Rep.getObjectArray_spec",
    "Verif.Rep.isNull_spec",
    "Verif.Rep.unusable_key"
   ],
   "note": "All typed getters of api/oc_rep.c, for every representation and every key of 1 to 4095 bytes without NUL (others are reported absent)."
  },
  {
   "property": "C48",
   "status": "partial",
   "theorems": [
    "Verif.Uuid.ofStr_size_partial",
    "Verif.Uuid.ofStr_accepts_iff_partial",
    "Verif.Uuid.ofStr_accepts_garbage_false"
   ],
   "note": "The exact set of accepted texts is proved: only the number of characters that are not dashes matters; garbage is accepted (witness)."
  },
  {
   "property": "C49",
   "status": "proved",
   "theorems": [
    "Verif.CoapMsg.udp_validate_agrees"
   ],
   "note": ""
  },
  {
   "property": "C50",
   "status": "partial",
   "theorems": [
    "Verif.Observe.consecutive_newer",
    "Verif.Observe.all_newer_partial",
    "Verif.Observe.seq_range",
    "Verif.Observe.reregistration_stale_false"
   ],
   "note": "Consecutive notifications of one registration: proved without bound. Across registrations: proved for fewer than 2^23 - 2 notifications in total; false beyond (witness)."
  },
  {
   "property": "C51",
   "status": "partial",
   "theorems": [
    "Verif.Acl.reload_partial",
    "Verif.Acl.reachable_made",
    "Verif.Acl.reload_widens_false"
   ],
   "note": "Proved for every reachable list without entries that have both a name and a wildcard; those lose the wildcard, which widens the access (witness). The CBOR layer is not modelled."
  },
  {
   "property": "C52",
   "status": "partial",
   "theorems": [
    "Verif.Sp.restart_partial",
    "Verif.Sp.restart_rfnop_false",
    "Verif.Doxm.restart",
    "Verif.Sdi.restart",
    "Verif.Pstat.stored"
   ],
   "note": "Ownership, security domain and provisioning status: proved. Security profile: kept in every state but RFNOP; in RFNOP it is refused at start and replaced by the default (witness)."
  },
  {
   "property": "C53",
   "status": "partial",
   "theorems": [
    "Verif.Oscore.is_oscore_iff",
    "Verif.Oscore.truncated_scan_false"
   ],
   "note": "Exact for every well formed datagram; truncated ones are read past their end (witness). Stream messages have another header and are not modelled here."
  },
  {
   "property": "C54",
   "status": "partial",
   "theorems": [
    "Verif.Cred.guard_iff",
    "Verif.Cred.post_guarded_partial",
    "Verif.Cred.post_rfpro_owner",
    "Verif.Cred.delete_guarded",
    "Verif.Cred.derived_key_for_owner",
    "Verif.Cred.symmetric_key_length",
    "Verif.Cred.roles_post_takes_owner_false",
    "Verif.Cred.takeover_false",
    "Verif.Cred.role_changes_credential_false"
   ],
   "note": "Holds for the credential resource itself. False for the roles resource, which shares the decoder without its guards: every authenticated peer can make itself owner of the credentials in normal operation (proved for all peers), and change the owner flag of a credential."
  },
  {
   "property": "C55",
   "status": "partial",
   "theorems": [
    "Verif.Etag.valid_means_unchanged_partial",
    "Verif.Etag.current_etag_valid",
    "Verif.Etag.other_length_not_valid",
    "Verif.Etag.change_fresh",
    "Verif.Etag.dumped_etag_restored",
    "Verif.Etag.load_exact",
    "Verif.Etag.run_inv",
    "Verif.Etag.clock_reset_false",
    "Verif.Etag.pending_notification_false"
   ],
   "note": "Proved for every history under the hypotheses: changes announced at once, clock not behind the ETags handed out before a restart, no overflow, different checksums. Witnesses show that it is false after a clock reset (even with dumped ETags) and between a POST and its delayed notification. Batch ETags are not modelled."
  },
  {
   "property": "C56",
   "status": "partial",
   "theorems": [
    "Verif.Etag.increments_spec",
    "Verif.Etag.bare_key_ub"
   ],
   "note": "For all queries in which each incChanges has a value; without '=' a null pointer is subtracted (witness)."
  },
  {
   "property": "C57",
   "status": "partial",
   "theorems": [
    "Verif.Storage.storage_partial",
    "Verif.Storage.load_after_save",
    "Verif.Storage.load_decodes_content",
    "Verif.Storage.attempts_result",
    "Verif.Storage.garbage_success_false"
   ],
   "note": "For every history and environment; a file that cannot be parsed is reported as success without decoding anything (witness). CBOR coding is a parameter."
  },
  {
   "property": "C58",
   "status": "partial",
   "theorems": [
    "Verif.Ael.restart_keeps_partial",
    "Verif.Ael.log_bounded",
    "Verif.Ael.filter_drops_false",
    "Verif.Ael.aux_overflow_ub"
   ],
   "note": "Proved for platforms where 257 texts cannot fit into the log and if the events still pass the filters. False otherwise: after the filter was narrowed a restart drops events; with 4-byte pointers an event with more than 256 texts makes the restart write past an array on the stack."
  },
  {
   "property": "C59",
   "status": "partial",
   "theorems": [
    "Verif.Rfc3339.parse_iff",
    "Verif.Rfc3339.parse_valid",
    "Verif.Rfc3339.format_text",
    "Verif.Rfc3339.parse_format",
    "Verif.Rfc3339.format_fits",
    "Verif.Rfc3339.format_invalid",
    "Verif.Rfc3339.format_precision",
    "Verif.Rfc3339.clock_roundtrip",
    "Verif.Rfc3339.parseClock_value_partial",
    "Verif.Rfc3339.compare_order",
    "Verif.Rfc3339.before_1970_false"
   ],
   "note": "Proved for all texts, time stamps and buffers. Texts before 1970 are converted to a clock value far in the future (witness). The test of validity is undefined if the local time does not fit into 64 bits (precondition of format_invalid). Floating point conversions of the clock are taken as exact, for tick rates that divide 10^9."
  },
  {
   "property": "C60",
   "status": "partial",
   "theorems": [
    "Verif.Rfc3339.toTm_spec",
    "Verif.Rfc3339.toUnix_partial",
    "Verif.Rfc3339.toUnix_early_false",
    "Verif.Rfc3339.certFormat_partial",
    "Verif.Rfc3339.short_year_false"
   ],
   "note": "Broken-down times: all valid time stamps. Unix times: 1970 to 9999; earlier years are wrong (witness). Certificate texts: years 1000 to 9999; earlier years are not padded (witness)."
  },
  {
   "property": "C61",
   "status": "partial",
   "theorems": [
    "Verif.Delayed.runs_match_expiries",
    "Verif.Delayed.poll_serves_all",
    "Verif.Delayed.never_runs_after_release",
    "Verif.Delayed.released_once",
    "Verif.Delayed.remove_one",
    "Verif.Delayed.remove_nothing",
    "Verif.Delayed.remove_all",
    "Verif.Delayed.remove_self",
    "Verif.Delayed.no_use_after_free_partial",
    "Verif.Delayed.poll_no_on_delete_partial",
    "Verif.Delayed.stale_on_delete_false",
    "Verif.Delayed.match_all_keeps_current_false"
   ],
   "note": "Proved for every history and every behaviour of callbacks. False parts, with witnesses: a function given for deletion from inside a callback is also applied to the data of a later callback; a callback that removes all matching ones keeps itself if another match follows it."
  },
  {
   "property": "C62",
   "status": "partial",
   "theorems": [
    "Verif.Delayed.one_periodic_callback",
    "Verif.Delayed.register_unregister",
    "Verif.Delayed.no_use_after_free_partial",
    "Verif.Delayed.delete_periodic_resource_ub",
    "Verif.Delayed.other_observers_lose_periodic_false"
   ],
   "note": "At most one periodic callback: proved for every history. False parts, with witnesses: one observer cancelling removes the callback although others remain; deleting an observed periodic resource leaves a callback that uses the freed resource."
  },
  {
   "property": "C63",
   "status": "partial",
   "theorems": [
    "Verif.Client.released_once",
    "Verif.Client.never_after_release",
    "Verif.Client.at_most_once_partial",
    "Verif.Client.response_token",
    "Verif.Client.removal_is_scheduled_partial",
    "Verif.Client.init_twice_false",
    "Verif.Client.unsolicited_observe_false",
    "Verif.Client.stop_discovery_false",
    "Verif.Client.stop_multicast_false",
    "Verif.Client.bad_payload_false",
    "Verif.Client.foreign_response_false"
   ],
   "note": "Proved for every history and every behaviour of handlers. False parts, with witnesses: an Observe option nobody asked for keeps a GET request alive; stopping a discovery or a multicast does not stop it; a response with a bad payload ends a request silently; a response from another endpoint is accepted; two prepared requests in a row leak the first."
  },
  {
   "property": "C64",
   "status": "partial",
   "theorems": [
    "Verif.Client.close_leaves_none",
    "Verif.Client.close_tells_all_partial",
    "Verif.Client.old_notification_false",
    "Verif.Client.retry_never_ends_false"
   ],
   "note": "When closing is over: proved for every handler; that all handlers were called: for handlers that do not close sessions or free requests. Witnesses: a handler that retries keeps the closing call running for ever; an observation with an outdated OSCORE notification is never ended."
  },
  {
   "property": "C65",
   "status": "partial",
   "theorems": [
    "Verif.Client.no_use_after_free_partial",
    "Verif.Client.ping_close_ub",
    "Verif.Client.timeout_close_ub",
    "Verif.Client.check_next_ub",
    "Verif.Client.failed_post_ub",
    "Verif.Client.get_between_post_ub",
    "Verif.Client.stop_observe_fails_ub"
   ],
   "note": "Proved for handlers that do not close sessions, and if no confirmable request uses a secure session; six witnesses of undefined behaviour outside of this."
  },
  {
   "property": "C66",
   "status": "partial",
   "theorems": [
    "Verif.Endpoint.scheme_text",
    "Verif.Endpoint.toCString_text",
    "Verif.Endpoint.toCString_small",
    "Verif.Endpoint.toString64_text",
    "Verif.Endpoint.roundtrip_partial",
    "Verif.Endpoint.roundtrip_mapped_false",
    "Verif.Endpoint.toCString_min_false"
   ],
   "note": "Proved for all IPv4 endpoints and all IPv6 endpoints whose address inet_ntop writes as groups of hexadecimal digits (any such text). False for IPv4-mapped addresses, which inet_ntop writes with dots (witness). An exactly fitting buffer for [::] with a one-digit port is refused (witness)."
  },
  {
   "property": "C67",
   "status": "partial",
   "theorems": [
    "Verif.Endpoint.scheme_text",
    "Verif.Endpoint.parse_text_partial",
    "Verif.Endpoint.parse_safe",
    "Verif.Endpoint.parse_sound",
    "Verif.Endpoint.parse_noScheme",
    "Verif.Endpoint.parse_colon_false",
    "Verif.Endpoint.parse_port_false",
    "Verif.Endpoint.parse_octet_false",
    "Verif.Endpoint.parse_name_false",
    "Verif.Endpoint.parse_emptyPort_false",
    "Verif.Endpoint.parse_hex_false"
   ],
   "note": "Memory safety and shape of accepted texts: all texts. Correct reading: all URIs of the given form, but without a port the path must have no colon (witness). Witnesses of wrong acceptance: ports and octets that are too large, names ending with a digit, an empty port after an IPv6 address, groups with other characters."
  },
  {
   "property": "C68",
   "status": "partial",
   "theorems": [
    "Verif.Endpoint.compare_iff",
    "Verif.Endpoint.compare_refl",
    "Verif.Endpoint.compare_symm",
    "Verif.Endpoint.compare_trans_partial",
    "Verif.Endpoint.compare_trans_false",
    "Verif.Endpoint.compare_address",
    "Verif.Endpoint.linkLocal_recognised",
    "Verif.Endpoint.linkLocal_prefix_false"
   ],
   "note": "Exact characterisation; transitive only through an endpoint that names its session (witness with session 0)."
  },
  {
   "property": "C69",
   "status": "proved",
   "theorems": [
    "Verif.Endpoint.parsePath_text",
    "Verif.Endpoint.parsePath_none",
    "Verif.Endpoint.parsePath_ub"
   ],
   "note": "For all non-NULL strings; an empty string object (NULL pointer) is undefined (witness)."
  },
  {
   "property": "C70",
   "status": "partial",
   "theorems": [
    "Verif.EpAddr.step_refines",
    "Verif.EpAddr.means_exists",
    "Verif.EpAddr.run_inv",
    "Verif.EpAddr.history",
    "Verif.EpAddr.calls_changed",
    "Verif.EpAddr.nexts_cycle",
    "Verif.EpAddr.remove_gone_ub",
    "Verif.EpAddr.calls_reinit_false"
   ],
   "note": "Refinement of a plain list with a position, for all histories. Removing a server that was removed before is undefined (witness); initialising without a default server drops the selected server without telling the application (witness)."
  },
  {
   "property": "C71",
   "status": "partial",
   "theorems": [
    "Verif.CloudStore.restart_kept",
    "Verif.CloudStore.restart_wildcard_false",
    "Verif.CloudStore.restart_empty_false",
    "Verif.CloudStore.restart_memory_false"
   ],
   "note": "Proved for all configurations with a selected server whose UUID is not *; the selected server comes first afterwards. Witnesses: with the UUID * all servers are lost; an empty list becomes the default server; running out of memory loses servers silently. Storage itself: C57."
  },
  {
   "property": "C72",
   "status": "partial",
   "theorems": [
    "Verif.Cloud.timeouts_kept",
    "Verif.Cloud.retry_delay_partial",
    "Verif.Cloud.short_timeout_ub",
    "Verif.Cloud.no_timeout_false"
   ],
   "note": "For all timeouts of at least a second. A timeout below a second is accepted and fails an assertion at its first use; an empty list of timeouts is accepted and the device restarts for ever without trying (witnesses)."
  },
  {
   "property": "C73",
   "status": "partial",
   "theorems": [
    "Verif.Cloud.register_everywhere_partial",
    "Verif.Cloud.unresolved_false",
    "Verif.Cloud.silent_server_false"
   ],
   "note": "Proved for lists of servers and timeouts of any length, if requests can be sent and fail without a TCP session having been reported. False otherwise, with witnesses: a server whose name cannot be resolved ends the registration; a server that accepts a TCP connection but does not answer leaves the device registering for ever with nothing pending."
  },
  {
   "property": "C74",
   "status": "partial",
   "theorems": [
    "Verif.Cloud.status_holds",
    "Verif.Cloud.unauthorized_refresh_forgets",
    "Verif.Cloud.unauthorized_login_forgets",
    "Verif.Cloud.session_end_restarts",
    "Verif.Cloud.no_undefined_partial",
    "Verif.Cloud.no_payload_ub",
    "Verif.Cloud.lifetime_ub",
    "Verif.Cloud.many_servers_ub",
    "Verif.Cloud.deregister_ub",
    "Verif.Cloud.unprovisioned_false"
   ],
   "note": "Consistency: every history. Undefined behaviour is excluded for responses with a payload, lifetimes that fit, at most 255 servers and deregistration without refresh; witnesses show each of these is needed."
  },
  {
   "property": "C75",
   "status": "partial",
   "theorems": [
    "Verif.Cloud.refresh_margin",
    "Verif.Cloud.login_keeps_alive",
    "Verif.Cloud.pings_lost",
    "Verif.Cloud.ping_answered",
    "Verif.Cloud.refresh_replaces",
    "Verif.Cloud.ping_unsent_false"
   ],
   "note": "For all lifetimes and lists of timeouts. A ping that cannot be sent ends the pings silently (witness)."
  },
  {
   "property": "C76",
   "status": "proved",
   "theorems": [
    "Verif.Cloud.redirect_followed"
   ],
   "note": "For all states that satisfy the invariant of every history (status_holds)."
  },
  {
   "property": "C77",
   "status": "partial",
   "theorems": [
    "Verif.Cloud.deregistered",
    "Verif.Cloud.deregister_login_failed",
    "Verif.Cloud.deregister_stuck_false",
    "Verif.Cloud.deregister_ub"
   ],
   "note": "The confirmed end is proved for all states; that every deregistration ends is false: one whose request cannot be sent leaves the device deregistering for ever (witness)."
  },
  {
   "property": "C78",
   "status": "proved",
   "theorems": [
    "Verif.Cloud.requests_to_servers"
   ],
   "note": "For every history without undefined behaviour."
  },
  {
   "property": "C79",
   "status": "partial",
   "theorems": [
    "Verif.Json.decode_object",
    "Verif.Json.decode_objects",
    "Verif.Json.decode_empty",
    "Verif.Json.escape_false",
    "Verif.Json.long_item_false",
    "Verif.Json.fraction_false"
   ],
   "note": "Proved for all texts without escape sequences, fractions and array items longer than 127 bytes; witnesses: escape sequences are kept as they are, fractions and anything after digits are dropped, longer items are cut."
  },
  {
   "property": "C80",
   "status": "partial",
   "theorems": [
    "Verif.Json.decode_safe_partial",
    "Verif.Json.tokens_safe",
    "Verif.Json.string_iff",
    "Verif.Json.decode_cut",
    "Verif.Json.null_root_ub",
    "Verif.Json.unknown_member_false"
   ],
   "note": "Proved for all texts that do not start with a bracket; for those the only undefined behaviour is the use of the missing root node: [{1}] dereferences a null pointer (witness). Cut texts: all. Errors inside arrays of objects are accepted as members of an undefined type (witness)."
  },
  {
   "property": "C81",
   "status": "proved",
   "theorems": [
    "Verif.Json.encode_safe",
    "Verif.Json.encode_object",
    "Verif.Json.encodable",
    "Verif.Json.encode_error_stays",
    "Verif.Json.int_range"
   ],
   "note": "All sequences of calls and all buffers. Integers between -(2^52)-1 and 2^53 are accepted (int_range)."
  },
  {
   "property": "C82",
   "status": "partial",
   "theorems": [
    "Verif.Json.round_trip",
    "Verif.Json.injection_false",
    "Verif.Json.empty_array_false",
    "Verif.Json.double_false"
   ],
   "note": "Proved for strings without quotes, backslashes and control characters, integers in range and nonempty arrays. Strings are not escaped: a value with quotes adds members (witness); empty arrays become nil and floating point numbers lose their fraction (witnesses)."
  },
  {
   "property": "C83",
   "status": "partial",
   "theorems": [
    "Verif.Ri.uris_unique_partial",
    "Verif.Ri.double_slash_false",
    "Verif.Ri.add_iff",
    "Verif.Ri.add_collection_iff",
    "Verif.Ri.found_by_uri",
    "Verif.Ri.lookup_sound",
    "Verif.Ri.framework_found",
    "Verif.Ri.lookup_total",
    "Verif.Ri.slashes_ub",
    "Verif.Ri.deleted_not_found",
    "Verif.Ri.waiting_reserved"
   ],
   "note": "Proved after every history of operations whose URIs begin with exactly one slash; with two slashes the same URI can be registered twice (witness). The lookup is total for every path that is not only slashes; such a path reads out of bounds (witness)."
  },
  {
   "property": "C84",
   "status": "partial",
   "theorems": [
    "Verif.Ri.refused_outcome",
    "Verif.Ri.handler_runs_iff",
    "Verif.Ri.unknown_if_false",
    "Verif.Ri.foreign_iface_refused_partial"
   ],
   "note": "Exact for all requests. An interface name that is not known at all is taken as none given, so a request for it is served (witness); names of known interfaces that the resource lacks are always refused."
  },
  {
   "property": "C85",
   "status": "partial",
   "theorems": [
    "Verif.Ri.other_device_silent",
    "Verif.Ri.refused_outcome",
    "Verif.Ri.handler_runs_iff",
    "Verif.Ri.multicast_no_error",
    "Verif.Ri.multicast_rst_false",
    "Verif.Ri.di_ub"
   ],
   "note": "Proved for all queries whose di keys have values; one without a value is undefined behaviour (witness). A handler that sends no response makes the server answer a multicast request with RST (witness)."
  },
  {
   "property": "C86",
   "status": "partial",
   "theorems": [
    "Verif.Ri.error_no_effect",
    "Verif.Ri.observe_partial",
    "Verif.Ri.observe_claimed_false",
    "Verif.Ri.observe_silent_false",
    "Verif.Ri.cancel_partial",
    "Verif.Ri.cancel_error_false",
    "Verif.Ri.change_notified"
   ],
   "note": "Proved when the observer can be allocated, the handler answers, and (for cancelling) answers without error; the other cases are false (witnesses)."
  },
  {
   "property": "C87",
   "status": "partial",
   "theorems": [
    "Verif.Ri.format_partial",
    "Verif.Ri.link_format_false"
   ],
   "note": "Proved for all values but application/link-format, for which it is false (witness)."
  },
  {
   "property": "C88",
   "status": "partial",
   "theorems": [
    "Verif.Separate.safe_partial",
    "Verif.Separate.safe_from_start_partial",
    "Verif.Separate.no_leak_partial",
    "Verif.Separate.invalid_code_ub",
    "Verif.Separate.inactive_send_ub",
    "Verif.Separate.leak_false"
   ],
   "note": "Partial: the claim is false of the code for invalid status codes, for sending while idle, and when an allocation fails half-way (witnesses proved)."
  },
  {
   "property": "C89",
   "status": "partial",
   "theorems": [
    "Verif.Separate.answered_partial",
    "Verif.Separate.postponed_notification",
    "Verif.Separate.same_token_false",
    "Verif.Separate.unavailable_false",
    "Verif.Separate.busy_lost_false",
    "Verif.Separate.separate_observe_false"
   ],
   "note": "Partial: proved for requests the handle tells apart and sending that succeeds; the four ways in which clients are not answered properly are proved as witnesses."
  },
  {
   "property": "C90",
   "status": "partial",
   "theorems": [
    "Verif.Session.exactly_once",
    "Verif.Session.none_lost",
    "Verif.Session.settles",
    "Verif.Session.order_false",
    "Verif.Session.exit_false",
    "Verif.Session.no_memory_ub"
   ],
   "note": "Delivery proved for all schedules while the process runs; order between the two kinds, shutdown and memory shortage are false of the code (witnesses)."
  },
  {
   "property": "C91",
   "status": "partial",
   "theorems": [
    "Verif.Session.fire_safe_partial",
    "Verif.Session.each_called",
    "Verif.Session.remove_first",
    "Verif.Session.remove_self_ub"
   ],
   "note": "Partial: a handler that removes itself leads to a use after free (witness)."
  },
  {
   "property": "C92",
   "status": "partial",
   "theorems": [
    "Verif.PlgdTime.runs",
    "Verif.PlgdTime.never_ahead",
    "Verif.PlgdTime.restored",
    "Verif.PlgdTime.goes_back_false",
    "Verif.PlgdTime.reset_sets_clock_false"
   ],
   "note": "All histories until the year 9999. That the time never goes back, and that the system clock is only set to times the device was told, are false of the code (witnesses)."
  },
  {
   "property": "C93",
   "status": "partial",
   "theorems": [
    "Verif.PlgdTime.insecure_get",
    "Verif.PlgdTime.post_refused",
    "Verif.PlgdTime.post_partial",
    "Verif.PlgdTime.clock_failed",
    "Verif.PlgdTime.last_wins",
    "Verif.PlgdTime.epoch_false",
    "Verif.PlgdTime.bad_date_false",
    "Verif.PlgdTime.status_names"
   ],
   "note": "Partial: false for times that are not after 1970 (witnesses)."
  },
  {
   "property": "C94",
   "status": "partial",
   "theorems": [
    "Verif.MsgRef.freed_once_partial",
    "Verif.MsgRef.alone_done",
    "Verif.MsgRef.shrink_fits",
    "Verif.MsgRef.wrap_ub",
    "Verif.MsgRef.lost_false"
   ],
   "note": "All schedules in which there are never more than 255 references; with more it is false (witnesses)."
  },
  {
   "property": "C95",
   "status": "proved",
   "theorems": [
    "Verif.NetQueue.each_once",
    "Verif.NetQueue.settles",
    "Verif.NetQueue.no_lost_wakeup",
    "Verif.NetQueue.wake_exact"
   ],
   "note": "All schedules; the requested capacity must not be 0."
  },
  {
   "property": "C96",
   "status": "partial",
   "theorems": [
    "Verif.Collection.links_ordered_partial",
    "Verif.Collection.order_unique",
    "Verif.Collection.find_link",
    "Verif.Collection.add_twice_ub",
    "Verif.Collection.add_twice_loses_false"
   ],
   "note": "All histories in which no link is added that is already in the collection; otherwise false (witnesses)."
  },
  {
   "property": "C97",
   "status": "partial",
   "theorems": [
    "Verif.Collection.delete_unlinks_partial",
    "Verif.Collection.delete_keeps",
    "Verif.Collection.delete_dangling_false",
    "Verif.Collection.delete_other_device_false",
    "Verif.Collection.delete_wrong_link_false",
    "Verif.Collection.free_collection_dangling_false"
   ],
   "note": "Proved for collections of the device of the resource with one link to its path; the other cases are false (witnesses)."
  },
  {
   "property": "C98",
   "status": "partial",
   "theorems": [
    "Verif.Collection.only_permitted_partial",
    "Verif.Collection.interface_bypassed_false"
   ],
   "note": "Method and access control are proved for all requests and nestings; that the interfaces of the linked resource are respected is false (witness)."
  },
  {
   "property": "C99",
   "status": "partial",
   "theorems": [
    "Verif.Collection.batch_get",
    "Verif.Collection.batch_post_partial",
    "Verif.Collection.list_get",
    "Verif.Collection.too_big",
    "Verif.Collection.stale_payload_false",
    "Verif.Collection.earlier_error_false",
    "Verif.Collection.unknown_href_false",
    "Verif.Collection.member_names_false",
    "Verif.Collection.partly_applied_false",
    "Verif.Collection.empty_collection_false",
    "Verif.Collection.baseline_post_false",
    "Verif.Collection.nested_error_false"
   ],
   "note": "Exact for collections that link no other collection and well-formed items; witnesses for what is false of the code."
  },
  {
   "property": "C100",
   "status": "partial",
   "theorems": [
    "Verif.Collection.ends_partial",
    "Verif.Collection.cycle_ub"
   ],
   "note": "Proved when collections are not linked in a cycle; with a cycle it is false (witness)."
  },
  {
   "property": "C101",
   "status": "partial",
   "theorems": [
    "Verif.StrArr.new_array",
    "Verif.StrArr.add_item",
    "Verif.StrArr.add_all",
    "Verif.StrArr.add_byte_item",
    "Verif.StrArr.byte_item",
    "Verif.StrArr.set_item_ub"
   ],
   "note": "All arrays and texts. Setting an item of a text array with an index outside of it is not refused (witness); the byte array asserts instead."
  },
  {
   "property": "C102",
   "status": "partial",
   "theorems": [
    "Verif.StrArr.join_partial",
    "Verif.StrArr.set_string_partial",
    "Verif.StrArr.concat_strings",
    "Verif.StrArr.equal_iff",
    "Verif.StrArr.join_empty_ub",
    "Verif.StrArr.set_alias_ub"
   ],
   "note": "An array without texts and setting a string to a part of itself are false of the code (witnesses)."
  },
  {
   "property": "C103",
   "status": "partial",
   "theorems": [
    "Verif.CloudRd.kept_partial",
    "Verif.CloudRd.removed_once",
    "Verif.CloudRd.add_result",
    "Verif.CloudRd.collection_ub"
   ],
   "note": "All histories in which a tracked resource is not freed as a collection; otherwise undefined (witness)."
  },
  {
   "property": "C104",
   "status": "proved",
   "theorems": [
    "Verif.CloudRd.requests",
    "Verif.CloudRd.logged_in",
    "Verif.CloudRd.removal"
   ],
   "note": "All states; ids of 64 bits and a header of at least 100 bytes. The bytes of the payload are abstracted to the list of links."
  },
  {
   "property": "C105",
   "status": "partial",
   "theorems": [
    "Verif.CloudRd.directory_partial",
    "Verif.CloudRd.hourly_step",
    "Verif.CloudRd.hourly_only_logged_in",
    "Verif.CloudRd.deleted_unanswered_false",
    "Verif.CloudRd.republished_false",
    "Verif.CloudRd.added_again_false",
    "Verif.CloudRd.lost_false"
   ],
   "note": "Proved for all interleavings in which nothing is lost, no resource is deleted while its publication is unanswered and none added again while its removal waits; otherwise false (witnesses)."
  },
  {
   "property": "C106",
   "status": "partial",
   "theorems": [
    "Verif.Certs.allowed_algorithms",
    "Verif.Certs.ca_sound",
    "Verif.Certs.ca_partial",
    "Verif.Certs.root_false",
    "Verif.Certs.intermediate_false",
    "Verif.Certs.tiers_false",
    "Verif.Certs.issuer_ub",
    "Verif.Certs.rsa_key_ub"
   ],
   "note": "Everything but the names is proved for all certificates; that roots are exactly the self-issued ones needs names of different lengths for different names (witnesses otherwise)."
  },
  {
   "property": "C107",
   "status": "partial",
   "theorems": [
    "Verif.Certs.leaf_sound",
    "Verif.Certs.leaf_partial",
    "Verif.Certs.leaf_exclusive",
    "Verif.Certs.rsa_key_ub"
   ],
   "note": "All certificates with a key on an elliptic curve; others signed by ECDSA are undefined behaviour (witness)."
  },
  {
   "property": "C108",
   "status": "partial",
   "theorems": [
    "Verif.Certs.chain_checked",
    "Verif.Certs.authorised_partial",
    "Verif.Certs.identity_of_leaf",
    "Verif.Certs.accepted",
    "Verif.Certs.loop_stops_false",
    "Verif.Certs.stale_root_false",
    "Verif.Certs.removed_anchor_ub"
   ],
   "note": "The checks of the chain and acceptance of proper peers for all chains; authorisation for a first handshake when all CAs are trusted CAs of the device, otherwise false (witnesses). Signatures and the building of the chain are those of mbedtls."
  },
  {
   "property": "C109",
   "status": "partial",
   "theorems": [
    "Verif.Certs.cn_uuid",
    "Verif.Certs.cn_round_trip",
    "Verif.Certs.wildcard_cn_false",
    "Verif.Certs.garbage_uuid_false",
    "Verif.Certs.cn_ub"
   ],
   "note": "All names and UUIDs; texts that are no UUID and the wildcard are false (witnesses)."
  },
  {
   "property": "C110",
   "status": "partial",
   "theorems": [
    "Verif.Certs.assert_sound",
    "Verif.Certs.assert_partial",
    "Verif.Certs.role_perms",
    "Verif.Certs.role_key_ub",
    "Verif.Certs.role_other_anchor_false",
    "Verif.Certs.role_uppercase_false"
   ],
   "note": "Sound for all certificates; complete for UUIDs in lower case; witnesses for what is false of the code."
  },
  {
   "property": "C111",
   "status": "partial",
   "theorems": [
    "Verif.Certs.unix_time",
    "Verif.Certs.before_1970_false"
   ],
   "note": "All dates from 1970 to 9999; earlier ones are false (witness)."
  },
  {
   "property": "C112",
   "status": "partial",
   "theorems": [
    "Verif.Discovery.listed_iff",
    "Verif.Discovery.listed_once",
    "Verif.Discovery.endpoints_iff",
    "Verif.Discovery.links_answer",
    "Verif.Discovery.baseline_answer_partial",
    "Verif.Discovery.batch_needs_security",
    "Verif.Discovery.other_domain_silent",
    "Verif.Discovery.baseline_no_match_false",
    "Verif.Discovery.lower_is_ascii_lower"
   ],
   "note": "Exact for all devices and requests; over the baseline interface a request that matches nothing is answered (witness)."
  },
  {
   "property": "C113",
   "status": "partial",
   "theorems": [
    "Verif.Discovery.sync_up_to_date_partial",
    "Verif.Discovery.batch_items",
    "Verif.Discovery.incEtag_greatest",
    "Verif.Discovery.full_answer",
    "Verif.Discovery.granted_missing_false",
    "Verif.Discovery.deleted_kept_false",
    "Verif.Discovery.long_path_false"
   ],
   "note": "All histories without growing access and with paths of at most 256 bytes; deletions are never told (witnesses)."
  },
  {
   "property": "C114",
   "status": "partial",
   "theorems": [
    "Verif.Discovery.client_learns_directory",
    "Verif.Discovery.stop_prefix",
    "Verif.Discovery.missing_policy",
    "Verif.Discovery.array_payload_safe_partial",
    "Verif.Discovery.map_payload_ub",
    "Verif.Discovery.short_anchor_ub",
    "Verif.Discovery.stale_link_false",
    "Verif.Discovery.rel_after_if_false",
    "Verif.Discovery.eps_before_anchor_false",
    "Verif.Discovery.links_property_false",
    "Verif.Discovery.two_arrays_leak_false",
    "Verif.Discovery.more_to_come_false"
   ],
   "note": "Exact for what a device of this library sends, between hosts with the same family of addresses; of other payloads much is false (witnesses)."
  },
  {
   "property": "C115",
   "status": "partial",
   "theorems": [
    "Verif.Tls.messages_in_order_partial",
    "Verif.Tls.all_delivered_partial",
    "Verif.Tls.one_record_each",
    "Verif.Tls.oversized_closes",
    "Verif.Tls.second_message_waits_false",
    "Verif.Tls.short_frame_ub",
    "Verif.Tls.short_frame_static_ub",
    "Verif.Tls.six_byte_frame_false"
   ],
   "note": "All sequences of messages of more than six bytes, all cuts and schedules; shorter messages break it (witnesses)."
  },
  {
   "property": "C116",
   "status": "partial",
   "theorems": [
    "Verif.Tls.globals",
    "Verif.Tls.sets_up_iff",
    "Verif.Tls.server_suites",
    "Verif.Tls.anon_iff",
    "Verif.Tls.server_authenticates_partial",
    "Verif.Tls.client_suites",
    "Verif.Tls.single_doc",
    "Verif.Tls.own_chain",
    "Verif.Tls.anon_leak_false",
    "Verif.Tls.cloud_leak_false",
    "Verif.Tls.choice_lost_false",
    "Verif.Tls.ident_leak_false"
   ],
   "note": "Exact for all histories; that a choice concerns the connection it was made for is false (witnesses)."
  },
  {
   "property": "C117",
   "status": "partial",
   "theorems": [
    "Verif.Tls.psk_exact",
    "Verif.Tls.psk_sound",
    "Verif.Tls.peers_agree",
    "Verif.Tls.pin_agrees",
    "Verif.Tls.short_identity_false",
    "Verif.Tls.long_identity_false",
    "Verif.Tls.short_identity_ub",
    "Verif.Tls.pin_shared_false"
   ],
   "note": "Exact for identities of the right form; others are completed, cut or read out of bounds (witnesses)."
  },
  {
   "property": "C118",
   "status": "partial",
   "theorems": [
    "Verif.Tls.prf_rfc5246",
    "Verif.Tls.owner_key_exact",
    "Verif.Tls.no_session_no_key",
    "Verif.Tls.owner_agrees",
    "Verif.Tls.key_block_partial",
    "Verif.Tls.otm_suites_known",
    "Verif.Tls.public_owner_key_false",
    "Verif.Tls.no_memory_ub"
   ],
   "note": "Exact for all sessions; over four suites the key is public (witness). HMAC-SHA256 is a parameter with results of 32 bytes."
  },
  {
   "property": "C119",
   "status": "partial",
   "theorems": [
    "Verif.Swu.post_accepts_iff",
    "Verif.Swu.post_effect",
    "Verif.Swu.validate_agrees",
    "Verif.Swu.run_safe",
    "Verif.Swu.urls_checked_partial",
    "Verif.Swu.performed_once",
    "Verif.Swu.stored_partial",
    "Verif.Swu.restart_resumes",
    "Verif.Swu.clk_ok",
    "Verif.Swu.empty_url_false",
    "Verif.Swu.never_set_url_false",
    "Verif.Swu.null_url_false",
    "Verif.Swu.past_time_false",
    "Verif.Swu.arranged_lost_false",
    "Verif.Swu.arranged_replaced_false",
    "Verif.Swu.target_not_saved_false"
   ],
   "note": "All histories; empty URLs, past times, reports in between and the target mode break it (witnesses)."
  },
  {
   "property": "C120",
   "status": "partial",
   "theorems": [
    "Verif.Obt.run_safe_partial",
    "Verif.Obt.transfer_truthful_partial",
    "Verif.Obt.called_once_partial",
    "Verif.Obt.answered_ends_partial",
    "Verif.Obt.forgotten_partial",
    "Verif.Obt.pin_credential_temporary_partial",
    "Verif.Obt.retry_in_callback_ub",
    "Verif.Obt.two_transfers_ub",
    "Verif.Obt.late_endpoints_ub",
    "Verif.Obt.pin_credential_ub",
    "Verif.Obt.refused_start_false",
    "Verif.Obt.told_other_uuid_false",
    "Verif.Obt.rediscovery_false",
    "Verif.Obt.orphaned_false",
    "Verif.Obt.method_offered",
    "Verif.Obt.discovery_filter"
   ],
   "note": "All histories with one procedure per device at a time; otherwise freed memory is used (witnesses)."
  },
  {
   "property": "C121",
   "status": "partial",
   "theorems": [
    "Verif.Obt.provisioning_truthful_partial",
    "Verif.Obt.run_safe_partial",
    "Verif.Obt.called_once_partial",
    "Verif.Obt.answered_ends_partial",
    "Verif.Obt.two_resets_ub",
    "Verif.Obt.reset_while_provisioning_ub",
    "Verif.Obt.failed_entry_false",
    "Verif.Obt.reset_unreported_false",
    "Verif.Obt.not_owned_refused",
    "Verif.Obt.discovery_filter"
   ],
   "note": "All histories with one procedure per device at a time; otherwise freed memory is used (witnesses). Certificates, roles and removal of entries are not modelled."
  },
  {
   "property": "C122",
   "status": "partial",
   "theorems": [
    "Verif.Dhcp.hex_text",
    "Verif.Dhcp.reads_unique",
    "Verif.Dhcp.hex_round_trip",
    "Verif.Dhcp.parse_exact",
    "Verif.Dhcp.set_values_partial",
    "Verif.Dhcp.hex_malformed_false",
    "Verif.Dhcp.parse_foreign_false",
    "Verif.Dhcp.address_kept_false",
    "Verif.Dhcp.fingerprint_alone_false"
   ],
   "note": "Exact for every text and option list; the texts of addresses are not checked by the code. Witnesses for the listed failures."
  },
  {
   "property": "C123",
   "status": "partial",
   "theorems": [
    "Verif.Dps.Retry.configuration",
    "Verif.Dps.Retry.schedule",
    "Verif.Dps.Retry.reset_fresh",
    "Verif.Dps.Retry.readable_partial",
    "Verif.Dps.Retry.counter_ub"
   ],
   "note": "The schedule is exact for every configuration and number of failures with the built-in scheduler; witness for a custom one."
  },
  {
   "property": "C124",
   "status": "partial",
   "theorems": [
    "Verif.Dps.Pin.without_pin",
    "Verif.Dps.Pin.with_pin",
    "Verif.Dps.Pin.with_pin_single_partial",
    "Verif.Dps.Pin.pin_partial",
    "Verif.Dps.Pin.pin_untrusted_false",
    "Verif.Dps.Pin.pin_unsigned_false"
   ],
   "note": "Exact description of what is accepted; the intended property fails (witnesses)."
  },
  {
   "property": "C125",
   "status": "partial",
   "theorems": [
    "Verif.Dps.Cert.state_exact",
    "Verif.Dps.Cert.check_exact",
    "Verif.Dps.Cert.renewal_partial",
    "Verif.Dps.Cert.renewal_late_false",
    "Verif.Dps.Cert.renewal_short_false",
    "Verif.Dps.Cert.clock_unknown_false"
   ],
   "note": "Exact classification and check; renewal in time for the last certificate of each chain, witnesses for the others."
  },
  {
   "property": "C126",
   "status": "proved",
   "theorems": [
    "Verif.Dps.Prov.status_ordered",
    "Verif.Dps.Prov.status_truthful",
    "Verif.Dps.Prov.asks_in_order",
    "Verif.Dps.Prov.cloud_only_when_complete",
    "Verif.Dps.Prov.third_timeout_starts_over"
   ],
   "note": "All histories of the modelled state machine; contents of answers are abstracted to whether they can be applied."
  },
  {
   "property": "C127",
   "status": "partial",
   "theorems": [
    "Verif.Dps.Prov.provisioning_goes_on_partial",
    "Verif.Dps.Prov.recovers_partial",
    "Verif.Dps.Prov.renewal_repeats",
    "Verif.Dps.Prov.complete_is_watched",
    "Verif.Dps.Prov.watch_goes_on",
    "Verif.Dps.Prov.stop_final_partial",
    "Verif.Dps.Prov.cloud_answer_stuck_false",
    "Verif.Dps.Prov.no_cloud_context_stuck_false",
    "Verif.Dps.Prov.reset_stuck_false",
    "Verif.Dps.Prov.renewal_livelock_false",
    "Verif.Dps.Prov.stop_answer_false",
    "Verif.Dps.Prov.stop_interface_false"
   ],
   "note": "Holds for histories without the listed events; witnesses for each."
  },
  {
   "property": "C128",
   "status": "partial",
   "theorems": [
    "Verif.Process.Dispatch.calls_partial",
    "Verif.Process.Dispatch.running_partial",
    "Verif.Process.Dispatch.events_in_order",
    "Verif.Process.Dispatch.event_delivered",
    "Verif.Process.Dispatch.poll_not_lost",
    "Verif.Process.Dispatch.poll_recorded",
    "Verif.Process.Dispatch.poll_delivered",
    "Verif.Process.Dispatch.ended_leaves",
    "Verif.Process.Dispatch.self_exit_false",
    "Verif.Process.Dispatch.exit_caller_false",
    "Verif.Process.Dispatch.broadcast_twice_false",
    "Verif.Process.Dispatch.exit_untold_false"
   ],
   "note": "All histories in which no process with an active call is exited; witnesses otherwise. That a broadcast reaches every process is not proved."
  },
  {
   "property": "C129",
   "status": "partial",
   "theorems": [
    "Verif.Push.pushed_partial",
    "Verif.Push.nothing_pushed",
    "Verif.Push.interfaces_never_match",
    "Verif.Push.interfaces_false",
    "Verif.Push.state_rule",
    "Verif.Push.recovers",
    "Verif.Push.refused_update_false",
    "Verif.Push.aimed_partial",
    "Verif.Push.cleared_target_false",
    "Verif.Push.pathless_target_false",
    "Verif.Push.one_request_partial",
    "Verif.Push.two_requests_false",
    "Verif.Push.deleted_response_ub",
    "Verif.Push.change_lost_false",
    "Verif.Push.refused_create"
   ],
   "note": "All histories; conditions on interfaces, cleared or refused targets and changes while a response is awaited break it (witnesses)."
  },
  {
   "property": "C130",
   "status": "partial",
   "theorems": [
    "Verif.PushRecv.receivers_partial",
    "Verif.PushRecv.prefix_delete_false",
    "Verif.PushRecv.prefix_create_false",
    "Verif.PushRecv.prefix_push_false",
    "Verif.PushRecv.own_resource_false",
    "Verif.PushRecv.other_path_false",
    "Verif.PushRecv.no_slash_false",
    "Verif.PushRecv.half_update_false",
    "Verif.PushRecv.second_types_false",
    "Verif.PushRecv.common_only_false",
    "Verif.PushRecv.altered_false",
    "Verif.PushRecv.dangling_ub"
   ],
   "note": "Refinement to a table for all histories with free, prefix-free paths and clean payloads; witnesses for the others."
  },
  {
   "property": "C131",
   "status": "partial",
   "theorems": [
    "Verif.Factory.lowest_partial",
    "Verif.Factory.uri_fits",
    "Verif.Factory.member_names_partial",
    "Verif.Factory.members_partial",
    "Verif.Factory.zero_false",
    "Verif.Factory.twice_false",
    "Verif.Factory.sign_false",
    "Verif.Factory.random_false",
    "Verif.Factory.elsewhere_false",
    "Verif.Factory.example_history"
   ],
   "note": "All histories of a collection whose URI leaves room for the number and whose other members are not read as numbers; witnesses for the others."
  },
  {
   "property": "C132",
   "status": "partial",
   "theorems": [
    "Verif.Factory.create_decided",
    "Verif.Factory.history_young",
    "Verif.Factory.created_partial",
    "Verif.Factory.creator_granted_partial",
    "Verif.Factory.only_creator_partial",
    "Verif.Factory.deleted_partial",
    "Verif.Factory.free_all_partial",
    "Verif.Factory.free_all_ub",
    "Verif.Factory.first_factory",
    "Verif.Factory.stale_grant_false",
    "Verif.Factory.wildcard_entry_false",
    "Verif.Factory.anonymous_creator_false",
    "Verif.Factory.other_array_false",
    "Verif.Factory.second_type_false",
    "Verif.Factory.policy_order_false",
    "Verif.Factory.second_factory_false"
   ],
   "note": "Same histories as C131; the decision holds in every state. Witnesses for what a client can do beyond."
  },
  {
   "property": "C133",
   "status": "partial",
   "theorems": [
    "Verif.TcpConn.story",
    "Verif.TcpConn.stories",
    "Verif.TcpConn.sent_in_order",
    "Verif.TcpConn.told_once",
    "Verif.TcpConn.told_at_end",
    "Verif.TcpConn.refs_balanced",
    "Verif.TcpConn.send_open",
    "Verif.TcpConn.send_queued",
    "Verif.TcpConn.accepted_closed",
    "Verif.TcpConn.own_session",
    "Verif.TcpConn.ready_decides",
    "Verif.TcpConn.send2_opens_nothing",
    "Verif.TcpConn.tick_told",
    "Verif.TcpConn.close_told",
    "Verif.TcpConn.torn_false",
    "Verif.TcpConn.nonblocking_false"
   ],
   "note": "All histories of calls with descriptors 1..1023, scopes below 255 and memory for the session of a retry; that the stream carries whole messages is false and witnessed."
  },
  {
   "property": "C134",
   "status": "partial",
   "theorems": [
    "Verif.TcpConn.sockets",
    "Verif.TcpConn.one_connection",
    "Verif.TcpConn.new_connection",
    "Verif.TcpConn.tick_fresh",
    "Verif.TcpConn.tick_attempts",
    "Verif.TcpConn.in_time",
    "Verif.TcpConn.ended_not_found",
    "Verif.TcpConn.shutdown_closes",
    "Verif.TcpConn.new_id",
    "Verif.TcpConn.leak_false",
    "Verif.TcpConn.fd_zero_false",
    "Verif.TcpConn.fdset_ub",
    "Verif.TcpConn.scope_ub",
    "Verif.TcpConn.late_false",
    "Verif.TcpConn.zero_timeout_false",
    "Verif.TcpConn.race_false"
   ],
   "note": "Same histories as C133; witnesses for the excluded ones and for the time of the next check."
  },
  {
   "property": "C135",
   "status": "partial",
   "theorems": [
    "Verif.Engine.reply_shape",
    "Verif.Engine.answered",
    "Verif.Engine.refused",
    "Verif.Engine.during_reset",
    "Verif.Engine.repeated",
    "Verif.Engine.settled_once",
    "Verif.Engine.quiet",
    "Verif.Engine.conversation_ends",
    "Verif.Engine.upload_refused",
    "Verif.Engine.upload_continues",
    "Verif.Engine.upload_ends",
    "Verif.Engine.not_twice",
    "Verif.Engine.during_reset_false",
    "Verif.Engine.settled_once_false",
    "Verif.Engine.ping_false",
    "Verif.Engine.unwanted_false",
    "Verif.Engine.type_false",
    "Verif.Engine.invalid_false",
    "Verif.Engine.stranger_false"
   ],
   "note": "All states whose transactions have identities given out (every reachable one); the exceptions are witnessed."
  },
  {
   "property": "C136",
   "status": "partial",
   "theorems": [
    "Verif.Engine.never_fails",
    "Verif.Engine.distinct_ids",
    "Verif.Engine.to_asker",
    "Verif.Engine.tcp_invalid",
    "Verif.Engine.tcp_block_not_served",
    "Verif.Engine.tcp_block_first_ub",
    "Verif.Engine.tcp_block_ub",
    "Verif.Engine.tcp_block_elsewhere_false",
    "Verif.Engine.tcp_block_silent_false"
   ],
   "note": "All histories without block options over TCP; the excluded ones are witnessed."
  },
  {
   "property": "C137",
   "status": "partial",
   "theorems": [
    "Verif.Engine.ping_pong",
    "Verif.Engine.release",
    "Verif.Engine.csm_answer",
    "Verif.Engine.signal_not_served",
    "Verif.Engine.after_csm",
    "Verif.Engine.csm_ends",
    "Verif.Engine.csm_again_false",
    "Verif.Engine.csm_missing_false",
    "Verif.Engine.signal_udp_false"
   ],
   "note": "Signals over TCP; the exceptions are witnessed."
  },
  {
   "property": "C138",
   "status": "partial",
   "theorems": [
    "Verif.Batch.defined",
    "Verif.Batch.pending_valid",
    "Verif.Batch.pending_once",
    "Verif.Batch.gone_not_pending",
    "Verif.Batch.told_true",
    "Verif.Batch.up_to_date",
    "Verif.Batch.never_stalls",
    "Verif.Batch.settles",
    "Verif.Batch.unlisted_ub",
    "Verif.Batch.long_uri_ub",
    "Verif.Batch.stuck_behind_get_false",
    "Verif.Batch.merged_lost_false",
    "Verif.Batch.not_retried_false",
    "Verif.Batch.too_large_lost_false",
    "Verif.Batch.failed_add_false",
    "Verif.Batch.hidden_removed_false"
   ],
   "note": "Safety for all histories in which only added resources are changed and uris have at most 256 bytes; that everything is told for histories without failures and without ordinary transfers to observers. Witnesses for the others."
  },
  {
   "property": "C139",
   "status": "partial",
   "theorems": [
    "Verif.Notify.to_observers",
    "Verif.Notify.discovery_to_observers",
    "Verif.Notify.quiet",
    "Verif.Notify.notified",
    "Verif.Notify.notified_given",
    "Verif.Notify.discovery_notified",
    "Verif.Notify.sequence",
    "Verif.Notify.numbers",
    "Verif.Notify.ignored",
    "Verif.Notify.iface_false",
    "Verif.Notify.busy_lost_false",
    "Verif.Notify.shared_code_false",
    "Verif.Notify.error_untold_false",
    "Verif.Notify.error_stays_false",
    "Verif.Notify.leaked_false",
    "Verif.Notify.rest_untold_false",
    "Verif.Notify.collection_skipped_false"
   ],
   "note": "Recipients for every outcome; exact output when nothing fails, no observer is receiving blocks or asked for the revert interface, and every linking collection is observed. Witnesses for the others."
  },
  {
   "property": "C140",
   "status": "partial",
   "theorems": [
    "Verif.OscoreEng.request_authentic",
    "Verif.OscoreEng.request_window",
    "Verif.OscoreEng.request_again_refused",
    "Verif.OscoreEng.response_authentic",
    "Verif.OscoreEng.odd_refused",
    "Verif.OscoreEng.nonces_fresh",
    "Verif.OscoreEng.never_plain",
    "Verif.OscoreEng.request_sent",
    "Verif.OscoreEng.request_delivered",
    "Verif.OscoreEng.response_delivered",
    "Verif.OscoreEng.group_post_only",
    "Verif.OscoreEng.no_group_error",
    "Verif.OscoreEng.notifications_in_order",
    "Verif.OscoreEng.plain_response_false",
    "Verif.OscoreEng.notification_again_false",
    "Verif.OscoreEng.notification_old_false",
    "Verif.OscoreEng.retransmission_false",
    "Verif.OscoreEng.late_response_false",
    "Verif.OscoreEng.request_twice_false",
    "Verif.OscoreEng.observe_changed_false",
    "Verif.OscoreEng.response_answered_false",
    "Verif.OscoreEng.empty_id_false",
    "Verif.OscoreEng.group_device_false",
    "Verif.OscoreEng.clone_ub"
   ],
   "note": "With an ideal AEAD: ciphertexts under a key are made only by its holders. Witnesses for unprotected responses, repeated and old notifications, retransmissions, the Observe value and errors."
  },
  {
   "property": "C141",
   "status": "partial",
   "theorems": [
    "Verif.TlsPeers.refs_conserved",
    "Verif.TlsPeers.no_freed_partial",
    "Verif.TlsPeers.stale_event_ub",
    "Verif.TlsPeers.assert_closed_ub",
    "Verif.TlsPeers.callback_close_ub",
    "Verif.TlsPeers.sessions_distinct",
    "Verif.TlsPeers.numbered",
    "Verif.TlsPeers.not_normal_unsent",
    "Verif.TlsPeers.made_connection",
    "Verif.TlsPeers.closed_exactly",
    "Verif.TlsPeers.removed_gone",
    "Verif.TlsPeers.tcp_close_one_false",
    "Verif.TlsPeers.reset_closes",
    "Verif.TlsPeers.all_closed",
    "Verif.TlsPeers.onboarding_single",
    "Verif.TlsPeers.onboarding_method",
    "Verif.TlsPeers.idle_bound",
    "Verif.TlsPeers.active_kept",
    "Verif.TlsPeers.queued_last",
    "Verif.TlsPeers.flushed",
    "Verif.TlsPeers.over_writes",
    "Verif.TlsPeers.retry_stuck_false",
    "Verif.TlsPeers.roles_stuck_false",
    "Verif.TlsPeers.overtake_false",
    "Verif.TlsPeers.want_lost_false"
   ],
   "note": "mbedtls is an oracle. Memory safety for tame histories (no throwing away of a session with events, no assertion of roles on sessions closed meanwhile, no closing from callbacks); witnesses for each of the others, and for messages that stay, are lost or overtake."
  },
  {
   "property": "C142",
   "status": "partial",
   "theorems": [
    "Verif.Encode.carries",
    "Verif.Encode.stored_exactly",
    "Verif.Encode.posted_exactly",
    "Verif.Encode.timed_exactly",
    "Verif.Encode.too_long_false",
    "Verif.Encode.long_answer_ub",
    "Verif.Encode.long_answer_false",
    "Verif.Encode.get_between_ub",
    "Verif.Encode.store_between_false",
    "Verif.Encode.closed_between_ub",
    "Verif.Encode.not_serialised_ub",
    "Verif.Encode.store_first_ub",
    "Verif.Encode.request_first_false",
    "Verif.Encode.update_false",
    "Verif.Encode.update_not_begun_ub",
    "Verif.Encode.sticky_format_false",
    "Verif.Encode.unknown_accept_false",
    "Verif.Encode.twice_false"
   ],
   "note": "Refinement of histories of jobs to a list of messages, for all jobs whose payloads fit; stored records and whole requests from every state. The interleavings for which the statement is false of the code are proved as witnesses. tinycbor is a parameter, memory allocation succeeds, the blocks of a payload are one step."
  },
  {
   "property": "C143",
   "status": "partial",
   "theorems": [
    "Verif.Life.defined_partial",
    "Verif.Life.sound",
    "Verif.Life.truthful_partial",
    "Verif.Life.one_uri",
    "Verif.Life.counted",
    "Verif.Life.deleted",
    "Verif.Life.collection_deleted",
    "Verif.Life.deleted_later",
    "Verif.Life.due_deletes",
    "Verif.Life.change_told",
    "Verif.Life.links_told",
    "Verif.Life.observed",
    "Verif.Life.left",
    "Verif.Life.reset_ends",
    "Verif.Life.added",
    "Verif.Life.linked",
    "Verif.Life.unlinked",
    "Verif.Life.cancelled",
    "Verif.Life.callbacks_once",
    "Verif.Life.scheduled",
    "Verif.Life.due_told",
    "Verif.Life.others_told",
    "Verif.Life.collection_observed_ub",
    "Verif.Life.collection_reused_false",
    "Verif.Life.collection_pending_ub",
    "Verif.Life.collection_linked_ub",
    "Verif.Life.linked_twice_ub",
    "Verif.Life.linked_elsewhere_ub",
    "Verif.Life.linked_namesake_ub",
    "Verif.Life.linked_early_ub",
    "Verif.Life.second_collection_false"
   ],
   "note": "For applications that do what Minded says; a witness for each of its conditions that concerns links and collections. What is sent, discovery, periodic callbacks and created resources are in other areas."
  },
  {
   "property": "C144",
   "status": "partial",
   "theorems": [
    "Verif.ObtRead.acl_read_partial",
    "Verif.ObtRead.ace_read",
    "Verif.ObtRead.acl_error",
    "Verif.ObtRead.creds_read",
    "Verif.ObtRead.no_creds",
    "Verif.ObtRead.private_kept",
    "Verif.ObtRead.creds_error",
    "Verif.ObtRead.once",
    "Verif.ObtRead.answered",
    "Verif.ObtRead.failed",
    "Verif.ObtRead.started",
    "Verif.ObtRead.empty_acl_ub",
    "Verif.ObtRead.no_list_ub",
    "Verif.ObtRead.unknown_conn_false",
    "Verif.ObtRead.role_type_ub",
    "Verif.ObtRead.second_array_false",
    "Verif.ObtRead.star_subject_false",
    "Verif.ObtRead.cred_role_type_ub"
   ],
   "note": "Round trip from every reachable list of the device to the callback of the tool, independence of the answer from private data, and callbacks for all histories. False of the code, with witnesses: an empty list or a response without a payload, roles that are no text (undefined behaviour); unknown types of connections, a second array, subjects that start with the byte of the wildcard."
  },
  {
   "property": "C145",
   "status": "partial",
   "theorems": [
    "Verif.ObtDel.ace_gone",
    "Verif.ObtDel.cred_gone",
    "Verif.ObtDel.refused",
    "Verif.ObtDel.only_this",
    "Verif.ObtDel.asked",
    "Verif.ObtDel.apart",
    "Verif.ObtDel.not_started",
    "Verif.ObtDel.once",
    "Verif.ObtDel.truthful_partial",
    "Verif.ObtDel.ends",
    "Verif.ObtDel.works",
    "Verif.ObtDel.zero_false",
    "Verif.ObtDel.left_false",
    "Verif.ObtDel.lost_false",
    "Verif.ObtDel.timeout_false"
   ],
   "note": "Invariant over all histories of the tool and its devices. Missing from truthfulness: failures with the code of a request timeout, which the code takes for success (witness timeout_false). Also false of the code: an entry with id 0 can be deleted; a device is returned to normal operation when a deletion fails; failure told means nothing was deleted."
  },
  {
   "property": "C146",
   "status": "partial",
   "theorems": [
    "Verif.ObtInit.round_trip",
    "Verif.ObtInit.unknown_ignored",
    "Verif.ObtInit.load_safe",
    "Verif.ObtInit.ctx_apart",
    "Verif.ObtInit.first",
    "Verif.ObtInit.no_new",
    "Verif.ObtInit.kept",
    "Verif.ObtInit.never_ub",
    "Verif.ObtInit.crash_partial",
    "Verif.ObtInit.crash_false",
    "Verif.ObtInit.again_false",
    "Verif.ObtInit.unsaved_false",
    "Verif.ObtInit.key_ub",
    "Verif.ObtInit.gid_ub"
   ],
   "note": "All histories of starts, crashes and restarts. False of the code, with witnesses: after a crash between the first and the last write, after a failed first start, and after a write that failed, the next start succeeds without the keys (a group secret of zeros, no root certificate); stored keys of wrong sizes leave the arrays."
  },
  {
   "property": "C147",
   "status": "partial",
   "theorems": [
    "Verif.ObtFind.lists",
    "Verif.ObtFind.told_live",
    "Verif.ObtFind.told_what",
    "Verif.ObtFind.asked_why",
    "Verif.ObtFind.others_kept",
    "Verif.ObtFind.ended",
    "Verif.ObtFind.owned_found",
    "Verif.ObtFind.unowned_found",
    "Verif.ObtFind.ignored",
    "Verif.ObtFind.self_ignored",
    "Verif.ObtFind.nothing",
    "Verif.ObtFind.expired",
    "Verif.ObtFind.devices_stay",
    "Verif.ObtFind.begun",
    "Verif.ObtFind.safe_partial",
    "Verif.ObtFind.no_uuid_ub",
    "Verif.ObtFind.no_list_ub",
    "Verif.ObtFind.short_anchor_ub",
    "Verif.ObtFind.ep_type_ub",
    "Verif.ObtFind.ep_name_false",
    "Verif.ObtFind.two_false",
    "Verif.ObtFind.family_false"
   ],
   "note": "Invariant over all histories and the way from what a device says to what the application is told. False of the code, with witnesses: an answer without a UUID, without a list of links, with a short anchor or with an `ep` that is no text is undefined behaviour; a text of any name is taken for an endpoint; of two discoveries answered before the endpoints are asked for, one is never told; an answer with endpoints of the other family only empties those of a known device."
  },
  {
   "property": "C148",
   "status": "partial",
   "theorems": [
    "Verif.ConRes.names",
    "Verif.ConRes.names_total",
    "Verif.ConRes.accepted",
    "Verif.ConRes.post_get",
    "Verif.ConRes.refused_partial",
    "Verif.ConRes.located",
    "Verif.ConRes.get_safe",
    "Verif.ConRes.others",
    "Verif.ConRes.cb_set",
    "Verif.ConRes.half_false",
    "Verif.ConRes.late_false"
   ],
   "note": "Exact condition for success and effect of every request. False of the code, with witnesses: a request with a name and a location that cannot be set is refused after the name was changed and observers were notified; a callback for writes is not set for devices added later."
  }
 ]
}