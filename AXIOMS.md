# Axioms of the theorems named in MANIFEST.json

Output of `#print axioms`, grouped.

## none

* `Verif.Memb.init_small_overrun`
* `Verif.Timer.expired_last_clock_false`
* `Verif.Blockwise.exBlk_block`
* `Verif.Blockwise.other_block_size_truncates_false`
* `Verif.Blockwise.restarted_upload_mixes_false`
* `Verif.Blockwise.client_refused_block_false`
* `Verif.Blockwise.exBuf_holds`
* `Verif.Blockwise.dispatch_unaligned_false`
* `Verif.Dedup.rep_init`
* `Verif.Dedup.first_request_mid0_false`
* `Verif.Dedup.other_client_dropped_false`
* `Verif.Dedup.confirmable_repetition_false`
* `Verif.Oscore.crash_before_save_false`
* `Verif.Oscore.multicast_reuse_false`
* `Verif.Oscore.skipped_save_false`
* `Verif.Oscore.reprovisioned_reuse_false`
* `Verif.Ael.unit_mixed_false`
* `Verif.Storage.tag_truncated_false`
* `Verif.Etag.wrap_around_false`
* `Verif.Rep.unusable_key`
* `Verif.Cred.delete_guarded`
* `Verif.Endpoint.compare_trans_false`
* `Verif.Endpoint.parsePath_ub`
* `Verif.EpAddr.remove_gone_ub`
* `Verif.Separate.unavailable_false`
* `Verif.Session.no_memory_ub`
* `Verif.StrArr.set_item_ub`
* `Verif.StrArr.join_empty_ub`
* `Verif.StrArr.set_alias_ub`
* `Verif.Tls.no_memory_ub`
* `Verif.Factory.free_all_ub`
* `Verif.Batch.unlisted_ub`
* `Verif.Batch.long_uri_ub`
* `Verif.Batch.stuck_behind_get_false`
* `Verif.Batch.merged_lost_false`
* `Verif.Batch.not_retried_false`
* `Verif.Batch.too_large_lost_false`
* `Verif.Batch.failed_add_false`
* `Verif.Batch.hidden_removed_false`
* `Verif.TlsPeers.stale_event_ub`
* `Verif.TlsPeers.assert_closed_ub`
* `Verif.TlsPeers.callback_close_ub`
* `Verif.TlsPeers.made_connection`
* `Verif.TlsPeers.tcp_close_one_false`
* `Verif.TlsPeers.retry_stuck_false`
* `Verif.TlsPeers.roles_stuck_false`
* `Verif.TlsPeers.overtake_false`
* `Verif.ObtRead.started`
* `Verif.ObtDel.not_started`

## propext

* `Verif.Mmem.inv_init`
* `Verif.Etimer.next_wakeup`
* `Verif.Process.iterate_spec`
* `Verif.Coap.header_length_65805_false`
* `Verif.Coap.reserved_length_nibble_accepted`
* `Verif.Coap.block_decode_four_bytes_false`
* `Verif.CoapMsg.exMsg_valid`
* `Verif.Query.nth_empty`
* `Verif.Query.parts_build`
* `Verif.Query.next_position_partial`
* `Verif.Query.next_position_false`
* `Verif.Query.iterate_more_false`
* `Verif.Query.iterate_case_false`
* `Verif.Acl.app_resource_kind`
* `Verif.Oscore.zero_replayed_false`
* `Verif.Oscore.old_replayed_false`
* `Verif.Oscore.forged_flush_false`
* `Verif.Oscore.forged_blocks_false`
* `Verif.Oscore.no_piv_replayed_false`
* `Verif.Storage.crash_loses_false`
* `Verif.Storage.failed_save_false`
* `Verif.Storage.dir_exists`
* `Verif.Storage.single_char_false`
* `Verif.Storage.garbage_success_false`
* `Verif.Rfc3339.format_invalid`
* `Verif.Endpoint.toCString_min_false`
* `Verif.Endpoint.parsePath_none`
* `Verif.Cloud.short_timeout_ub`
* `Verif.Session.exit_false`
* `Verif.Session.remove_self_ub`
* `Verif.PlgdTime.reset_sets_clock_false`
* `Verif.Collection.too_big`
* `Verif.CloudRd.collection_ub`
* `Verif.CloudRd.hourly_step`
* `Verif.CloudRd.hourly_only_logged_in`
* `Verif.CloudRd.lost_false`
* `Verif.Certs.root_false`
* `Verif.Certs.tiers_false`
* `Verif.Certs.issuer_ub`
* `Verif.Discovery.lower_is_ascii_lower`
* `Verif.Tls.second_message_waits_false`
* `Verif.Tls.short_frame_ub`
* `Verif.Tls.short_frame_static_ub`
* `Verif.Tls.key_block_partial`
* `Verif.Tls.otm_suites_known`
* `Verif.Dhcp.parse_foreign_false`
* `Verif.Dhcp.address_kept_false`
* `Verif.Dhcp.fingerprint_alone_false`
* `Verif.Dps.Retry.counter_ub`
* `Verif.Dps.Cert.renewal_late_false`
* `Verif.Dps.Cert.renewal_short_false`
* `Verif.Dps.Cert.clock_unknown_false`
* `Verif.Dps.Prov.renewal_repeats`
* `Verif.Dps.Prov.complete_is_watched`
* `Verif.Dps.Prov.watch_goes_on`
* `Verif.Dps.Prov.stop_final_partial`
* `Verif.Dps.Prov.reset_stuck_false`
* `Verif.Dps.Prov.renewal_livelock_false`
* `Verif.Dps.Prov.stop_answer_false`
* `Verif.Dps.Prov.stop_interface_false`
* `Verif.TcpConn.send_open`
* `Verif.Engine.during_reset_false`
* `Verif.Engine.settled_once_false`
* `Verif.Engine.ping_false`
* `Verif.Engine.unwanted_false`
* `Verif.Engine.type_false`
* `Verif.Engine.invalid_false`
* `Verif.Engine.stranger_false`
* `Verif.Engine.tcp_block_not_served`
* `Verif.Engine.tcp_block_first_ub`
* `Verif.Engine.tcp_block_ub`
* `Verif.Engine.tcp_block_elsewhere_false`
* `Verif.Engine.tcp_block_silent_false`
* `Verif.Engine.csm_again_false`
* `Verif.Engine.csm_missing_false`
* `Verif.Engine.signal_udp_false`
* `Verif.Notify.quiet`
* `Verif.Notify.iface_false`
* `Verif.Notify.busy_lost_false`
* `Verif.Notify.shared_code_false`
* `Verif.Notify.error_untold_false`
* `Verif.Notify.error_stays_false`
* `Verif.Notify.leaked_false`
* `Verif.Notify.rest_untold_false`
* `Verif.Notify.collection_skipped_false`
* `Verif.OscoreEng.no_group_error`
* `Verif.TlsPeers.not_normal_unsent`
* `Verif.TlsPeers.queued_last`
* `Verif.TlsPeers.want_lost_false`
* `Verif.Encode.timed_exactly`
* `Verif.Encode.long_answer_ub`
* `Verif.Encode.long_answer_false`
* `Verif.Encode.get_between_ub`
* `Verif.Encode.store_between_false`
* `Verif.Encode.closed_between_ub`
* `Verif.Encode.not_serialised_ub`
* `Verif.Encode.store_first_ub`
* `Verif.Encode.request_first_false`
* `Verif.Encode.update_false`
* `Verif.Encode.update_not_begun_ub`
* `Verif.Encode.sticky_format_false`
* `Verif.Encode.unknown_accept_false`
* `Verif.Encode.twice_false`
* `Verif.ObtRead.failed`
* `Verif.ObtDel.refused`
* `Verif.ObtDel.zero_false`
* `Verif.ObtDel.left_false`
* `Verif.ObtDel.lost_false`
* `Verif.ObtDel.timeout_false`
* `Verif.ObtInit.ctx_apart`

## propext, Quot.sound

* `Verif.Base64.encode_too_small`
* `Verif.Base64.decode_accepts_noncanonical`
* `Verif.Uuid.ofStr_hex`
* `Verif.Uuid.gen_version_partial`
* `Verif.Uuid.gen_variant_false`
* `Verif.Crc.crc64_chunks`
* `Verif.Hex.empty_not_roundtrip`
* `Verif.OcList.queries`
* `Verif.OcList.add_member_cycles`
* `Verif.Memb.init_spec`
* `Verif.Mmem.blocks_disjoint`
* `Verif.Timer.reset_no_drift`
* `Verif.Etimer.inv_init`
* `Verif.Etimer.no_current_process_ub`
* `Verif.Etimer.stop_keeps_queued_event`
* `Verif.Process.init_rep`
* `Verif.Coap.int_option_read`
* `Verif.Coap.int_option_zero`
* `Verif.Coap.split_empty_segment_false`
* `Verif.Coap.split_trailing_separator_overread`
* `Verif.Coap.split_unterminated_overread`
* `Verif.CoapMsg.accept_without_version_false`
* `Verif.CoapMsg.empty_message_token_false`
* `Verif.CoapMsg.serialize_zero_buffer_false`
* `Verif.CoapMsg.short_token_false`
* `Verif.CoapMsg.truncated_option_false`
* `Verif.CoapMsg.short_datagram_false`
* `Verif.TcpStream.tls_record_framed`
* `Verif.CoapMsg.exMsg_tcp`
* `Verif.TcpStream.short_messages_false`
* `Verif.TcpStream.split_header_false`
* `Verif.TcpStream.split_tls_header_false`
* `Verif.TcpStream.first_recv_interrupted_false`
* `Verif.Trans.acknowledged_removed`
* `Verif.Blockwise.server_memory_safe`
* `Verif.Blockwise.plain_request_exact`
* `Verif.Blockwise.plain_request_uninitialised_false`
* `Verif.Blockwise.dispatch_spec`
* `Verif.Blockwise.respond_exact`
* `Verif.Dedup.decides_as_spec`
* `Verif.Dedup.repetition_dropped`
* `Verif.Dedup.fresh_processed_partial`
* `Verif.Observe.byToken_spec`
* `Verif.Observe.byMid_spec`
* `Verif.Acl.update_adds`
* `Verif.Acl.delete_exact`
* `Verif.Oscore.piv_exhausted_false`
* `Verif.Oscore.piv_empty_false`
* `Verif.Oscore.nonce_is_rfc`
* `Verif.Oscore.nonce_long_piv_false`
* `Verif.Oscore.accept_iff`
* `Verif.Oscore.replay_refused_partial`
* `Verif.Oscore.no_reuse_partial`
* `Verif.Oscore.parse_layout`
* `Verif.Oscore.piv_overflow_false`
* `Verif.Oscore.truncated_piv_false`
* `Verif.Oscore.truncated_ctx_false`
* `Verif.Oscore.reserved_bits_accepted`
* `Verif.Oscore.response_kid_lost_false`
* `Verif.Ael.addEvent_inv`
* `Verif.Storage.config_single`
* `Verif.Storage.config_no_ub`
* `Verif.Storage.path_spec`
* `Verif.Storage.dir_unique`
* `Verif.Storage.genTag_spec`
* `Verif.Storage.index_fits`
* `Verif.Etag.etag_never_uninitialised`
* `Verif.Rep.getInt_spec`
* `Verif.Rep.getBool_spec`
* `Verif.Rep.getDouble_spec`
* `Verif.Rep.getByteString_spec`
* `Verif.Rep.getString_spec`
* `Verif.Rep.getIntArray_spec`
* `Verif.Rep.getBoolArray_spec`
* `Verif.Rep.getDoubleArray_spec`
* `Verif.Rep.getByteStringArray_spec`
* `Verif.Rep.getStringArray_spec`
* `Verif.Rep.getObject_spec`
* `Verif.Rep.getObjectArray_spec`
* `Verif.Rep.isNull_spec`
* `Verif.Uuid.ofStr_accepts_garbage_false`
* `Verif.Oscore.truncated_scan_false`
* `Verif.Cred.derived_key_for_owner`
* `Verif.Etag.other_length_not_valid`
* `Verif.Rfc3339.compare_order`
* `Verif.Delayed.remove_nothing`
* `Verif.Delayed.no_use_after_free_partial`
* `Verif.Delayed.poll_no_on_delete_partial`
* `Verif.Delayed.stale_on_delete_false`
* `Verif.Delayed.match_all_keeps_current_false`
* `Verif.Delayed.delete_periodic_resource_ub`
* `Verif.Delayed.other_observers_lose_periodic_false`
* `Verif.Client.released_once`
* `Verif.Client.never_after_release`
* `Verif.Client.response_token`
* `Verif.Client.init_twice_false`
* `Verif.Client.unsolicited_observe_false`
* `Verif.Client.stop_discovery_false`
* `Verif.Client.stop_multicast_false`
* `Verif.Client.bad_payload_false`
* `Verif.Client.foreign_response_false`
* `Verif.Client.old_notification_false`
* `Verif.Client.ping_close_ub`
* `Verif.Client.timeout_close_ub`
* `Verif.Client.check_next_ub`
* `Verif.Client.failed_post_ub`
* `Verif.Client.get_between_post_ub`
* `Verif.Client.stop_observe_fails_ub`
* `Verif.Endpoint.toCString_small`
* `Verif.Endpoint.linkLocal_prefix_false`
* `Verif.Endpoint.parsePath_text`
* `Verif.EpAddr.means_exists`
* `Verif.Cloud.timeouts_kept`
* `Verif.Cloud.refresh_margin`
* `Verif.Cloud.deregister_stuck_false`
* `Verif.Json.string_iff`
* `Verif.Ri.format_partial`
* `Verif.Separate.invalid_code_ub`
* `Verif.Separate.inactive_send_ub`
* `Verif.Separate.leak_false`
* `Verif.Separate.postponed_notification`
* `Verif.Separate.same_token_false`
* `Verif.Separate.busy_lost_false`
* `Verif.Separate.separate_observe_false`
* `Verif.Session.exactly_once`
* `Verif.Session.none_lost`
* `Verif.Session.order_false`
* `Verif.Session.fire_safe_partial`
* `Verif.Session.each_called`
* `Verif.Session.remove_first`
* `Verif.PlgdTime.runs`
* `Verif.MsgRef.wrap_ub`
* `Verif.MsgRef.lost_false`
* `Verif.Collection.only_permitted_partial`
* `Verif.Collection.batch_get`
* `Verif.Collection.batch_post_partial`
* `Verif.Collection.list_get`
* `Verif.Collection.ends_partial`
* `Verif.StrArr.byte_item`
* `Verif.StrArr.join_partial`
* `Verif.StrArr.set_string_partial`
* `Verif.StrArr.concat_strings`
* `Verif.StrArr.equal_iff`
* `Verif.CloudRd.add_result`
* `Verif.CloudRd.requests`
* `Verif.CloudRd.logged_in`
* `Verif.CloudRd.removal`
* `Verif.CloudRd.deleted_unanswered_false`
* `Verif.CloudRd.republished_false`
* `Verif.CloudRd.added_again_false`
* `Verif.Certs.allowed_algorithms`
* `Verif.Certs.intermediate_false`
* `Verif.Certs.rsa_key_ub`
* `Verif.Discovery.listed_iff`
* `Verif.Discovery.listed_once`
* `Verif.Discovery.other_domain_silent`
* `Verif.Discovery.batch_items`
* `Verif.Discovery.incEtag_greatest`
* `Verif.Discovery.full_answer`
* `Verif.Tls.prf_rfc5246`
* `Verif.Obt.retry_in_callback_ub`
* `Verif.Obt.two_transfers_ub`
* `Verif.Obt.late_endpoints_ub`
* `Verif.Obt.pin_credential_ub`
* `Verif.Obt.refused_start_false`
* `Verif.Obt.told_other_uuid_false`
* `Verif.Obt.rediscovery_false`
* `Verif.Obt.orphaned_false`
* `Verif.Obt.two_resets_ub`
* `Verif.Obt.reset_while_provisioning_ub`
* `Verif.Obt.failed_entry_false`
* `Verif.Obt.reset_unreported_false`
* `Verif.Obt.not_owned_refused`
* `Verif.Dhcp.hex_text`
* `Verif.Dhcp.reads_unique`
* `Verif.Dhcp.hex_round_trip`
* `Verif.Dhcp.hex_malformed_false`
* `Verif.Dps.Pin.pin_untrusted_false`
* `Verif.Dps.Pin.pin_unsigned_false`
* `Verif.Dps.Prov.cloud_answer_stuck_false`
* `Verif.Dps.Prov.no_cloud_context_stuck_false`
* `Verif.Process.Dispatch.self_exit_false`
* `Verif.Process.Dispatch.exit_caller_false`
* `Verif.Process.Dispatch.broadcast_twice_false`
* `Verif.Process.Dispatch.exit_untold_false`
* `Verif.Factory.uri_fits`
* `Verif.Factory.free_all_partial`
* `Verif.TcpConn.send_queued`
* `Verif.TcpConn.accepted_closed`
* `Verif.TcpConn.send2_opens_nothing`
* `Verif.TcpConn.tick_told`
* `Verif.TcpConn.close_told`
* `Verif.TcpConn.torn_false`
* `Verif.TcpConn.nonblocking_false`
* `Verif.TcpConn.one_connection`
* `Verif.TcpConn.new_connection`
* `Verif.TcpConn.leak_false`
* `Verif.TcpConn.fd_zero_false`
* `Verif.TcpConn.fdset_ub`
* `Verif.TcpConn.scope_ub`
* `Verif.TcpConn.late_false`
* `Verif.TcpConn.zero_timeout_false`
* `Verif.TcpConn.race_false`
* `Verif.Engine.tcp_invalid`
* `Verif.Engine.ping_pong`
* `Verif.Engine.release`
* `Verif.Engine.signal_not_served`
* `Verif.Notify.to_observers`
* `Verif.Notify.ignored`
* `Verif.OscoreEng.group_post_only`
* `Verif.OscoreEng.plain_response_false`
* `Verif.OscoreEng.notification_again_false`
* `Verif.OscoreEng.notification_old_false`
* `Verif.OscoreEng.retransmission_false`
* `Verif.OscoreEng.late_response_false`
* `Verif.OscoreEng.request_twice_false`
* `Verif.OscoreEng.observe_changed_false`
* `Verif.OscoreEng.response_answered_false`
* `Verif.OscoreEng.empty_id_false`
* `Verif.OscoreEng.group_device_false`
* `Verif.OscoreEng.clone_ub`
* `Verif.TlsPeers.onboarding_method`
* `Verif.TlsPeers.over_writes`
* `Verif.Life.due_deletes`
* `Verif.Life.due_told`
* `Verif.Life.collection_observed_ub`
* `Verif.Life.collection_reused_false`
* `Verif.Life.collection_pending_ub`
* `Verif.Life.collection_linked_ub`
* `Verif.Life.linked_twice_ub`
* `Verif.Life.linked_elsewhere_ub`
* `Verif.Life.linked_namesake_ub`
* `Verif.Life.linked_early_ub`
* `Verif.Life.second_collection_false`
* `Verif.ObtDel.ace_gone`
* `Verif.ObtDel.only_this`
* `Verif.ObtDel.apart`
* `Verif.ObtDel.once`
* `Verif.ObtDel.truthful_partial`

## propext, Classical.choice, Quot.sound

* `Verif.Base64.encode_spec`
* `Verif.Base64.decode_encode`
* `Verif.Base64.decodeInPlace_iff`
* `Verif.Base64.decode_iff`
* `Verif.Base64.decode_no_ub`
* `Verif.Base64.decodeInPlace_no_ub`
* `Verif.Uuid.toStr_format`
* `Verif.Uuid.ofStr_toStr`
* `Verif.Crc.crc64_burst`
* `Verif.Hex.ofHex_spec`
* `Verif.Hex.toHex_spec`
* `Verif.Hex.ofHex_toHex`
* `Verif.OcList.exec_refines`
* `Verif.OcList.run_refines`
* `Verif.OcList.run_init`
* `Verif.Memb.alloc_spec`
* `Verif.Memb.free_spec`
* `Verif.Memb.live_disjoint`
* `Verif.Memb.exec_refines`
* `Verif.Memb.runs_refine`
* `Verif.Memb.inmemb_iff`
* `Verif.Mmem.exec_refines`
* `Verif.Mmem.runs_refine`
* `Verif.Mmem.runs_progress`
* `Verif.Timer.expired_iff`
* `Verif.Timer.expired_mono`
* `Verif.Timer.until_spec`
* `Verif.Timer.set_spec`
* `Verif.Etimer.runs_inv`
* `Verif.Etimer.runs_progress`
* `Verif.Etimer.never_early`
* `Verif.Etimer.once_per_arming`
* `Verif.Etimer.never_lost`
* `Verif.Etimer.pollAll_complete`
* `Verif.Process.exec_refines`
* `Verif.Process.runs_refine`
* `Verif.Process.fifo_lossless`
* `Verif.Process.post_full`
* `Verif.Coap.header_roundtrip`
* `Verif.Coap.header_is_rfc`
* `Verif.Coap.rfc_header_read`
* `Verif.Coap.int_option_roundtrip`
* `Verif.Coap.block_roundtrip`
* `Verif.Coap.block_roundtrip_pow`
* `Verif.Coap.block_refused`
* `Verif.Coap.block_decode_offset`
* `Verif.Coap.block_size_rounded`
* `Verif.Coap.split_one_option_per_segment`
* `Verif.Coap.array_option_whole`
* `Verif.Coap.merge_appends`
* `Verif.CoapMsg.udp_roundtrip`
* `Verif.CoapMsg.serialize_succeeds`
* `Verif.CoapMsg.serialize_fits`
* `Verif.CoapMsg.udp_parse_defined_partial`
* `Verif.CoapMsg.udp_parse_datagram_only_partial`
* `Verif.CoapMsg.accepted_parse_exact_partial`
* `Verif.CoapMsg.tcp_parse_defined_partial`
* `Verif.CoapMsg.tcp_parse_message_only_partial`
* `Verif.TcpStream.serialized_framed`
* `Verif.TcpStream.stream_split_partial`
* `Verif.TcpStream.stream_delivered_partial`
* `Verif.TcpStream.receive_one`
* `Verif.TcpStream.receive_delivers`
* `Verif.CoapMsg.tcp_roundtrip`
* `Verif.Trans.transmissions_allowed`
* `Verif.Trans.timeout_after_four`
* `Verif.Trans.due_step`
* `Verif.Trans.ends_after_four_checks`
* `Verif.Trans.gone_stays_gone`
* `Verif.Trans.exec_good`
* `Verif.Trans.foreign_message_ends_false`
* `Verif.Trans.secured_without_peer_false`
* `Verif.Trans.unsent_is_transmitted_false`
* `Verif.Blockwise.server_holds_prefix`
* `Verif.Blockwise.server_completes_whole`
* `Verif.Blockwise.client_completes_partial`
* `Verif.Blockwise.upload_whole`
* `Verif.Blockwise.server_block_exact`
* `Verif.Blockwise.download_rest`
* `Verif.Blockwise.download_whole`
* `Verif.Observe.registrations_partial`
* `Verif.Observe.register_spec`
* `Verif.Observe.delete_spec`
* `Verif.Observe.byClient_spec`
* `Verif.Observe.dosChange_spec`
* `Verif.Observe.freeAll_spec`
* `Verif.Observe.notify_spec`
* `Verif.Observe.exOps_valid`
* `Verif.Observe.counter_wraps_false`
* `Verif.Observe.dangling_observer_false`
* `Verif.Query.getValue_spec`
* `Verif.Query.keyExists_spec`
* `Verif.Query.nth_spec`
* `Verif.RepJson.dump_memory_safe`
* `Verif.RepJson.dump_compact`
* `Verif.RepJson.dump_two_calls`
* `Verif.RepJson.compact_text`
* `Verif.RepJson.dump_compact_json`
* `Verif.RepJson.pretty_small_buffer_false`
* `Verif.RepJson.unescaped_false`
* `Verif.RepJson.empty_object_array_ub`
* `Verif.Acl.check_spec`
* `Verif.Acl.more_aces`
* `Verif.Acl.app_resource_needs_permission`
* `Verif.Acl.roles_kept`
* `Verif.Acl.svr_is_dcr`
* `Verif.Acl.anonymous_partial`
* `Verif.Acl.anonymous_svr`
* `Verif.Acl.nil_subject_false`
* `Verif.Acl.reset_owner_false`
* `Verif.Acl.two_peers_false`
* `Verif.Acl.aceids_unique`
* `Verif.Acl.aceids_unique_from_default`
* `Verif.Acl.replace_exact`
* `Verif.Acl.replace_grants`
* `Verif.Acl.permission_zero_false`
* `Verif.Acl.lost_wildcard_false`
* `Verif.Acl.empty_entry_deletes_false`
* `Verif.Acl.negative_permission_false`
* `Verif.Acl.delete_other_false`
* `Verif.Acl.href_without_slash_ub`
* `Verif.Acl.dangling_callback_ub`
* `Verif.Acl.rejected_unchanged_partial`
* `Verif.Acl.others_untouched`
* `Verif.Acl.failed_update_false`
* `Verif.Acl.failed_update_loses_ace_false`
* `Verif.Pstat.owned_history`
* `Verif.Pstat.post_spec`
* `Verif.Pstat.transitions_partial`
* `Verif.Pstat.entered`
* `Verif.Pstat.refused`
* `Verif.Pstat.reset_requested`
* `Verif.Pstat.reset_stays`
* `Verif.Pstat.reset_completes`
* `Verif.Pstat.rfotm_to_rfnop_false`
* `Verif.Pstat.reset_escape_false`
* `Verif.Pstat.rowner_rfnop_false`
* `Verif.Pstat.interrupted_reset_false`
* `Verif.Pstat.failed_reset_false`
* `Verif.Pstat.empty_name_ub`
* `Verif.Pstat.prefix_name_false`
* `Verif.Pstat.state_truncated_false`
* `Verif.Oscore.piv_roundtrip`
* `Verif.Oscore.piv_shortest`
* `Verif.Oscore.piv_value`
* `Verif.Oscore.nonce_injective`
* `Verif.Oscore.nonces_of_numbers`
* `Verif.Oscore.no_reuse_scheduled`
* `Verif.Oscore.nonces_nodup`
* `Verif.Oscore.option_roundtrip`
* `Verif.Oscore.option_roundtrip_response`
* `Verif.Oscore.option_header`
* `Verif.Oscore.parse_defined_iff`
* `Verif.Cred.ids_unique`
* `Verif.Cred.lookup_newest`
* `Verif.Cred.newest_created`
* `Verif.Cred.addDev_uniq`
* `Verif.Cred.addDev_lookup`
* `Verif.Cred.addDev_others`
* `Verif.Cred.addDev_existing`
* `Verif.Cred.addDev_defined`
* `Verif.Cred.delete_exact`
* `Verif.Cred.clear_exact`
* `Verif.Cred.not_created_present`
* `Verif.Cred.refused_loses_false`
* `Verif.Cred.duplicate_chain_loses_false`
* `Verif.Cred.refused_post_partly_applied_false`
* `Verif.Cred.replaced_owner_ub`
* `Verif.Sp.accepted`
* `Verif.Sp.selects`
* `Verif.Sp.current_supported_partial`
* `Verif.Sp.current_supported_history_partial`
* `Verif.Sp.refused_unchanged_partial`
* `Verif.Sp.unsupported_current_false`
* `Verif.Sp.refused_changes_false`
* `Verif.Ael.log_bounded`
* `Verif.Ael.log_newest`
* `Verif.Ael.addEvent_spec`
* `Verif.Ael.post_filters_only`
* `Verif.Ael.no_memory_false`
* `Verif.Storage.storage_partial`
* `Verif.Storage.config_dir_partial`
* `Verif.Storage.tag_unique`
* `Verif.Storage.genTag_no_ub`
* `Verif.Doxm.refused`
* `Verif.Doxm.accepted`
* `Verif.Doxm.guarded`
* `Verif.Doxm.sets_owner`
* `Verif.Sdi.refused`
* `Verif.Sdi.accepted`
* `Verif.Sdi.sets_uuid`
* `Verif.Cred.roles_wellformed`
* `Verif.Cred.roles_confined`
* `Verif.Cred.close_removes`
* `Verif.Cred.reset_removes`
* `Verif.Cred.closed_session_no_roles`
* `Verif.Cred.role_verified`
* `Verif.Etag.etags_increase`
* `Verif.Etag.etag_near_clock`
* `Verif.Uuid.ofStr_size_partial`
* `Verif.Uuid.ofStr_accepts_iff_partial`
* `Verif.CoapMsg.udp_validate_agrees`
* `Verif.Observe.consecutive_newer`
* `Verif.Observe.all_newer_partial`
* `Verif.Observe.seq_range`
* `Verif.Observe.reregistration_stale_false`
* `Verif.Acl.reload_partial`
* `Verif.Acl.reachable_made`
* `Verif.Acl.reload_widens_false`
* `Verif.Sp.restart_partial`
* `Verif.Sp.restart_rfnop_false`
* `Verif.Doxm.restart`
* `Verif.Sdi.restart`
* `Verif.Pstat.stored`
* `Verif.Oscore.is_oscore_iff`
* `Verif.Cred.guard_iff`
* `Verif.Cred.post_guarded_partial`
* `Verif.Cred.post_rfpro_owner`
* `Verif.Cred.symmetric_key_length`
* `Verif.Cred.roles_post_takes_owner_false`
* `Verif.Cred.takeover_false`
* `Verif.Cred.role_changes_credential_false`
* `Verif.Etag.valid_means_unchanged_partial`
* `Verif.Etag.current_etag_valid`
* `Verif.Etag.change_fresh`
* `Verif.Etag.dumped_etag_restored`
* `Verif.Etag.load_exact`
* `Verif.Etag.run_inv`
* `Verif.Etag.clock_reset_false`
* `Verif.Etag.pending_notification_false`
* `Verif.Etag.increments_spec`
* `Verif.Etag.bare_key_ub`
* `Verif.Storage.load_after_save`
* `Verif.Storage.load_decodes_content`
* `Verif.Storage.attempts_result`
* `Verif.Ael.restart_keeps_partial`
* `Verif.Ael.filter_drops_false`
* `Verif.Ael.aux_overflow_ub`
* `Verif.Rfc3339.parse_iff`
* `Verif.Rfc3339.parse_valid`
* `Verif.Rfc3339.format_text`
* `Verif.Rfc3339.parse_format`
* `Verif.Rfc3339.format_fits`
* `Verif.Rfc3339.format_precision`
* `Verif.Rfc3339.clock_roundtrip`
* `Verif.Rfc3339.parseClock_value_partial`
* `Verif.Rfc3339.before_1970_false`
* `Verif.Rfc3339.toTm_spec`
* `Verif.Rfc3339.toUnix_partial`
* `Verif.Rfc3339.toUnix_early_false`
* `Verif.Rfc3339.certFormat_partial`
* `Verif.Rfc3339.short_year_false`
* `Verif.Delayed.runs_match_expiries`
* `Verif.Delayed.poll_serves_all`
* `Verif.Delayed.never_runs_after_release`
* `Verif.Delayed.released_once`
* `Verif.Delayed.remove_one`
* `Verif.Delayed.remove_all`
* `Verif.Delayed.remove_self`
* `Verif.Delayed.one_periodic_callback`
* `Verif.Delayed.register_unregister`
* `Verif.Client.at_most_once_partial`
* `Verif.Client.removal_is_scheduled_partial`
* `Verif.Client.close_leaves_none`
* `Verif.Client.close_tells_all_partial`
* `Verif.Client.retry_never_ends_false`
* `Verif.Client.no_use_after_free_partial`
* `Verif.Endpoint.scheme_text`
* `Verif.Endpoint.toCString_text`
* `Verif.Endpoint.toString64_text`
* `Verif.Endpoint.roundtrip_partial`
* `Verif.Endpoint.roundtrip_mapped_false`
* `Verif.Endpoint.parse_text_partial`
* `Verif.Endpoint.parse_safe`
* `Verif.Endpoint.parse_sound`
* `Verif.Endpoint.parse_noScheme`
* `Verif.Endpoint.parse_colon_false`
* `Verif.Endpoint.parse_port_false`
* `Verif.Endpoint.parse_octet_false`
* `Verif.Endpoint.parse_name_false`
* `Verif.Endpoint.parse_emptyPort_false`
* `Verif.Endpoint.parse_hex_false`
* `Verif.Endpoint.compare_iff`
* `Verif.Endpoint.compare_refl`
* `Verif.Endpoint.compare_symm`
* `Verif.Endpoint.compare_trans_partial`
* `Verif.Endpoint.compare_address`
* `Verif.Endpoint.linkLocal_recognised`
* `Verif.EpAddr.step_refines`
* `Verif.EpAddr.run_inv`
* `Verif.EpAddr.history`
* `Verif.EpAddr.calls_changed`
* `Verif.EpAddr.nexts_cycle`
* `Verif.EpAddr.calls_reinit_false`
* `Verif.CloudStore.restart_kept`
* `Verif.CloudStore.restart_wildcard_false`
* `Verif.CloudStore.restart_empty_false`
* `Verif.CloudStore.restart_memory_false`
* `Verif.Cloud.retry_delay_partial`
* `Verif.Cloud.no_timeout_false`
* `Verif.Cloud.register_everywhere_partial`
* `Verif.Cloud.unresolved_false`
* `Verif.Cloud.silent_server_false`
* `Verif.Cloud.status_holds`
* `Verif.Cloud.unauthorized_refresh_forgets`
* `Verif.Cloud.unauthorized_login_forgets`
* `Verif.Cloud.session_end_restarts`
* `Verif.Cloud.no_undefined_partial`
* `Verif.Cloud.no_payload_ub`
* `Verif.Cloud.lifetime_ub`
* `Verif.Cloud.many_servers_ub`
* `Verif.Cloud.deregister_ub`
* `Verif.Cloud.unprovisioned_false`
* `Verif.Cloud.login_keeps_alive`
* `Verif.Cloud.pings_lost`
* `Verif.Cloud.ping_answered`
* `Verif.Cloud.refresh_replaces`
* `Verif.Cloud.ping_unsent_false`
* `Verif.Cloud.redirect_followed`
* `Verif.Cloud.deregistered`
* `Verif.Cloud.deregister_login_failed`
* `Verif.Cloud.requests_to_servers`
* `Verif.Json.decode_object`
* `Verif.Json.decode_objects`
* `Verif.Json.decode_empty`
* `Verif.Json.escape_false`
* `Verif.Json.long_item_false`
* `Verif.Json.fraction_false`
* `Verif.Json.decode_safe_partial`
* `Verif.Json.tokens_safe`
* `Verif.Json.decode_cut`
* `Verif.Json.null_root_ub`
* `Verif.Json.unknown_member_false`
* `Verif.Json.encode_safe`
* `Verif.Json.encode_object`
* `Verif.Json.encodable`
* `Verif.Json.encode_error_stays`
* `Verif.Json.int_range`
* `Verif.Json.round_trip`
* `Verif.Json.injection_false`
* `Verif.Json.empty_array_false`
* `Verif.Json.double_false`
* `Verif.Ri.uris_unique_partial`
* `Verif.Ri.double_slash_false`
* `Verif.Ri.add_iff`
* `Verif.Ri.add_collection_iff`
* `Verif.Ri.found_by_uri`
* `Verif.Ri.lookup_sound`
* `Verif.Ri.framework_found`
* `Verif.Ri.lookup_total`
* `Verif.Ri.slashes_ub`
* `Verif.Ri.deleted_not_found`
* `Verif.Ri.waiting_reserved`
* `Verif.Ri.refused_outcome`
* `Verif.Ri.handler_runs_iff`
* `Verif.Ri.unknown_if_false`
* `Verif.Ri.foreign_iface_refused_partial`
* `Verif.Ri.other_device_silent`
* `Verif.Ri.multicast_no_error`
* `Verif.Ri.multicast_rst_false`
* `Verif.Ri.di_ub`
* `Verif.Ri.error_no_effect`
* `Verif.Ri.observe_partial`
* `Verif.Ri.observe_claimed_false`
* `Verif.Ri.observe_silent_false`
* `Verif.Ri.cancel_partial`
* `Verif.Ri.cancel_error_false`
* `Verif.Ri.change_notified`
* `Verif.Ri.link_format_false`
* `Verif.Separate.safe_partial`
* `Verif.Separate.safe_from_start_partial`
* `Verif.Separate.no_leak_partial`
* `Verif.Separate.answered_partial`
* `Verif.Session.settles`
* `Verif.PlgdTime.never_ahead`
* `Verif.PlgdTime.restored`
* `Verif.PlgdTime.goes_back_false`
* `Verif.PlgdTime.insecure_get`
* `Verif.PlgdTime.post_refused`
* `Verif.PlgdTime.post_partial`
* `Verif.PlgdTime.clock_failed`
* `Verif.PlgdTime.last_wins`
* `Verif.PlgdTime.epoch_false`
* `Verif.PlgdTime.bad_date_false`
* `Verif.PlgdTime.status_names`
* `Verif.MsgRef.freed_once_partial`
* `Verif.MsgRef.alone_done`
* `Verif.MsgRef.shrink_fits`
* `Verif.NetQueue.each_once`
* `Verif.NetQueue.settles`
* `Verif.NetQueue.no_lost_wakeup`
* `Verif.NetQueue.wake_exact`
* `Verif.Collection.links_ordered_partial`
* `Verif.Collection.order_unique`
* `Verif.Collection.find_link`
* `Verif.Collection.add_twice_ub`
* `Verif.Collection.add_twice_loses_false`
* `Verif.Collection.delete_unlinks_partial`
* `Verif.Collection.delete_keeps`
* `Verif.Collection.delete_dangling_false`
* `Verif.Collection.delete_other_device_false`
* `Verif.Collection.delete_wrong_link_false`
* `Verif.Collection.free_collection_dangling_false`
* `Verif.Collection.interface_bypassed_false`
* `Verif.Collection.stale_payload_false`
* `Verif.Collection.earlier_error_false`
* `Verif.Collection.unknown_href_false`
* `Verif.Collection.member_names_false`
* `Verif.Collection.partly_applied_false`
* `Verif.Collection.empty_collection_false`
* `Verif.Collection.baseline_post_false`
* `Verif.Collection.nested_error_false`
* `Verif.Collection.cycle_ub`
* `Verif.StrArr.new_array`
* `Verif.StrArr.add_item`
* `Verif.StrArr.add_all`
* `Verif.StrArr.add_byte_item`
* `Verif.CloudRd.kept_partial`
* `Verif.CloudRd.removed_once`
* `Verif.CloudRd.directory_partial`
* `Verif.Certs.ca_sound`
* `Verif.Certs.ca_partial`
* `Verif.Certs.leaf_sound`
* `Verif.Certs.leaf_partial`
* `Verif.Certs.leaf_exclusive`
* `Verif.Certs.chain_checked`
* `Verif.Certs.authorised_partial`
* `Verif.Certs.identity_of_leaf`
* `Verif.Certs.accepted`
* `Verif.Certs.loop_stops_false`
* `Verif.Certs.stale_root_false`
* `Verif.Certs.removed_anchor_ub`
* `Verif.Certs.cn_uuid`
* `Verif.Certs.cn_round_trip`
* `Verif.Certs.wildcard_cn_false`
* `Verif.Certs.garbage_uuid_false`
* `Verif.Certs.cn_ub`
* `Verif.Certs.assert_sound`
* `Verif.Certs.assert_partial`
* `Verif.Certs.role_perms`
* `Verif.Certs.role_key_ub`
* `Verif.Certs.role_other_anchor_false`
* `Verif.Certs.role_uppercase_false`
* `Verif.Certs.unix_time`
* `Verif.Certs.before_1970_false`
* `Verif.Discovery.endpoints_iff`
* `Verif.Discovery.links_answer`
* `Verif.Discovery.baseline_answer_partial`
* `Verif.Discovery.batch_needs_security`
* `Verif.Discovery.baseline_no_match_false`
* `Verif.Discovery.sync_up_to_date_partial`
* `Verif.Discovery.granted_missing_false`
* `Verif.Discovery.deleted_kept_false`
* `Verif.Discovery.long_path_false`
* `Verif.Discovery.client_learns_directory`
* `Verif.Discovery.stop_prefix`
* `Verif.Discovery.missing_policy`
* `Verif.Discovery.array_payload_safe_partial`
* `Verif.Discovery.map_payload_ub`
* `Verif.Discovery.short_anchor_ub`
* `Verif.Discovery.stale_link_false`
* `Verif.Discovery.rel_after_if_false`
* `Verif.Discovery.eps_before_anchor_false`
* `Verif.Discovery.links_property_false`
* `Verif.Discovery.two_arrays_leak_false`
* `Verif.Discovery.more_to_come_false`
* `Verif.Tls.messages_in_order_partial`
* `Verif.Tls.all_delivered_partial`
* `Verif.Tls.one_record_each`
* `Verif.Tls.oversized_closes`
* `Verif.Tls.six_byte_frame_false`
* `Verif.Tls.globals`
* `Verif.Tls.sets_up_iff`
* `Verif.Tls.server_suites`
* `Verif.Tls.anon_iff`
* `Verif.Tls.server_authenticates_partial`
* `Verif.Tls.client_suites`
* `Verif.Tls.single_doc`
* `Verif.Tls.own_chain`
* `Verif.Tls.anon_leak_false`
* `Verif.Tls.cloud_leak_false`
* `Verif.Tls.choice_lost_false`
* `Verif.Tls.ident_leak_false`
* `Verif.Tls.psk_exact`
* `Verif.Tls.psk_sound`
* `Verif.Tls.peers_agree`
* `Verif.Tls.pin_agrees`
* `Verif.Tls.short_identity_false`
* `Verif.Tls.long_identity_false`
* `Verif.Tls.short_identity_ub`
* `Verif.Tls.pin_shared_false`
* `Verif.Tls.owner_key_exact`
* `Verif.Tls.no_session_no_key`
* `Verif.Tls.owner_agrees`
* `Verif.Tls.public_owner_key_false`
* `Verif.Swu.post_accepts_iff`
* `Verif.Swu.post_effect`
* `Verif.Swu.validate_agrees`
* `Verif.Swu.run_safe`
* `Verif.Swu.urls_checked_partial`
* `Verif.Swu.performed_once`
* `Verif.Swu.stored_partial`
* `Verif.Swu.restart_resumes`
* `Verif.Swu.clk_ok`
* `Verif.Swu.empty_url_false`
* `Verif.Swu.never_set_url_false`
* `Verif.Swu.null_url_false`
* `Verif.Swu.past_time_false`
* `Verif.Swu.arranged_lost_false`
* `Verif.Swu.arranged_replaced_false`
* `Verif.Swu.target_not_saved_false`
* `Verif.Obt.run_safe_partial`
* `Verif.Obt.transfer_truthful_partial`
* `Verif.Obt.called_once_partial`
* `Verif.Obt.answered_ends_partial`
* `Verif.Obt.forgotten_partial`
* `Verif.Obt.pin_credential_temporary_partial`
* `Verif.Obt.method_offered`
* `Verif.Obt.discovery_filter`
* `Verif.Obt.provisioning_truthful_partial`
* `Verif.Dhcp.parse_exact`
* `Verif.Dhcp.set_values_partial`
* `Verif.Dps.Retry.configuration`
* `Verif.Dps.Retry.schedule`
* `Verif.Dps.Retry.reset_fresh`
* `Verif.Dps.Retry.readable_partial`
* `Verif.Dps.Pin.without_pin`
* `Verif.Dps.Pin.with_pin`
* `Verif.Dps.Pin.with_pin_single_partial`
* `Verif.Dps.Pin.pin_partial`
* `Verif.Dps.Cert.state_exact`
* `Verif.Dps.Cert.check_exact`
* `Verif.Dps.Cert.renewal_partial`
* `Verif.Dps.Prov.status_ordered`
* `Verif.Dps.Prov.status_truthful`
* `Verif.Dps.Prov.asks_in_order`
* `Verif.Dps.Prov.cloud_only_when_complete`
* `Verif.Dps.Prov.third_timeout_starts_over`
* `Verif.Dps.Prov.provisioning_goes_on_partial`
* `Verif.Dps.Prov.recovers_partial`
* `Verif.Process.Dispatch.calls_partial`
* `Verif.Process.Dispatch.running_partial`
* `Verif.Process.Dispatch.events_in_order`
* `Verif.Process.Dispatch.event_delivered`
* `Verif.Process.Dispatch.poll_not_lost`
* `Verif.Process.Dispatch.poll_recorded`
* `Verif.Process.Dispatch.poll_delivered`
* `Verif.Process.Dispatch.ended_leaves`
* `Verif.Push.pushed_partial`
* `Verif.Push.nothing_pushed`
* `Verif.Push.interfaces_never_match`
* `Verif.Push.interfaces_false`
* `Verif.Push.state_rule`
* `Verif.Push.recovers`
* `Verif.Push.refused_update_false`
* `Verif.Push.aimed_partial`
* `Verif.Push.cleared_target_false`
* `Verif.Push.pathless_target_false`
* `Verif.Push.one_request_partial`
* `Verif.Push.two_requests_false`
* `Verif.Push.deleted_response_ub`
* `Verif.Push.change_lost_false`
* `Verif.Push.refused_create`
* `Verif.PushRecv.receivers_partial`
* `Verif.PushRecv.prefix_delete_false`
* `Verif.PushRecv.prefix_create_false`
* `Verif.PushRecv.prefix_push_false`
* `Verif.PushRecv.own_resource_false`
* `Verif.PushRecv.other_path_false`
* `Verif.PushRecv.no_slash_false`
* `Verif.PushRecv.half_update_false`
* `Verif.PushRecv.second_types_false`
* `Verif.PushRecv.common_only_false`
* `Verif.PushRecv.altered_false`
* `Verif.PushRecv.dangling_ub`
* `Verif.Factory.lowest_partial`
* `Verif.Factory.member_names_partial`
* `Verif.Factory.members_partial`
* `Verif.Factory.zero_false`
* `Verif.Factory.twice_false`
* `Verif.Factory.sign_false`
* `Verif.Factory.random_false`
* `Verif.Factory.elsewhere_false`
* `Verif.Factory.example_history`
* `Verif.Factory.create_decided`
* `Verif.Factory.history_young`
* `Verif.Factory.created_partial`
* `Verif.Factory.creator_granted_partial`
* `Verif.Factory.only_creator_partial`
* `Verif.Factory.deleted_partial`
* `Verif.Factory.first_factory`
* `Verif.Factory.stale_grant_false`
* `Verif.Factory.wildcard_entry_false`
* `Verif.Factory.anonymous_creator_false`
* `Verif.Factory.other_array_false`
* `Verif.Factory.second_type_false`
* `Verif.Factory.policy_order_false`
* `Verif.Factory.second_factory_false`
* `Verif.TcpConn.story`
* `Verif.TcpConn.stories`
* `Verif.TcpConn.sent_in_order`
* `Verif.TcpConn.told_once`
* `Verif.TcpConn.told_at_end`
* `Verif.TcpConn.refs_balanced`
* `Verif.TcpConn.own_session`
* `Verif.TcpConn.ready_decides`
* `Verif.TcpConn.sockets`
* `Verif.TcpConn.tick_fresh`
* `Verif.TcpConn.tick_attempts`
* `Verif.TcpConn.in_time`
* `Verif.TcpConn.ended_not_found`
* `Verif.TcpConn.shutdown_closes`
* `Verif.TcpConn.new_id`
* `Verif.Engine.reply_shape`
* `Verif.Engine.answered`
* `Verif.Engine.refused`
* `Verif.Engine.during_reset`
* `Verif.Engine.repeated`
* `Verif.Engine.settled_once`
* `Verif.Engine.quiet`
* `Verif.Engine.conversation_ends`
* `Verif.Engine.upload_refused`
* `Verif.Engine.upload_continues`
* `Verif.Engine.upload_ends`
* `Verif.Engine.not_twice`
* `Verif.Engine.never_fails`
* `Verif.Engine.distinct_ids`
* `Verif.Engine.to_asker`
* `Verif.Engine.csm_answer`
* `Verif.Engine.after_csm`
* `Verif.Engine.csm_ends`
* `Verif.Batch.defined`
* `Verif.Batch.pending_valid`
* `Verif.Batch.pending_once`
* `Verif.Batch.gone_not_pending`
* `Verif.Batch.told_true`
* `Verif.Batch.up_to_date`
* `Verif.Batch.never_stalls`
* `Verif.Batch.settles`
* `Verif.Notify.discovery_to_observers`
* `Verif.Notify.notified`
* `Verif.Notify.notified_given`
* `Verif.Notify.discovery_notified`
* `Verif.Notify.sequence`
* `Verif.Notify.numbers`
* `Verif.OscoreEng.request_authentic`
* `Verif.OscoreEng.request_window`
* `Verif.OscoreEng.request_again_refused`
* `Verif.OscoreEng.response_authentic`
* `Verif.OscoreEng.odd_refused`
* `Verif.OscoreEng.nonces_fresh`
* `Verif.OscoreEng.never_plain`
* `Verif.OscoreEng.request_sent`
* `Verif.OscoreEng.request_delivered`
* `Verif.OscoreEng.response_delivered`
* `Verif.OscoreEng.notifications_in_order`
* `Verif.TlsPeers.refs_conserved`
* `Verif.TlsPeers.no_freed_partial`
* `Verif.TlsPeers.sessions_distinct`
* `Verif.TlsPeers.numbered`
* `Verif.TlsPeers.closed_exactly`
* `Verif.TlsPeers.removed_gone`
* `Verif.TlsPeers.reset_closes`
* `Verif.TlsPeers.all_closed`
* `Verif.TlsPeers.onboarding_single`
* `Verif.TlsPeers.idle_bound`
* `Verif.TlsPeers.active_kept`
* `Verif.TlsPeers.flushed`
* `Verif.Encode.carries`
* `Verif.Encode.stored_exactly`
* `Verif.Encode.posted_exactly`
* `Verif.Encode.too_long_false`
* `Verif.Life.defined_partial`
* `Verif.Life.sound`
* `Verif.Life.truthful_partial`
* `Verif.Life.one_uri`
* `Verif.Life.counted`
* `Verif.Life.deleted`
* `Verif.Life.collection_deleted`
* `Verif.Life.deleted_later`
* `Verif.Life.change_told`
* `Verif.Life.links_told`
* `Verif.Life.observed`
* `Verif.Life.left`
* `Verif.Life.reset_ends`
* `Verif.Life.added`
* `Verif.Life.linked`
* `Verif.Life.unlinked`
* `Verif.Life.cancelled`
* `Verif.Life.callbacks_once`
* `Verif.Life.scheduled`
* `Verif.Life.others_told`
* `Verif.ObtRead.acl_read_partial`
* `Verif.ObtRead.ace_read`
* `Verif.ObtRead.acl_error`
* `Verif.ObtRead.creds_read`
* `Verif.ObtRead.no_creds`
* `Verif.ObtRead.private_kept`
* `Verif.ObtRead.creds_error`
* `Verif.ObtRead.once`
* `Verif.ObtRead.answered`
* `Verif.ObtRead.empty_acl_ub`
* `Verif.ObtRead.no_list_ub`
* `Verif.ObtRead.unknown_conn_false`
* `Verif.ObtRead.role_type_ub`
* `Verif.ObtRead.second_array_false`
* `Verif.ObtRead.star_subject_false`
* `Verif.ObtRead.cred_role_type_ub`
* `Verif.ObtDel.cred_gone`
* `Verif.ObtDel.asked`
* `Verif.ObtDel.ends`
* `Verif.ObtDel.works`
* `Verif.ObtInit.round_trip`
* `Verif.ObtInit.unknown_ignored`
* `Verif.ObtInit.load_safe`
* `Verif.ObtInit.first`
* `Verif.ObtInit.no_new`
* `Verif.ObtInit.kept`
* `Verif.ObtInit.never_ub`
* `Verif.ObtInit.crash_partial`
* `Verif.ObtInit.crash_false`
* `Verif.ObtInit.again_false`
* `Verif.ObtInit.unsaved_false`
* `Verif.ObtInit.key_ub`
* `Verif.ObtInit.gid_ub`
* `Verif.ObtFind.lists`
* `Verif.ObtFind.told_live`
* `Verif.ObtFind.told_what`
* `Verif.ObtFind.asked_why`
* `Verif.ObtFind.others_kept`
* `Verif.ObtFind.ended`
* `Verif.ObtFind.owned_found`
* `Verif.ObtFind.unowned_found`
* `Verif.ObtFind.ignored`
* `Verif.ObtFind.self_ignored`
* `Verif.ObtFind.nothing`
* `Verif.ObtFind.expired`
* `Verif.ObtFind.devices_stay`
* `Verif.ObtFind.begun`
* `Verif.ObtFind.safe_partial`
* `Verif.ObtFind.no_uuid_ub`
* `Verif.ObtFind.no_list_ub`
* `Verif.ObtFind.short_anchor_ub`
* `Verif.ObtFind.ep_type_ub`
* `Verif.ObtFind.ep_name_false`
* `Verif.ObtFind.two_false`
* `Verif.ObtFind.family_false`
* `Verif.ConRes.names`
* `Verif.ConRes.names_total`
* `Verif.ConRes.accepted`
* `Verif.ConRes.post_get`
* `Verif.ConRes.refused_partial`
* `Verif.ConRes.located`
* `Verif.ConRes.get_safe`
* `Verif.ConRes.others`
* `Verif.ConRes.cb_set`
* `Verif.ConRes.half_false`
* `Verif.ConRes.late_false`
