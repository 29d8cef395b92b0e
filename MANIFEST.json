{
 "claims": [
  {
   "property": "C01",
   "status": "proved",
   "theorems": [
    "Verif.Mm.mm_blocks_disjoint",
    "Verif.Mm.mm_calls_defined",
    "Verif.Mm.mm_alloc_never_grain_aligned",
    "Verif.Mm.mm_alloc_overflow_defect",
    "Verif.Mm.mm_alloc_truncation_defect",
    "Verif.Mm.mm_alloc_small_grain_defect"
   ],
   "note": "Proved for grains of at least 96 bytes, fewer than 2^31 grains and requests without 64-bit overflow (LDMS uses 1024); the defect theorems show each precondition is needed."
  },
  {
   "property": "C02",
   "status": "proved",
   "theorems": [
    "Verif.Mm.mm_conservation",
    "Verif.Mm.mm_coalesced",
    "Verif.Mm.mm_all_freed_restores"
   ],
   "note": "Same preconditions as C01."
  },
  {
   "property": "C03",
   "status": "proved",
   "theorems": [
    "Verif.Mm.mm_alloc_fails_iff",
    "Verif.Mm.mm_alloc_best_fit",
    "Verif.Mm.mm_free_makes_room"
   ],
   "note": "Same preconditions as C01."
  },
  {
   "property": "C04",
   "status": "partial",
   "theorems": [
    "Verif.LHeap.lheap_blocks_disjoint_partial",
    "Verif.LHeap.lheap_calls_defined",
    "Verif.LHeap.lheap_alloc_misaligned",
    "Verif.LHeap.lheap_conservation",
    "Verif.LHeap.lheap_coalesced",
    "Verif.LHeap.lheap_all_freed_restores",
    "Verif.LHeap.lheap_alloc_fails_iff",
    "Verif.LHeap.lheap_alloc_best_fit",
    "Verif.LHeap.lheap_free_makes_room",
    "Verif.LHeap.lheap_gn_counts",
    "Verif.LHeap.lheap_overrun_defect"
   ],
   "note": "Everything holds except containment: the managed region starts after the header but is as long as the reserved memory, so an entry can overrun it by 8 bytes (lheap_overrun_defect)."
  },
  {
   "property": "C05",
   "status": "proved",
   "theorems": [
    "Verif.Rbt.rbt_refines_sorted_list",
    "Verif.Rbt.rbt_find_correct",
    "Verif.Rbt.rbt_find_lub_correct",
    "Verif.Rbt.rbt_find_glb_correct",
    "Verif.Rbt.rbt_iteration_correct",
    "Verif.Rbt.rbt_step_preserves",
    "Verif.Rbt.intCmp_lawful"
   ],
   "note": ""
  },
  {
   "property": "C06",
   "status": "proved",
   "theorems": [
    "Verif.Rbt.rbt_balanced",
    "Verif.Rbt.rbt_step_preserves"
   ],
   "note": ""
  },
  {
   "property": "C07",
   "status": "partial",
   "theorems": [
    "Verif.OvisHeap.heap_contents",
    "Verif.OvisHeap.heap_insert_fails_iff",
    "Verif.OvisHeap.heap_pop_removes_one",
    "Verif.OvisHeap.heap_pop_min_partial",
    "Verif.OvisHeap.heap_pop_not_min_defect",
    "Verif.OvisHeap.heap_remove_wrong_node_defect"
   ],
   "note": "Contents and capacity hold for all histories; minimality only for a pop after inserts. It is false in general (defect theorems): float-up and sink-down disagree about the parent."
  },
  {
   "property": "C08",
   "status": "partial",
   "theorems": [
    "Verif.Sched.sched_holds_exactly_the_live_timers",
    "Verif.Sched.sched_add_result",
    "Verif.Sched.sched_del_result",
    "Verif.Sched.sched_top_earliest_partial",
    "Verif.Sched.sched_del_earliest_safe",
    "Verif.Sched.sched_fire_partial",
    "Verif.Sched.sched_sleeps_only_when_none_due_partial",
    "Verif.Sched.sched_sleep_length",
    "Verif.Sched.sched_del_breaks_order_defect",
    "Verif.Sched.sched_sleep_overflow_defect"
   ],
   "note": "Earliest-first holds as long as deletions are SafeDel (the last array node is not earlier than the parent of the gap); false otherwise (sched_del_breaks_order_defect)."
  },
  {
   "property": "C09",
   "status": "partial",
   "theorems": [
    "Verif.Sched.sched_timeout_exact",
    "Verif.Sched.sched_periodic_on_grid",
    "Verif.Sched.sched_periodic_first_slot_partial",
    "Verif.Sched.sched_periodic_next_slot",
    "Verif.Sched.sched_periodic_refires",
    "Verif.Sched.sched_periodic_skips_slot_defect",
    "Verif.Sched.sched_periodic_refires_defect"
   ],
   "note": "On the grid and never in the past always; first slot only when now is outside (n*period, n*period+phase]; the defect theorems show the skip and the double fire."
  },
  {
   "property": "C10",
   "status": "proved",
   "theorems": [
    "Verif.Idx.idx_find_correct",
    "Verif.Idx.idx_add_result",
    "Verif.Idx.idx_delete_result",
    "Verif.Idx.idx_traverse_complete",
    "Verif.Idx.idx_delete_aborts_iff",
    "Verif.Idx.idx_delete_aborts_defect",
    "Verif.Idx.idx_add_empty_key_defect"
   ],
   "note": "For non-empty keys; deletion of keys with a byte 255 aborts (idx_delete_aborts_iff says exactly when)."
  },
  {
   "property": "C11",
   "status": "proved",
   "theorems": [
    "Verif.Htbl.htbl_find_correct",
    "Verif.Htbl.htbl_count_correct",
    "Verif.Htbl.htbl_other_keys",
    "Verif.Htbl.htbl_iteration_correct",
    "Verif.Htbl.str_map_get_correct",
    "Verif.Htbl.str_map_insert_result",
    "Verif.Htbl.str_map_remove_result"
   ],
   "note": ""
  },
  {
   "property": "C12",
   "status": "proved",
   "theorems": [
    "Verif.Ref.ref_free_at_most_once",
    "Verif.Ref.ref_free_exactly_once",
    "Verif.Ref.ref_puts_le",
    "Verif.Ref.ref_put_zero_iff_last",
    "Verif.Ref.ref_nothing_after_free",
    "Verif.Ref.ref_get_without_holding_double_free",
    "Verif.Ref.ref_count_wraps_defect"
   ],
   "note": "Threads only put references they hold and fewer than 2^32 references are outstanding; the defect theorems show each precondition is needed."
  },
  {
   "property": "C13",
   "status": "partial",
   "theorems": [
    "Verif.Evw.ev_exactly_once",
    "Verif.Evw.ev_worker_drains",
    "Verif.Evw.ev_no_lost_wakeup",
    "Verif.Evw.ev_post_busy_iff",
    "Verif.Evw.ev_post_refused_iff_flushing",
    "Verif.Evw.ev_immediate_fifo",
    "Verif.Evw.ev_timer_not_early_partial",
    "Verif.Evw.ev_timer_earliest",
    "Verif.Evw.ev_flush_status_partial",
    "Verif.Evw.ev_defined",
    "Verif.Evw.ev_timer_early_defect",
    "Verif.Evw.ev_repost_hides_flush_defect",
    "Verif.Evw.ev_flush_misses_immediate_defect",
    "Verif.Evw.ev_flush_before_start_lost_defect",
    "Verif.Evw.ev_cancel_twice_defect"
   ],
   "note": "Exactly once, order, EBUSY and no lost wakeup hold for every interleaving; status FLUSH and not-early have preconditions that proved counterexamples show are needed."
  },
  {
   "property": "C14",
   "status": "proved",
   "theorems": [
    "Verif.Credit.credit_conservation",
    "Verif.Credit.credit_refused_only_when_short",
    "Verif.Credit.credit_unlimited_never_refused",
    "Verif.Credit.credit_acquire_finishes_alone",
    "Verif.Credit.link_conservation",
    "Verif.Credit.link_bounded",
    "Verif.Credit.link_send_result",
    "Verif.Credit.stream_publish_failure_leaks_credit_defect"
   ],
   "note": "Conservation holds for any number of threads; the stream publish failure path leaks credits (stream_publish_failure_leaks_credit_defect)."
  },
  {
   "property": "C15",
   "status": "partial",
   "theorems": [
    "Verif.Credit.rate_bound_partial",
    "Verif.Credit.rate_sends_bounded_partial",
    "Verif.Credit.rate_refused_iff",
    "Verif.Credit.rate_unlimited",
    "Verif.Credit.rate_interleaving_defect",
    "Verif.Credit.rate_release_defect",
    "Verif.Credit.rate_clock_back_defect"
   ],
   "note": "Bound proved for sequential acquisitions with a monotone clock; three interleaving/clock/release counterexamples are proved."
  },
  {
   "property": "C16",
   "status": "partial",
   "theorems": [
    "Verif.RailConn.rail_connected_iff",
    "Verif.RailConn.rail_terminal_at_most_once",
    "Verif.RailConn.rail_terminal_exactly_once_partial",
    "Verif.RailConn.rail_terminal_kind",
    "Verif.RailConn.rail_abort_only_after_reject",
    "Verif.RailConn.rail_early_disconnect_silent_defect",
    "Verif.RailConn.rail_connect_after_reject_aborts_defect"
   ],
   "note": "At most one terminal event always; exactly one only when every endpoint connected or was refused; counterexamples proved for the rest."
  },
  {
   "property": "C17",
   "status": "partial",
   "theorems": [
    "Verif.StreamFrag.stream_delivered_partial",
    "Verif.StreamFrag.stream_second_fragment_aborts_defect",
    "Verif.StreamFrag.stream_large_message_loops_defect",
    "Verif.StreamFrag.stream_large_message_never_delivered_defect"
   ],
   "note": "Holds for messages that fit one request; a larger message is proved never to be delivered."
  },
  {
   "property": "C18",
   "status": "partial",
   "theorems": [
    "Verif.StreamSub.stream_at_most_once",
    "Verif.StreamSub.stream_only_subscribers",
    "Verif.StreamSub.begin_closed",
    "Verif.StreamSub.stream_exactly_once_partial",
    "Verif.StreamSub.stream_entries_iff",
    "Verif.StreamSub.stream_delivery_progress",
    "Verif.StreamSub.stream_bad_json_stops_defect",
    "Verif.StreamSub.stream_concurrent_close_defect"
   ],
   "note": "Exactly once for every history and interleaving in which the delivery completes; malformed JSON and a concurrent close with a second delivery are proved counterexamples."
  },
  {
   "property": "C19",
   "status": "proved",
   "theorems": [
    "Verif.MsgBuf.msg_send_framed",
    "Verif.MsgBuf.config_split_framed",
    "Verif.MsgBuf.msg_gather_framed",
    "Verif.MsgBuf.msg_round_trip",
    "Verif.MsgBuf.msg_send_needs_room"
   ],
   "note": "Sender buffer, configuration splitter and gatherer at byte level; send_fn and realloc are assumed to succeed; needs a transport limit above the 24-byte header (msg_send_needs_room shows why)"
  },
  {
   "property": "C20",
   "status": "proved",
   "theorems": [
    "Verif.ReqAttr.request_lookup",
    "Verif.ReqAttr.request_hton",
    "Verif.ReqAttr.swap_round_trip",
    "Verif.ReqAttr.hton_ntoh_identity"
   ],
   "note": "Byte-level encoder, look-up and byte-order conversion (little-endian host)"
  },
  {
   "property": "C21",
   "status": "partial",
   "theorems": [
    "Verif.Digest.digest_str_ok",
    "Verif.Digest.digest_round_trip",
    "Verif.Digest.str_digest_parse_partial",
    "Verif.Digest.str_digest_accepts",
    "Verif.Digest.str_digest_accepts_junk_defect"
   ],
   "note": "Formatting and round trip proved for every digest and buffer; parsing proved for all hex strings and all wrong lengths; refusal of other 64-character strings is false (&& for || in the digit test): exact acceptance condition and witness proved."
  },
  {
   "property": "C22",
   "status": "partial",
   "theorems": [
    "Verif.Layout.layout_disjoint_partial",
    "Verif.Layout.layout_complete",
    "Verif.Layout.data_aligned",
    "Verif.Layout.meta_aligned_partial",
    "Verif.Layout.members_disjoint",
    "Verif.Layout.instances_disjoint",
    "Verif.Layout.record_array_overflow_defect",
    "Verif.Layout.long_instance_name_defect",
    "Verif.Layout.long_schema_name_defect",
    "Verif.Layout.late_member_overlap_defect",
    "Verif.Layout.late_member_array_defect",
    "Verif.Layout.meta_misaligned_defect",
    "Verif.Layout.record_array_misaligned_defect",
    "Verif.Layout.record_array_type_defect",
    "Verif.Layout.record_type_defect",
    "Verif.Layout.heap_room"
   ],
   "note": "disjointness and bounds proved for all schemas whose records are complete when added and whose record arrays come last, names within the length byte; the excluded cases are shown to overlap or overflow"
  },
  {
   "property": "C23",
   "status": "partial",
   "theorems": [
    "Verif.Txn.reader_sees_committed_partial",
    "Verif.Txn.ring_keeps_history",
    "Verif.Txn.consistent_iff",
    "Verif.Txn.end_gn",
    "Verif.Txn.begin_gn",
    "Verif.Txn.end_duration",
    "Verif.Txn.unset_metric_reverts_defect",
    "Verif.Txn.list_uncommitted_defect",
    "Verif.Txn.meta_uncommitted_defect",
    "Verif.Txn.single_uncommitted_defect",
    "Verif.Txn.set_gn"
   ],
   "note": "proved for data metrics other than lists in sets with at least two buffers, written within transactions; list, record array, metadata metrics and single-buffer sets show uncommitted values; without the data copy flag unset metrics revert"
  },
  {
   "property": "C24",
   "status": "proved",
   "theorems": [
    "Verif.LList.list_history",
    "Verif.LList.append_last",
    "Verif.LList.remove_erase",
    "Verif.LList.purge_empty",
    "Verif.LList.append_array_count_defect"
   ],
   "note": "list_history: every history of item/record/nested-list operations is simulated by plain sequences; the 24-bit element count defect is append_array_count_defect"
  },
  {
   "property": "C25",
   "status": "proved",
   "theorems": [
    "Verif.SetInfo.info_history",
    "Verif.SetInfo.set_notifies",
    "Verif.SetInfo.unset_notifies",
    "Verif.SetInfo.set_null",
    "Verif.SetInfo.set_enomem_frame",
    "Verif.SetInfo.set_enomem_defect",
    "Verif.SetInfo.traverse_spec",
    "Verif.SetInfo.traverse_all"
   ],
   "note": "history theorem against two maps; notification counts; ENOMEM loses the old value (defect)"
  },
  {
   "property": "C26",
   "status": "partial",
   "theorems": [
    "Verif.Timestamp.diff_exact",
    "Verif.Timestamp.diff_earlier_partial",
    "Verif.Timestamp.diff_wrap_defect",
    "Verif.Timestamp.duration_exact"
   ],
   "note": "Exact for all normalised 32-bit timestamps when after is not earlier; 0 when earlier except within the first second of the epoch, where the wrapped result is proved (defect). Result before rounding to double. Transaction duration proved exact."
  },
  {
   "property": "C27",
   "status": "partial",
   "theorems": [
    "Verif.Access.access_right_partial",
    "Verif.Access.check_any",
    "Verif.Access.access_two_rights_defect",
    "Verif.Access.access_many_groups_defect",
    "Verif.Access.command_gate"
   ],
   "note": "Iff proved for requests of a single right and at most 128 groups; two rights at once and more than 128 groups are defects (witnesses). Command gate of the daemon proved."
  },
  {
   "property": "C28",
   "status": "proved",
   "theorems": [
    "Verif.Av.words_exist",
    "Verif.Av.tokenize_words",
    "Verif.Av.idx_of",
    "Verif.Av.add_spec",
    "Verif.Av.value_first",
    "Verif.Av.to_string_tokenize",
    "Verif.Av.to_string_empty_defect"
   ],
   "note": "Allocation failure is not modelled; strings are lists of characters."
  },
  {
   "property": "C29",
   "status": "partial",
   "theorems": [
    "Verif.JsonDict.json_find_partial",
    "Verif.JsonDict.json_count_rem_partial",
    "Verif.JsonDict.json_prefix_lookup_defect",
    "Verif.JsonDict.json_prefix_add_defect"
   ],
   "note": "Holds when no name in use is a proper prefix of another; false otherwise (defect theorems)."
  },
  {
   "property": "C30",
   "status": "partial",
   "theorems": [
    "Verif.ThrStat.stat_spec_partial",
    "Verif.ThrStat.time_conserved",
    "Verif.ThrStat.reset_sum_defect",
    "Verif.ThrStat.scheduler_swapped_defect"
   ],
   "note": "Reset leaves the window sum and the totals behind (reset_sum_defect). The event scheduler's statistics have idle and active time exchanged (scheduler_swapped_defect)."
  },
  {
   "property": "C31",
   "status": "proved",
   "theorems": [
    "Verif.IoPool.pool_spec",
    "Verif.IoPool.assign_choice",
    "Verif.IoPool.balanced"
   ],
   "note": "One pool and non-listening endpoints. Calls are atomic (they run under the io mutex)."
  },
  {
   "property": "C32",
   "status": "partial",
   "theorems": [
    "Verif.CfgObj.cfgobj_spec",
    "Verif.CfgObj.iteration",
    "Verif.CfgObj.cfgobj_del_leaks_defect"
   ],
   "note": "all operations proved against the specification of names and references; ldmsd_cfgobj_del is shown to leak the reference of the tree"
  },
  {
   "property": "C33",
   "status": "partial",
   "theorems": [
    "Verif.Cred.cred_accept_partial",
    "Verif.Cred.cred_refuse",
    "Verif.Cred.cred_default",
    "Verif.Cred.stale_groups_defect"
   ],
   "note": "Iff proved when the cached group list is current; the cache never being refreshed is a defect (witness)."
  },
  {
   "property": "C34",
   "status": "partial",
   "theorems": [
    "Verif.CfgArgs.args_kept",
    "Verif.CfgArgs.plugin_config_args_partial",
    "Verif.CfgArgs.env_args_partial",
    "Verif.CfgArgs.listen_args_partial",
    "Verif.CfgArgs.auth_add_args_partial",
    "Verif.CfgArgs.default_auth_args_partial",
    "Verif.CfgArgs.words_spec",
    "Verif.CfgArgs.kept_round_trip",
    "Verif.CfgArgs.args_only_attrs_defect",
    "Verif.CfgArgs.config_name_only_defect",
    "Verif.CfgArgs.default_auth_plugin_only_defect",
    "Verif.CfgArgs.args_overrun_defect",
    "Verif.CfgArgs.args_prefix_refused_defect"
   ],
   "note": "Proved for config/env/listen/auth_add/default_auth lines with at least one argument that is passed on and (except env) at least one that is filtered. Negations proved: a line with only filtered words writes tmp[-1]; a line with none overruns by one byte; arguments whose name has a filtered name as prefix are refused."
  },
  {
   "property": "C35",
   "status": "proved",
   "theorems": [
    "Verif.Schema.metric_add",
    "Verif.Schema.duplicate_eexist",
    "Verif.Schema.names_unique",
    "Verif.Schema.metric_by_name",
    "Verif.Schema.index_stable",
    "Verif.Schema.duplicate_member_defect",
    "Verif.Schema.type_checks",
    "Verif.Schema.type_accepted"
   ],
   "note": "all functions that add a metric; the names of record members are not checked (duplicate_member_defect)"
  },
  {
   "property": "C36",
   "status": "proved",
   "theorems": [
    "Verif.JoinBuf.join_buf_complete",
    "Verif.JoinBuf.join_buf_zero_defect"
   ],
   "note": "Every buffer of at least one byte, every separator and component list. Length 0 writes outside the buffer (defect, outside the claim's range)."
  },
  {
   "property": "C37",
   "status": "partial",
   "theorems": [
    "Verif.MemSize.mem_size_partial",
    "Verif.MemSize.mem_size_plain",
    "Verif.MemSize.mem_size_tera_defect",
    "Verif.MemSize.mem_size_garbage_defect",
    "Verif.MemSize.mem_size_unknown",
    "Verif.MemSize.time_str_units_partial",
    "Verif.MemSize.time_str_negative",
    "Verif.MemSize.time_str_msec_defect",
    "Verif.MemSize.time_str_unit_junk_defect"
   ],
   "note": "Proved for all units but t/T and for all documented time units on decimal integers (exact below 2^53 us). Defects: T counted as G, no refusal of a string without number, msec read as minutes, unit words only compared by first letter."
  },
  {
   "property": "C38",
   "status": "proved",
   "theorems": [
    "Verif.Rrbt.copy_same",
    "Verif.Rrbt.history_same",
    "Verif.Rrbt.base_node_defect"
   ],
   "note": "Pointer-level model of rrbt.c; holds for every contents of the region, every base and every history. Requires that the region is not at address 0."
  },
  {
   "property": "C39",
   "status": "partial",
   "theorems": [
    "Verif.SetDir.set_calls_partial",
    "Verif.SetDir.set_refs_partial",
    "Verif.SetDir.dir_exact",
    "Verif.SetDir.names_unique",
    "Verif.SetDir.deleted_gone",
    "Verif.SetDir.reap_only_expired",
    "Verif.SetDir.reap_returned",
    "Verif.SetDir.reference_freed_defect",
    "Verif.SetDir.expired_hidden_defect",
    "Verif.SetDir.publish_deleted_defect",
    "Verif.SetDir.reap_all_expired_partial"
   ],
   "note": "All interleavings of creations, lookups, publish/unpublish, delete. Missing: the code frees a deleted set after a minute although references are held (defect theorem); peers and notifications are not modelled."
  },
  {
   "property": "C40",
   "status": "partial",
   "theorems": [
    "Verif.Lifecycle.producer_no_abort",
    "Verif.Lifecycle.producer_start",
    "Verif.Lifecycle.producer_start_refused_partial",
    "Verif.Lifecycle.producer_stop",
    "Verif.Lifecycle.producer_del",
    "Verif.Lifecycle.producer_stop_lasting_partial",
    "Verif.Lifecycle.stop_undone_defect",
    "Verif.Lifecycle.stuck_disconnected_defect",
    "Verif.Lifecycle.refused_start_defect",
    "Verif.Lifecycle.bad_interval_defect",
    "Verif.Lifecycle.updater_requests",
    "Verif.Lifecycle.updater_start_race_defect",
    "Verif.Lifecycle.strgp_requests",
    "Verif.Lifecycle.updater_start_second"
   ],
   "note": "return codes and effects of start, stop and delete of producers, updaters and storage policies proved, no assertion fails in any interleaving; a stop is lasting unless the connection is still being made (stop_undone_defect); refused starts may change the interval or leak a reference"
  },
  {
   "property": "C41",
   "status": "partial",
   "theorems": [
    "Verif.Mm.mm_realloc_overlap_defect",
    "Verif.Mm.mm_realloc_hangs_defect"
   ],
   "note": "The property is false: two concrete histories are proved to break it."
  },
  {
   "property": "C42",
   "status": "proved",
   "theorems": [
    "Verif.LHeap.lheap_sized_for_k_holds_k",
    "Verif.LHeap.list_heap_holds_k"
   ],
   "note": ""
  },
  {
   "property": "C43",
   "status": "partial",
   "theorems": [
    "Verif.ReqAttr.validate_well_formed",
    "Verif.ReqAttr.validate_sound",
    "Verif.ReqAttr.validated_safe",
    "Verif.ReqAttr.validate_in_bounds_partial",
    "Verif.ReqAttr.validate_overflow_defect",
    "Verif.ReqAttr.error_reply_refused_defect"
   ],
   "note": "Acceptance implies safe handling for every message, and validation stays inside the message unless a length wraps the 32-bit offset; with such a length validation reads outside the message, and the daemon's own error replies are refused: shown by the _defect theorems"
  },
  {
   "property": "C44",
   "status": "partial",
   "theorems": [
    "Verif.NameTab.verb_recognised",
    "Verif.NameTab.attr_recognised",
    "Verif.NameTab.verb_meaning",
    "Verif.NameTab.attr_meaning",
    "Verif.NameTab.type_recognised",
    "Verif.NameTab.type_round_trip_partial",
    "Verif.NameTab.record_inst_name_defect",
    "Verif.NameTab.scalar_type_overrun_defect",
    "Verif.NameTab.scalar_type_partial",
    "Verif.NameTab.setgroup_mod_unreachable_defect"
   ],
   "note": "Exact recognition proved for all strings over the three tables, and recognised names have the id of the enumeration constant they name; the type-name round trip fails for record instances, the scalar-type table is too short and the request to modify a set group has no command: _defect theorems"
  },
  {
   "property": "C45",
   "status": "partial",
   "theorems": [
    "Verif.LList.append_record_busy_partial",
    "Verif.LList.append_record_twice_defect",
    "Verif.LList.append_record_two_lists_defect"
   ],
   "note": "EBUSY check misses a record that is the only entry of its list (defects)"
  },
  {
   "property": "C46",
   "status": "partial",
   "theorems": [
    "Verif.SetInfo.dir_transfers",
    "Verif.SetInfo.lookup_transfers",
    "Verif.SetInfo.message_roundtrip_partial",
    "Verif.SetInfo.lookup_end_to_end_partial",
    "Verif.SetInfo.lookup_stale_defect",
    "Verif.SetInfo.message_defect",
    "Verif.SetInfo.message_key_defect"
   ],
   "note": "proved for keys/values up to 254 bytes; longer ones corrupt the message; a lookup of an already known set keeps removed keys"
  },
  {
   "property": "C47",
   "status": "partial",
   "theorems": [
    "Verif.RingUpd.delivered_in_order",
    "Verif.RingUpd.update_catches_up",
    "Verif.RingUpd.update_lossless",
    "Verif.RingUpd.mid_transaction_lost_defect",
    "Verif.RingUpd.ring_skips_defect"
   ],
   "note": "Reads are atomic and the producer's clock is strictly increasing between transactions. Reading during a transaction delivers the unfinished snapshot and loses the finished one (mid_transaction_lost_defect); more than n behind, snapshots still in the ring are skipped (ring_skips_defect)."
  },
  {
   "property": "C48",
   "status": "partial",
   "theorems": [
    "Verif.Av.env_expand_partial",
    "Verif.Av.env_result",
    "Verif.Av.env_overflow_defect"
   ],
   "note": "Holds with fewer than 100 references per value and names shorter than 100 characters. With 100 or more references the code writes outside its arrays (env_overflow_defect)."
  },
  {
   "property": "C49",
   "status": "partial",
   "theorems": [
    "Verif.Task.joined_quiet_partial",
    "Verif.Task.stays_stopped_partial",
    "Verif.Task.stop_takes_effect",
    "Verif.Task.call_after_join_defect",
    "Verif.Task.resched_cancels_stop_defect",
    "Verif.Task.start_lost_defect"
   ],
   "note": "the property fails between popping the event and running the callback (call_after_join_defect), on a reschedule after a stop (resched_cancels_stop_defect) and on a start while stopping (start_lost_defect); proved when no popped event is pending"
  },
  {
   "property": "C50",
   "status": "partial",
   "theorems": [
    "Verif.Task.delay_grid",
    "Verif.Task.delay_next_slot",
    "Verif.Task.first_slot_skipped_defect"
   ],
   "note": "the run time is on the grid and the next slot is at most one interval beyond; the first slot may be skipped"
  },
  {
   "property": "C51",
   "status": "proved",
   "theorems": [
    "Verif.Rrbt.tree_step",
    "Verif.Rrbt.tree_history",
    "Verif.Rrbt.tree_search_steps"
   ],
   "note": "The C code is modelled pointer by pointer (Rrbt/Model) and proved to refine the functional tree of C05/C06 under a heap predicate; frame by a locality theorem. Node offsets must be non-zero and the region at most 2^63 bytes (see base_node_defect in C38)."
  },
  {
   "property": "C52",
   "status": "partial",
   "theorems": [
    "Verif.ZapRdma.no_undefined_behaviour_partial",
    "Verif.ZapRdma.remote_write_exact",
    "Verif.ZapRdma.remote_read_exact",
    "Verif.ZapRdma.remote_confined",
    "Verif.ZapRdma.share_announces_key",
    "Verif.ZapRdma.unmap_ends_access",
    "Verif.ZapRdma.address_wrap_defect",
    "Verif.ZapRdma.short_write_defect",
    "Verif.ZapRdma.other_peer_defect",
    "Verif.ZapRdma.key_order_defect"
   ],
   "note": "Proved for every reachable process with fewer than 2^31-2 shares and requests that do not wrap around the address space and carry the data they announce. Outside that the code violates the property: address wrap-around passes the range check, the announced length is not compared with the received one, keys are not bound to a peer, and the 32-bit key comparator stops being an order (four defect theorems)."
  },
  {
   "property": "C53",
   "status": "partial",
   "theorems": [
    "Verif.ZapFrame.received_in_order_partial",
    "Verif.ZapFrame.stays_up_partial",
    "Verif.ZapFrame.everything_arrives_partial",
    "Verif.ZapFrame.round_trip",
    "Verif.ZapFrame.any_patch_level",
    "Verif.ZapFrame.buffer_never_overruns_partial",
    "Verif.ZapFrame.stream_is_cut_by_length_partial",
    "Verif.ZapFrame.long_send_defect",
    "Verif.ZapFrame.huge_length_defect",
    "Verif.ZapFrame.data_length_defect",
    "Verif.ZapFrame.short_message_defect",
    "Verif.ZapFrame.bad_connect_spins_defect"
   ],
   "note": "Proved for messages within the receiver's size limits and, for any peer, up to the refused connect message and lengths above 0xFFFF0000. The full statement is false: zap_send accepts messages the receiver drops, a huge announced length frees the buffer in use, handlers trust the data length, and a refused connect message is handled forever. Endpoint states are not part of this model."
  },
  {
   "property": "C54",
   "status": "partial",
   "theorems": [
    "Verif.ZapIo.never_crashes_partial",
    "Verif.ZapIo.completes_in_order",
    "Verif.ZapIo.at_most_once",
    "Verif.ZapIo.disconnected_is_final",
    "Verif.ZapIo.loss_completes_everything",
    "Verif.ZapIo.healthy_completes_everything",
    "Verif.ZapIo.status_is_true",
    "Verif.ZapIo.flush_means_lost",
    "Verif.ZapIo.response_matches_partial",
    "Verif.ZapIo.request_id_recorded",
    "Verif.ZapIo.refused_unless_connected",
    "Verif.ZapIo.xid_zero_defect",
    "Verif.ZapIo.close_hangs_defect",
    "Verif.ZapIo.stray_response_defect"
   ],
   "note": "All theorems hold for every history with a peer that runs the same code; a stray response crashes, zap_close can wait forever after a loss, and id zero is not echoed (defects proved)."
  },
  {
   "property": "C55",
   "status": "partial",
   "theorems": [
    "Verif.ZapEp.active_in_order_partial",
    "Verif.ZapEp.passive_in_order_partial",
    "Verif.ZapEp.pair_in_order",
    "Verif.ZapEp.sides_agree",
    "Verif.ZapEp.loss_ends",
    "Verif.ZapEp.end_is_final",
    "Verif.ZapEp.reference_dropped",
    "Verif.ZapEp.accept_connects",
    "Verif.ZapEp.only_early_loss_crashes",
    "Verif.ZapEp.early_loss_defect",
    "Verif.ZapEp.second_connect_defect",
    "Verif.ZapEp.ack_first_defect",
    "Verif.ZapEp.repeated_request_defect",
    "Verif.ZapEp.stray_connect_defect"
   ],
   "note": "Order, agreement, finality and termination are proved for every history of a pair. A loss before accept crashes (early_loss_defect, and only_early_loss_crashes shows it is the only crash); impolite peers and a second zap_connect break the order (defects)."
  },
  {
   "property": "C56",
   "status": "partial",
   "theorems": [
    "Verif.XprtAuth.connected_needs_proof",
    "Verif.XprtAuth.nobody_before_connected",
    "Verif.XprtAuth.handled_as_partial",
    "Verif.XprtAuth.told_in_order",
    "Verif.XprtAuth.told_once_partial",
    "Verif.XprtAuth.approved_iff_told_partial",
    "Verif.XprtAuth.rejected_means",
    "Verif.XprtAuth.refusal_told",
    "Verif.XprtAuth.connected_needs_verified",
    "Verif.XprtAuth.one_attempt",
    "Verif.XprtAuth.nothing_before_connected",
    "Verif.XprtAuth.no_crash_partial",
    "Verif.XprtAuth.secret_was_used",
    "Verif.XprtAuth.another_holder_partial",
    "Verif.XprtAuth.same_secret_connects",
    "Verif.XprtAuth.different_secrets_refused",
    "Verif.XprtAuth.other_plugin_refused",
    "Verif.XprtAuth.unapproved_request_defect",
    "Verif.XprtAuth.late_auth_defect",
    "Verif.XprtAuth.crash_defect",
    "Verif.XprtAuth.op_table_defect",
    "Verif.XprtAuth.reflection_defect"
   ],
   "note": "Approval, identity, silence before CONNECTED, one attempt, order of events, agreement of equal secrets and refusal of different ones are proved for every history. False in the code, with witnesses: requests of unapproved peers are handled as nobody's, an authentication message after approval turns the end into REJECTED or hides it, malformed messages end the process, and a peer without the secret is approved by returning the challenge (reflection_defect); another_holder_partial excludes that case by hypothesis. The digest and MUNGE are parameters."
  },
  {
   "property": "C57",
   "status": "partial",
   "theorems": [
    "Verif.Pipeline.stored_in_order",
    "Verif.Pipeline.stored_once",
    "Verif.Pipeline.collected_is_attached_partial",
    "Verif.Pipeline.collected_is_stored_partial",
    "Verif.Pipeline.stopped_stores_nothing",
    "Verif.Pipeline.stopped_is_closed",
    "Verif.Pipeline.stops_when_told_partial",
    "Verif.Pipeline.stored_metrics",
    "Verif.Pipeline.never_crashes",
    "Verif.Pipeline.exists_iff_used",
    "Verif.Pipeline.one_at_a_time",
    "Verif.Pipeline.updated_again",
    "Verif.Pipeline.ready_again",
    "Verif.Pipeline.ready_after_storing",
    "Verif.Pipeline.error_ends_updates_defect",
    "Verif.Pipeline.refusal_ends_updates_defect",
    "Verif.Pipeline.gone_set_stops_defect",
    "Verif.Pipeline.count_after_stop_defect",
    "Verif.Pipeline.failed_open_binds_defect",
    "Verif.Pipeline.group_leaks_defect",
    "Verif.Pipeline.late_member_crash_defect"
   ],
   "note": "Exactly-once and in-order storing is proved for all histories without set groups; that a set is attached needs one schema per policy and a store that opens. Updates do not go on after an error or a refusal, a policy can be stopped by the update of a set that is gone, set groups leak and a late member ends the process, a failed open binds a policy to the first set's metrics, the count of sets is not reduced by a stop: _defect theorems. Pushed sets and the hint tree are not modelled."
  },
  {
   "property": "C58",
   "status": "partial",
   "theorems": [
    "Verif.LockOrder.one_holder",
    "Verif.LockOrder.done_holds_nothing",
    "Verif.LockOrder.no_deadlock_partial",
    "Verif.LockOrder.all_can_finish_partial",
    "Verif.LockOrder.stuck_means_done_partial",
    "Verif.LockOrder.no_endless_run",
    "Verif.LockOrder.alone_finishes",
    "Verif.LockOrder.policy_command_deadlock_defect",
    "Verif.LockOrder.two_commands_deadlock_defect",
    "Verif.LockOrder.start_all_deadlock_defect",
    "Verif.LockOrder.peer_request_deadlock_defect",
    "Verif.LockOrder.close_leaves_locked_defect"
   ],
   "note": "Proved for every routine except starting and stopping storage policies, requests from a producer's peer that are not about policies, and the closing of stores at exit; deadlocks are exhibited for each of those."
  },
  {
   "property": "C59",
   "status": "partial",
   "theorems": [
    "Verif.Failover.takeover_has_cause",
    "Verif.Failover.takeover_partial",
    "Verif.Failover.last_eight_round_trips",
    "Verif.Failover.answer_gives_back",
    "Verif.Failover.giving_back_is_told",
    "Verif.Failover.stop_command_gives_back",
    "Verif.Failover.connect_pairs",
    "Verif.Failover.pairing_gives_back",
    "Verif.Failover.policies_never_run",
    "Verif.Failover.own_started_once",
    "Verif.Failover.own_start_has_cause",
    "Verif.Failover.own_is_started",
    "Verif.Failover.own_never_stopped",
    "Verif.Failover.answer_is_true",
    "Verif.Failover.no_overlap_at_answer",
    "Verif.Failover.stop_cleans_partial",
    "Verif.Failover.objects_come_from_peer",
    "Verif.Failover.copy_is_fresh_partial",
    "Verif.Failover.no_abort_partial",
    "Verif.Failover.never_answered_defect",
    "Verif.Failover.manual_stop_defect",
    "Verif.Failover.stop_aborts_defect",
    "Verif.Failover.refused_config_defect",
    "Verif.Failover.stopped_pairs_defect",
    "Verif.Failover.old_object_kept_defect",
    "Verif.Failover.both_collect_defect"
   ],
   "note": "Proved for every run of one daemon against an arbitrary peer and network. Missing: a takeover needs one good answer after the transfer of the configuration (never_answered_defect); objects that refuse deletion stay; stopping the service while pairing or connecting meets an assertion (stop_aborts_defect)."
  },
  {
   "property": "C60",
   "status": "partial",
   "theorems": [
    "Verif.Decomp.static_rows_partial",
    "Verif.Decomp.static_history_partial",
    "Verif.Decomp.static_cells",
    "Verif.Decomp.static_record_rows",
    "Verif.Decomp.static_type_mismatch",
    "Verif.Decomp.commit_count",
    "Verif.Decomp.wrong_member_defect",
    "Verif.Decomp.mixed_records_defect",
    "Verif.Decomp.short_record_defect",
    "Verif.Decomp.member_of_value_defect",
    "Verif.Decomp.no_member_defect",
    "Verif.Decomp.static_always_false",
    "Verif.Decomp.array_truncated_defect",
    "Verif.Decomp.named_like_phony_defect",
    "Verif.Decomp.fill_length_defect",
    "Verif.Decomp.as_is_rows_partial",
    "Verif.Decomp.as_is_empty_list_defect",
    "Verif.Decomp.short_name",
    "Verif.Decomp.as_is_short_digest_defect",
    "Verif.Decomp.as_is_type_defect",
    "Verif.Decomp.flex_rows_partial",
    "Verif.Decomp.flex_fail",
    "Verif.Decomp.flex_count_defect"
   ],
   "note": "The rows of static and as_is for sets of one kind per digest (per row schema name) after any history, of flex when no decomposition is listed twice. Violated otherwise: cached member positions are used on records of another type (wrong member or crash), arrays of records are not expanded, an empty list keeps as_is from storing anything, two digests with the same first 28 bits crash, the count of rows of flex is not initialised."
  },
  {
   "property": "C61",
   "status": "partial",
   "theorems": [
    "Verif.RowJson.array_reads_back_partial",
    "Verif.RowJson.object_reads_back_partial",
    "Verif.RowJson.object_injective_partial",
    "Verif.RowJson.avro_reads_back_partial",
    "Verif.RowJson.array_text",
    "Verif.RowJson.other_einval",
    "Verif.RowJson.avro_einval",
    "Verif.RowJson.no_overrun",
    "Verif.RowJson.hang_is_forever",
    "Verif.RowJson.string_hang_defect",
    "Verif.RowJson.name_hang_defect",
    "Verif.RowJson.quote_defect",
    "Verif.RowJson.nan_defect",
    "Verif.RowJson.newline_defect",
    "Verif.RowJson.always_reads_back_false",
    "Verif.RowJson.avro_name_defect",
    "Verif.RowJson.avro_name_illegal_defect",
    "Verif.RowJson.avro_len_defect"
   ],
   "note": "Reads back for names and strings of printable characters without quote or backslash, finite numbers, and no piece of a length that rounds up to itself (multiples of the buffer size). Violated otherwise: such a piece makes printing loop for ever, quotes and control characters are not escaped, nan is printed bare, Avro names are not made legal when they start with a digit, and the length is stored through an int pointer into an uninitialised size_t. Floating point texts are those of libc (parameter)."
  },
  {
   "property": "C62",
   "status": "partial",
   "theorems": [
    "Verif.JsonText.parse_reads_partial",
    "Verif.JsonText.member_found_partial",
    "Verif.JsonText.dump_short",
    "Verif.JsonText.dump_json",
    "Verif.JsonText.dump_parse_partial",
    "Verif.JsonText.dump_long_defect",
    "Verif.JsonText.dump_scalar",
    "Verif.JsonText.cut_refused_partial",
    "Verif.JsonText.cut_defect",
    "Verif.JsonText.copy_partial",
    "Verif.JsonText.copy_defect",
    "Verif.JsonText.prefix_defect",
    "Verif.JsonText.escape_defect",
    "Verif.JsonText.escape_dump_defect",
    "Verif.JsonText.range_defect",
    "Verif.JsonText.accepts_defect",
    "Verif.JsonText.json_accepted",
    "Verif.JsonText.string_raw",
    "Verif.JsonText.dump_same_partial"
   ],
   "note": "Texts without backslashes, 64-bit integers and no name starting another: parsed to what RFC 8259 says, members found; printing below 8192 bytes is JSON and reads back; scalars print at any length; every cut of a printed compound is refused; copies same. Missing parts each shown as defects: compounds of 8192 bytes or more use freed memory, escapes not undone, names that start others lost, saturation, text that is no JSON accepted."
  },
  {
   "property": "C63",
   "status": "partial",
   "theorems": [
    "Verif.Dir.dir_one_message",
    "Verif.Dir.dir_complete_partial",
    "Verif.Dir.dir_sound",
    "Verif.Dir.dir_hang_defect",
    "Verif.Dir.dir_lost_defect",
    "Verif.Dir.dir_enomem_defect",
    "Verif.Dir.dir_quote_defect",
    "Verif.Dir.dir_comma_defect",
    "Verif.Dir.dir_size_defect",
    "Verif.Dir.update_shown",
    "Verif.Dir.update_large",
    "Verif.Dir.update_unasked",
    "Verif.Dir.update_access_defect"
   ],
   "note": "Missing: readable sets larger than a message (endless replies), a last name that vanished (no end), texts that need escapes, sizes of 2 GB or more, two message lengths refused with ENOMEM, and updates, which are sent without an access check; each is shown by a _defect theorem."
  },
  {
   "property": "C64",
   "status": "partial",
   "theorems": [
    "Verif.Lookup.lookup_sets",
    "Verif.Lookup.lookup_sound",
    "Verif.Lookup.lookup_prefix",
    "Verif.Lookup.lookup_none",
    "Verif.Lookup.lookup_error_reported",
    "Verif.Lookup.lookup_no_name",
    "Verif.Lookup.lookup_name",
    "Verif.Lookup.lookup_name_error",
    "Verif.Lookup.lookup_bad",
    "Verif.Lookup.lookup_lock",
    "Verif.Lookup.lookup_told_partial",
    "Verif.Lookup.lookup_name_told",
    "Verif.Lookup.lookup_error_told",
    "Verif.Lookup.lookup_refused",
    "Verif.Lookup.lookup_access_defect",
    "Verif.Lookup.lookup_more_defect",
    "Verif.Lookup.lookup_held_defect",
    "Verif.Lookup.lookup_failed_defect",
    "Verif.Lookup.lookup_midway_defect",
    "Verif.Lookup.lookup_lock_defect",
    "Verif.Lookup.lookup_sync_defect"
   ],
   "note": "Which sets are sent is proved in full for schemas and expressions, the rule of the lock with its exact exceptions. What the application is told is proved for every order of replies and reads when the last match may be read, no match is there already and no set fails to be sent or made; each of these is shown to break the property by a witness. A name gives its set without a check of access."
  },
  {
   "property": "C65",
   "status": "partial",
   "theorems": [
    "Verif.Push.push_history_partial",
    "Verif.Push.push_element",
    "Verif.Push.push_fits",
    "Verif.Push.push_unregistered",
    "Verif.Push.push_not_writable",
    "Verif.Push.push_array_defect",
    "Verif.Push.push_shown_defect",
    "Verif.Push.push_failed_defect",
    "Verif.Push.push_others_defect",
    "Verif.Push.push_owner_defect",
    "Verif.Push.push_wrap_defect",
    "Verif.Push.push_overrun_defect"
   ],
   "note": "Proved for every history in which the ring has one element, sends succeed, metadata change with their generation number and fewer than 2^32 times; each exclusion is shown necessary by a witness. The place given by the daemon is not checked by the peer (push_overrun_defect), and registration does not check that the peer may read the set."
  },
  {
   "property": "C66",
   "status": "partial",
   "theorems": [
    "Verif.Csv.csv_table_partial",
    "Verif.Csv.csv_rows_table_partial",
    "Verif.Csv.csv_numbers",
    "Verif.Csv.csv_two_lists",
    "Verif.Csv.csv_empty_list_defect",
    "Verif.Csv.csv_first_empty_defect",
    "Verif.Csv.csv_mixed_list_defect",
    "Verif.Csv.csv_mixed_records_defect",
    "Verif.Csv.csv_quote_defect",
    "Verif.Csv.csv_array_defect",
    "Verif.Csv.csv_long_name_defect",
    "Verif.Csv.csv_rows_first_defect",
    "Verif.Csv.csv_rows_schemas_defect"
   ],
   "note": "Sets with at most one list, never empty and of one type; texts without quotes or ends of lines (and without commas, unless quoted); packed arrays not empty and not of signed 64-bit numbers; rows with a phony first column and expanded arrays. Each of these conditions is shown to be needed. Floating point texts are those printf makes. Not in the model: files of types, alternative header files, failing writes."
  },
  {
   "property": "C67",
   "status": "partial",
   "theorems": [
    "Verif.CsvFile.csvfile_rows",
    "Verif.CsvFile.csvfile_crash_partial",
    "Verif.CsvFile.csvfile_unbuffered",
    "Verif.CsvFile.csvfile_buffer",
    "Verif.CsvFile.csvfile_header_first",
    "Verif.CsvFile.csvfile_header_once_partial",
    "Verif.CsvFile.csvfile_second_header_defect",
    "Verif.CsvFile.csvfile_altheader",
    "Verif.CsvFile.csvfile_altheader_there_partial",
    "Verif.CsvFile.csvfile_altheader_lost_defect",
    "Verif.CsvFile.csvfile_flush_defect",
    "Verif.CsvFile.csvfile_roll_below_partial",
    "Verif.CsvFile.csvfile_rolled_partial",
    "Verif.CsvFile.csvfile_roll_size_partial",
    "Verif.CsvFile.csvfile_empty_rolled_defect",
    "Verif.CsvFile.csvfile_daily",
    "Verif.CsvFile.csvfile_daily_next",
    "Verif.CsvFile.csvfile_daily_defect",
    "Verif.CsvFile.csvfile_again",
    "Verif.CsvFile.csvfile_again_defect"
   ],
   "note": "Order and completeness are proved for all histories without crashes; the bound after crashes except for buffertype=3 with rolling by time, where the counter at the last flush is not set back and any number of rows is lost (csvfile_flush_defect). Headers once per file and roll limits hold if no file is opened twice in one second; otherwise there are two headers, or none beside the file. rolltype 2 misses the roll of the day if started before its time; rolltype 5 misses that of the next day."
  },
  {
   "property": "C68",
   "status": "partial",
   "theorems": [
    "Verif.CfgFile.cfgfile_lines_partial",
    "Verif.CfgFile.cfgfile_bounds_partial",
    "Verif.CfgFile.cfgfile_last_line",
    "Verif.CfgFile.cfgfile_pass",
    "Verif.CfgFile.cfgfile_first_error",
    "Verif.CfgFile.cfgfile_startup_partial",
    "Verif.CfgFile.cfgfile_bad_line",
    "Verif.CfgFile.cfgfile_depth",
    "Verif.CfgFile.cfgfile_include_defect",
    "Verif.CfgFile.cfgfile_self_include_defect",
    "Verif.CfgFile.cfgfile_backslash_end_defect",
    "Verif.CfgFile.cfgfile_comment_in_command_defect",
    "Verif.CfgFile.cfgfile_overrun_defect",
    "Verif.CfgFile.cfgfile_spaces"
   ],
   "note": "What is read, one reading, the first error, and start-up are proved as stated, as far as the code does so. Defects shown: commands without priority of an included file are never executed; a file that includes itself is processed without end; a command whose last line ends in a backslash at the end of the file is dropped in silence; a comment or blank line between the lines of a command splits it; a line that fills the buffer exactly is written one byte beyond it."
  },
  {
   "property": "C69",
   "status": "partial",
   "theorems": [
    "Verif.ReqTab.reqtab_isolation",
    "Verif.ReqTab.reqtab_whole",
    "Verif.ReqTab.reqtab_afresh",
    "Verif.ReqTab.reqtab_duplicate",
    "Verif.ReqTab.reqtab_no_start",
    "Verif.ReqTab.reqtab_term",
    "Verif.ReqTab.reqtab_answers_partial",
    "Verif.ReqTab.reqtab_outstanding_partial",
    "Verif.ReqTab.reqtab_released_partial",
    "Verif.ReqTab.reqtab_key_order_partial",
    "Verif.ReqTab.reqtab_key_order_defect",
    "Verif.ReqTab.reqtab_disconnect_defect",
    "Verif.ReqTab.reqtab_peer_gone_defect",
    "Verif.ReqTab.reqtab_again_defect",
    "Verif.ReqTab.reqtab_invalid_defect",
    "Verif.ReqTab.reqtab_file_term_defect",
    "Verif.ReqTab.reqtab_wrap_defect",
    "Verif.ReqTab.reqtab_numbers",
    "Verif.ReqTab.reqtab_response_whole_partial"
   ],
   "note": "Isolation and whole messages hold for requests whose handler answers by itself, with connection and message numbers below 2^32; forwarding is proved without ends of connections and without records for a request already handled, since the code then uses freed memory (reqtab_disconnect_defect, reqtab_again_defect); an invalid message keeps its number (reqtab_invalid_defect); the order of keys is no order beyond 2^31 (reqtab_key_order_defect)."
  },
  {
   "property": "C70",
   "status": "partial",
   "theorems": [
    "Verif.Mval.mval_footprint",
    "Verif.Mval.mval_others",
    "Verif.Mval.mval_generation",
    "Verif.Mval.mval_bad_metric",
    "Verif.Mval.mval_bad_elem_partial",
    "Verif.Mval.mval_kinds",
    "Verif.Mval.mval_scalar",
    "Verif.Mval.mval_txn",
    "Verif.Mval.mval_meta",
    "Verif.Mval.mval_elem_partial",
    "Verif.Mval.mval_range_partial",
    "Verif.Mval.mval_str_partial",
    "Verif.Mval.mval_user",
    "Verif.Mval.mval_record_partial",
    "Verif.Mval.mval_record_generic",
    "Verif.Mval.mval_record_elem_partial",
    "Verif.Mval.mval_record_bad_elem_partial",
    "Verif.Mval.mval_record_range_partial",
    "Verif.Mval.mval_laid_partial",
    "Verif.Mval.mval_laid_record",
    "Verif.Mval.big_endian_array_defect",
    "Verif.Mval.big_endian_index_defect",
    "Verif.Mval.big_endian_record_defect",
    "Verif.Mval.string_end_defect",
    "Verif.Mval.wrong_type_defect",
    "Verif.Mval.user_data_generation_defect"
   ],
   "note": "Scalars: any byte orders, proved in full; arrays, strings and members of records: little endian hosts (big_endian_array_defect, big_endian_index_defect, big_endian_record_defect show the others fail). Strings need to be shorter than the array (string_end_defect); the function called must be that of the type (wrong_type_defect); user data of data metrics does not change the generation of the meta data it is in (user_data_generation_defect). That values do not share bytes is taken from C22, with its restrictions (mval_laid_partial). An invalid member of a record is undefined behaviour in the code."
  },
  {
   "property": "C71",
   "status": "partial",
   "theorems": [
    "Verif.UpdSel.updsel_fire",
    "Verif.UpdSel.updsel_fire_state",
    "Verif.UpdSel.updsel_only_fire",
    "Verif.UpdSel.updsel_task_goes_on",
    "Verif.UpdSel.updsel_covered_partial",
    "Verif.UpdSel.updsel_one_schedule",
    "Verif.UpdSel.updsel_start",
    "Verif.UpdSel.updsel_steady",
    "Verif.UpdSel.updsel_config",
    "Verif.UpdSel.updsel_codes",
    "Verif.UpdSel.updsel_hint_partial",
    "Verif.UpdSel.updsel_async_hint_defect",
    "Verif.UpdSel.updsel_order_partial",
    "Verif.UpdSel.updsel_order_defect",
    "Verif.UpdSel.updsel_stop_race_defect",
    "Verif.UpdSel.updsel_policy"
   ],
   "note": "updsel_fire, updsel_fire_state and updsel_only_fire are the requests of a run, updsel_task_goes_on and updsel_covered_partial the schedules, updsel_config and updsel_codes the commands, updsel_policy the storage policies. Not true of the code: a set that comes while the task for its hint stops is never updated (updsel_stop_race_defect), a hint without offset is taken as offset 0 (updsel_async_hint_defect), schedules are compared by int differences (updsel_order_defect)."
  },
  {
   "property": "C72",
   "status": "partial",
   "theorems": [
    "Verif.Log.log_content_partial",
    "Verif.Log.log_safe_partial",
    "Verif.Log.log_work_progress",
    "Verif.Log.log_passes_iff",
    "Verif.Log.log_level_refused",
    "Verif.Log.log_level_set",
    "Verif.Log.log_default_followed",
    "Verif.Log.log_by_name_answer",
    "Verif.Log.log_register_partial",
    "Verif.Log.log_names_unique",
    "Verif.Log.log_table_exact",
    "Verif.Log.level_name_threshold",
    "Verif.Log.level_name_quiet",
    "Verif.Log.level_name_unknown",
    "Verif.Log.level_list_exact",
    "Verif.Log.level_list_refused",
    "Verif.Log.level_list_all",
    "Verif.Log.level_text_round_trip",
    "Verif.Log.set_by_regex_answer_defect",
    "Verif.Log.set_by_regex_invalid_defect",
    "Verif.Log.register_again_defect",
    "Verif.Log.open_after_syslog_defect",
    "Verif.Log.close_unopened_defect",
    "Verif.Log.log_after_second_close_defect",
    "Verif.Log.stdout_is_mark_defect",
    "Verif.Log.descriptors_defect",
    "Verif.Log.default_level_all_defect",
    "Verif.Log.quiet_in_list_defect"
   ],
   "note": "Proved for histories in which a log is not opened after syslog or after a close and only an open log is closed; outside them the code is undefined (open_after_syslog, close_unopened, log_after_second_close defects). set_level_by_regex answers wrongly in two cases, a name cannot be registered again while messages are pending, and the cached descriptors are all 0 so that close does not restore them: shown as _defect theorems."
  },
  {
   "property": "C73",
   "status": "partial",
   "theorems": [
    "Verif.SetDel.setdel_safe_partial",
    "Verif.SetDel.setdel_no_early_free_partial",
    "Verif.SetDel.setdel_free_after_partial",
    "Verif.SetDel.setdel_released_partial",
    "Verif.SetDel.setdel_gone",
    "Verif.SetDel.setdel_timeout_partial",
    "Verif.SetDel.setdel_patience",
    "Verif.SetDel.setdel_told",
    "Verif.SetDel.setdel_notice",
    "Verif.SetDel.setdel_all_considered",
    "Verif.SetDel.setdel_starts",
    "Verif.SetDel.setdel_considered",
    "Verif.SetDel.setdel_program_told_partial",
    "Verif.SetDel.setdel_late_answer_defect",
    "Verif.SetDel.setdel_cancel_notify_defect",
    "Verif.SetDel.setdel_loss_race_defect",
    "Verif.SetDel.setdel_user_defect",
    "Verif.SetDel.setdel_push_loop_defect",
    "Verif.SetDel.setdel_transport_kept_defect",
    "Verif.SetDel.setdel_never_released_defect",
    "Verif.SetDel.setdel_rail_defect",
    "Verif.SetDel.setdel_late_lookup_defect",
    "Verif.SetDel.setdel_lost_reference_defect"
   ],
   "note": "Proved for all histories in which the cleaning thread meets a calm state and no peer cancels notifications of a set it looked up: no use after free, no early free, release of all references, the notices. The remaining histories are shown to fail (late answer, cancelled notification, loss race, program reference, push loop); rails, late lookups and failed sends leave a peer untold or the memory held; the transport structure is kept."
  },
  {
   "property": "C74",
   "status": "partial",
   "theorems": [
    "Verif.JobLabel.joblabel_id_partial",
    "Verif.JobLabel.joblabel_sound",
    "Verif.JobLabel.joblabel_complete",
    "Verif.JobLabel.joblabel_slots",
    "Verif.JobLabel.joblabel_during",
    "Verif.JobLabel.joblabel_app_of_other_job_defect",
    "Verif.JobLabel.joblabel_running_job_unlabelled_defect",
    "Verif.JobLabel.joblabel_reconfigured_defect",
    "Verif.JobLabel.joblabel_reconfigured_abort_defect",
    "Verif.JobLabel.joblabel_app_sign_defect",
    "Verif.JobLabel.joblabel_unused",
    "Verif.JobLabel.joblabel_plain",
    "Verif.JobLabel.joblabel_slot_sample",
    "Verif.JobLabel.joblabel_list",
    "Verif.JobLabel.joblabel_no_crash_partial",
    "Verif.JobLabel.joblabel_empty_list_crash_defect",
    "Verif.JobLabel.joblabel_no_app_crash_defect",
    "Verif.JobLabel.joblabel_stale_set_defect",
    "Verif.JobLabel.joblabel_reference_leak_defect",
    "Verif.JobLabel.joblabel_unusable"
   ],
   "note": "Proved for one configuration of the plugin, for times below 2^32 and application ids below 2^31. The code breaks the claim in the cases of the defect theorems: only the job started last is looked at, the application id of the slot's former job is shown until a step starts, configuring again gives slots twice, a job set that is made again is not noticed, an emptied list or a set without app_id ends the daemon, references leak."
  },
  {
   "property": "C75",
   "status": "partial",
   "theorems": [
    "Verif.SetGroup.group_members",
    "Verif.SetGroup.group_members_peer",
    "Verif.SetGroup.group_members_follow",
    "Verif.SetGroup.group_other_info",
    "Verif.SetGroup.group_name_too_long",
    "Verif.SetGroup.group_update_ends",
    "Verif.SetGroup.group_update_once",
    "Verif.SetGroup.group_update_members",
    "Verif.SetGroup.group_lookup_members",
    "Verif.SetGroup.update_answered",
    "Verif.SetGroup.lookup_answered",
    "Verif.SetGroup.group_safe_partial",
    "Verif.SetGroup.group_leak_defect",
    "Verif.SetGroup.group_stuck_defect",
    "Verif.SetGroup.group_stuck_forever_defect",
    "Verif.SetGroup.group_start_member_defect",
    "Verif.SetGroup.group_second_lookup_defect",
    "Verif.SetGroup.group_lookup_stuck_defect",
    "Verif.SetGroup.group_ins_null_defect",
    "Verif.SetGroup.group_half_ins_defect"
   ],
   "note": "Members, their transfer to aggregators, termination and coverage of a group's update are proved for all graphs. Reference safety is proved for histories in which no visited group has a member that was never looked up; with such a member the code loses references and can abort. The update of a group leaks a reference of the group, and a refused call leaves the group stuck: shown by the _defect theorems."
  },
  {
   "property": "C76",
   "status": "partial",
   "theorems": [
    "Verif.SetOwner.sampler_owner",
    "Verif.SetOwner.sampler_refused",
    "Verif.SetOwner.sampler_readers",
    "Verif.SetOwner.sampler_default",
    "Verif.SetOwner.component_number",
    "Verif.SetOwner.component_large_defect",
    "Verif.SetOwner.defaults_set",
    "Verif.SetOwner.defaults_refused",
    "Verif.SetOwner.sampler_not_a_number_defect",
    "Verif.SetOwner.sampler_trailing_defect",
    "Verif.SetOwner.uid_cut_defect",
    "Verif.SetOwner.sampler_perm_cut_defect",
    "Verif.SetOwner.defaults_perm_cut_defect",
    "Verif.SetOwner.lax_defect"
   ],
   "note": "Proved for well-formed numbers, names and permissions. Missing for malformed text: a sampler takes text that is no number as 0 (root), ignores text after a number, cuts numbers to 32 bits and octal permissions at the first other digit; the request for the defaults cuts to 32 bits; four samplers ignore the refusal: the _defect theorems."
  },
  {
   "property": "C77",
   "status": "partial",
   "theorems": [
    "Verif.Strgp.other_policies_untouched",
    "Verif.Strgp.names_are_unique",
    "Verif.Strgp.metrics_are_distinct",
    "Verif.Strgp.refused_changes_nothing_partial",
    "Verif.Strgp.changed_with_permission_partial",
    "Verif.Strgp.running_is_frozen",
    "Verif.Strgp.opening_keeps",
    "Verif.Strgp.prdcr_added",
    "Verif.Strgp.prdcr_removed",
    "Verif.Strgp.metric_added",
    "Verif.Strgp.metric_removed",
    "Verif.Strgp.started",
    "Verif.Strgp.add_makes",
    "Verif.Strgp.add_accepted",
    "Verif.Strgp.add_refused",
    "Verif.Strgp.plugin_stays_partial",
    "Verif.Strgp.unloaded_iff_unused_partial",
    "Verif.Strgp.never_crashes_partial",
    "Verif.Strgp.stopped_and_deleted",
    "Verif.Strgp.flush_means",
    "Verif.Strgp.flush_refused",
    "Verif.Strgp.flushed_iff",
    "Verif.Strgp.unflushed_is_recent",
    "Verif.Strgp.no_interval_no_flush",
    "Verif.Strgp.failed_add_deletes_defect",
    "Verif.Strgp.failed_add_without_permission_defect",
    "Verif.Strgp.add_without_name_defect",
    "Verif.Strgp.peer_policy_deletion_defect",
    "Verif.Strgp.peer_policy_unload_defect"
   ],
   "note": "Proved for every history, except that a refused strgp_add may delete a policy with root's rights (failed_add_deletes_defect, failed_add_without_permission_defect), strgp_add without a name crashes, and policies that a failover peer sent crash the daemon when deleted and do not hold their plugin. The partial theorems leave these out by hypothesis."
  },
  {
   "property": "C78",
   "status": "partial",
   "theorems": [
    "Verif.Dump.reload_again_partial",
    "Verif.Dump.producers_kept_partial",
    "Verif.Dump.plugins_kept_partial",
    "Verif.Dump.updaters_kept_partial",
    "Verif.Dump.schedule_kept_partial",
    "Verif.Dump.policies_kept_partial",
    "Verif.Dump.flush_defect",
    "Verif.Dump.metrics_lost_defect",
    "Verif.Dump.owner_lost_defect",
    "Verif.Dump.not_started_defect",
    "Verif.Dump.limits_lost_defect",
    "Verif.Dump.mode_defect",
    "Verif.Dump.asynchronous_defect",
    "Verif.Dump.match_defect",
    "Verif.Dump.never_started_defect",
    "Verif.Dump.keyword_defect",
    "Verif.Dump.refused_config_defect",
    "Verif.Dump.dot_defect",
    "Verif.Dump.path_defect",
    "Verif.Dump.path_whole",
    "Verif.Dump.any_file_sound"
   ],
   "note": "What a daemon has after reading the file is proved for all configurations whose values are single words and whose lines fit the reader's buffer, and what of it agrees with the daemon that wrote it. The full claim is false: flush intervals shrink a million times, metric lists, owners, permissions, limits and modes are lost, producers that were not connected are not started, an updater never started makes the file unreadable, keywords are glued to values, names are used as regular expressions, long paths are cut (the _defect theorems). Not modelled: the lines option, auth_add, listen and start of samplers."
  },
  {
   "property": "C79",
   "status": "partial",
   "theorems": [
    "Verif.PeerCfg.transfer_partial",
    "Verif.PeerCfg.producers_partial",
    "Verif.PeerCfg.updaters_partial",
    "Verif.PeerCfg.policies_partial",
    "Verif.PeerCfg.own_kept",
    "Verif.PeerCfg.names_kept",
    "Verif.PeerCfg.takeover_partial",
    "Verif.PeerCfg.all_run_partial",
    "Verif.PeerCfg.reset_partial",
    "Verif.PeerCfg.auth_defect",
    "Verif.PeerCfg.auto_defect",
    "Verif.PeerCfg.push_defect",
    "Verif.PeerCfg.offset_defect",
    "Verif.PeerCfg.bridge_defect",
    "Verif.PeerCfg.reconnect_defect",
    "Verif.PeerCfg.short_interval_defect",
    "Verif.PeerCfg.stream_defect",
    "Verif.PeerCfg.regex_policy_defect",
    "Verif.PeerCfg.long_name_defect",
    "Verif.PeerCfg.matches_defect",
    "Verif.PeerCfg.stopped_defect",
    "Verif.PeerCfg.drop_policy_defect",
    "Verif.PeerCfg.drop_connected_defect",
    "Verif.PeerCfg.again_defect"
   ],
   "note": "Proved for all configurations that satisfy Fine (no cut names, numbers that fit, hosts that resolve): the result of the transfer is exactly withPeer; own objects are kept by every history. Missing or false in the code: authentication, auto interval, push flags, bridge, offset (skew twice), owner of policies, regex policies (crash), short intervals (freed object), reset with policies (crash) or connected producers."
  },
  {
   "property": "C80",
   "status": "partial",
   "theorems": [
    "Verif.Secret.secret_iff_partial",
    "Verif.Secret.lines_exist",
    "Verif.Secret.secret_protected",
    "Verif.Secret.rest_ignored",
    "Verif.Secret.named_file",
    "Verif.Secret.user_file",
    "Verif.Secret.system_file",
    "Verif.Secret.replies_differ",
    "Verif.Secret.reply_text",
    "Verif.Secret.pack_unpack",
    "Verif.Secret.pack_bytes",
    "Verif.Secret.rabbit_partial",
    "Verif.Secret.rabbit_gives_partial",
    "Verif.Secret.rabbit_inside",
    "Verif.Secret.long_word_defect",
    "Verif.Secret.comment_defect",
    "Verif.Secret.carriage_return_defect",
    "Verif.Secret.long_comment_defect",
    "Verif.Secret.cut_word_defect",
    "Verif.Secret.race_defect",
    "Verif.Secret.concatenation_defect",
    "Verif.Secret.repeat_defect",
    "Verif.Secret.challenge_bits_defect",
    "Verif.Secret.rabbit_space_defect",
    "Verif.Secret.rabbit_size_defect"
   ],
   "note": "Exact for files of text with lines up to 526 bytes; protection, choice of the file, replies and packing for all inputs. False in the code: 513 bytes are accepted, a comment after an empty secretword= is the secret, long lines are read in pieces, the mode is checked on the path and not on the open file, challenges repeat (10^9 seeds), the rabbit buffer for white space and negative sizes."
  },
  {
   "property": "C81",
   "status": "partial",
   "theorems": [
    "Verif.ProcSamp.mem_faithful",
    "Verif.ProcSamp.vm_faithful",
    "Verif.ProcSamp.mem_position",
    "Verif.ProcSamp.vm_position",
    "Verif.ProcSamp.wrong_row_defect",
    "Verif.ProcSamp.more_lines_defect",
    "Verif.ProcSamp.mem_config_cut",
    "Verif.ProcSamp.vm_config_bad",
    "Verif.ProcSamp.torn_defect",
    "Verif.ProcSamp.mem_config_dup",
    "Verif.ProcSamp.vm_config_dup",
    "Verif.ProcSamp.config_once",
    "Verif.ProcSamp.config_says",
    "Verif.ProcSamp.term_good",
    "Verif.ProcSamp.term_failed_defect",
    "Verif.ProcSamp.nd_faithful",
    "Verif.ProcSamp.nd_missing_defect",
    "Verif.ProcSamp.many_names_defect",
    "Verif.ProcSamp.full_table_defect",
    "Verif.ProcSamp.nd_twice_defect",
    "Verif.ProcSamp.long_name_defect",
    "Verif.ProcSamp.nd2_faithful",
    "Verif.ProcSamp.nd2_whole",
    "Verif.ProcSamp.nd2_failed_defect",
    "Verif.ProcSamp.la_select",
    "Verif.ProcSamp.la_unknown",
    "Verif.ProcSamp.la_faithful",
    "Verif.ProcSamp.la_schema_inj",
    "Verif.ProcSamp.la_leftover_defect"
   ],
   "note": "Proved for files whose names stay the same (meminfo, vmstat) and for names that fit. The code violates the full property: values go by position, so a changed file gives wrong values (wrong_row_defect) or ends the process (more_lines_defect); a failed config leaves a dangling pointer, full tables or flags; procnetdev config returns 0 without a set."
  },
  {
   "property": "C82",
   "status": "partial",
   "theorems": [
    "Verif.Dstr.dstring",
    "Verif.Dstr.concat",
    "Verif.Dstr.no_memory",
    "Verif.Dstr.dead_stays",
    "Verif.Dstr.init2_failed_defect",
    "Verif.Dstr.huge_defect"
   ],
   "note": "Proved for all histories after dstr_init, and after dstr_init2 when its allocation succeeds, with texts to be set shorter than INT_MAX. The code violates the rest: init2_failed_defect (capacity raised without memory), huge_defect (INT_MAX bytes or more overrun)."
  },
  {
   "property": "C83",
   "status": "partial",
   "theorems": [
    "Verif.LabelSet.fresh",
    "Verif.LabelSet.refused",
    "Verif.LabelSet.label_set_partial",
    "Verif.LabelSet.alphabet",
    "Verif.LabelSet.length_partial",
    "Verif.LabelSet.clean",
    "Verif.LabelSet.served_partial",
    "Verif.LabelSet.barred",
    "Verif.LabelSet.hexadecimal",
    "Verif.LabelSet.shortened",
    "Verif.LabelSet.no_underscore_partial",
    "Verif.LabelSet.pairs",
    "Verif.LabelSet.pairs_defect",
    "Verif.LabelSet.ascii_defect",
    "Verif.LabelSet.no_hash_defect",
    "Verif.LabelSet.small_limit_defect",
    "Verif.LabelSet.last_resort_defect",
    "Verif.LabelSet.digit_defect",
    "Verif.LabelSet.underscore_defect"
   ],
   "note": "Proved for any hash function: returned identifiers are new and nonempty, histories keep labels and identifiers distinct, the alphabet per language, the limit (from 12 on, except for the last resort), clean labels stay, every new ASCII label is served unless an identifier ends with the digits of its hash, the text of the hash is injective. Missing because the code does otherwise (defects proved): bytes from 128 on make the translation loop for ever, a label with hash 0 is not kept, limits below 12 are ignored, the last resort ignores the limit, identifiers can begin with a digit or (R, least) with _, pairs of the client can repeat an identifier."
  },
  {
   "property": "C84",
   "status": "partial",
   "theorems": [
    "Verif.StreamStat.stream_stats",
    "Verif.StreamStat.client_stats",
    "Verif.StreamStat.read_pure",
    "Verif.StreamStat.stream_reset_partial",
    "Verif.StreamStat.client_reset",
    "Verif.StreamStat.all_reset",
    "Verif.StreamStat.deliver_history",
    "Verif.StreamStat.read_ok",
    "Verif.StreamStat.null_defect",
    "Verif.StreamStat.drops_defect",
    "Verif.StreamStat.uninit_defect"
   ],
   "note": "Proved for deliveries as single actions: exact reports of streams, sources, clients and pairs, reads are pure, resets act on what they name, a delivery adds one call per open interested client. False in three places, each with a witness: reading the statistics of a stream one of whose clients was closed since its last message reads a NULL client (null_defect), a reset with the streams' statistics leaves the refused counts of pairs (drops_defect), and turning the statistics on during a delivery counts a time that was never set (uninit_defect). Not modelled: threads interleaving inside one delivery, failing allocation, the JSON text of the reports."
  },
  {
   "property": "C85",
   "status": "partial",
   "theorems": [
    "Verif.BlobFile.files_hold",
    "Verif.BlobFile.read_back_partial",
    "Verif.BlobFile.all_heard",
    "Verif.BlobFile.all_written_partial",
    "Verif.BlobFile.later_defect",
    "Verif.BlobFile.dropped_defect",
    "Verif.BlobFile.second_defect",
    "Verif.BlobFile.result_defect",
    "Verif.BlobFile.stale_defect"
   ],
   "note": "One stream with working file system calls except short writes of the data. files_hold: at all times the files of each opening (of openings with different seconds) hold exactly what was written; read_back_partial: the first opening's offsets read its messages back; all_heard: no message is missed after the first complete command; all_written_partial: each is written if no command names the stream without a path. The full property is false: later_defect (the offset is never reset, so no later opening reads back), dropped_defect, second_defect, result_defect, stale_defect."
  },
  {
   "property": "C86",
   "status": "partial",
   "theorems": [
    "Verif.DStream.calls_exact",
    "Verif.DStream.heard_partial",
    "Verif.DStream.object_given",
    "Verif.DStream.subscribe_result",
    "Verif.DStream.subscriber_count",
    "Verif.DStream.recv_counts",
    "Verif.DStream.pub_counts",
    "Verif.DStream.publ_partial",
    "Verif.DStream.overall_sums",
    "Verif.DStream.overall_pub",
    "Verif.DStream.overall_recv_partial",
    "Verif.DStream.alone",
    "Verif.DStream.parse_defect",
    "Verif.DStream.reset_defect",
    "Verif.DStream.buffer_defect",
    "Verif.DStream.overall_defect",
    "Verif.DStream.race_defect"
   ],
   "note": "calls_exact says for every history which clients are called, with what, in which order; heard_partial is the property as stated if no unparsable JSON comes; recv_counts, pub_counts, overall_sums, overall_pub, subscribe_result, subscriber_count and object_given hold of all histories; publ_partial needs buffers of names that are not reused, overall_recv_partial that all streams received something. The full property is false: parse_defect, reset_defect, buffer_defect, overall_defect and, of threads, race_defect. alone ties the single-step calls to the thread steps. Not modelled: sending to the peer, the text of the reports, failing allocations."
  },
  {
   "property": "C87",
   "status": "partial",
   "theorems": [
    "Verif.FlatFile.files_partial",
    "Verif.FlatFile.reopen_defect",
    "Verif.FlatFile.mixed_defect",
    "Verif.FlatFile.more_defect",
    "Verif.FlatFile.shared_defect",
    "Verif.FlatFile.colon_defect",
    "Verif.FlatFile.comp_defect",
    "Verif.FlatFile.long_defect"
   ],
   "note": "files_partial: if each container and schema is opened only once in a history and policies store as many values as they have metrics, there is no undefined behaviour and all files hold exactly what they should. The full property is false: reopen_defect (a closed container and schema opened again gives the freed record, from any state), mixed_defect, more_defect, shared_defect (policies that share a container and schema), colon_defect, comp_defect, long_defect. Not modelled: buffering, failing calls, the formats of numbers."
  },
  {
   "property": "C88",
   "status": "partial",
   "theorems": [
    "Verif.PlugAttr.value_first",
    "Verif.PlugAttr.kw_any",
    "Verif.PlugAttr.bool_spec",
    "Verif.PlugAttr.multi_partial",
    "Verif.PlugAttr.multi_defect",
    "Verif.PlugAttr.deprecated_partial",
    "Verif.PlugAttr.deprecated_defect",
    "Verif.PlugAttr.add_partial",
    "Verif.PlugAttr.empty_key_defect",
    "Verif.PlugAttr.key_collision_defect",
    "Verif.PlugAttr.check_count",
    "Verif.PlugAttr.create_sound",
    "Verif.PlugAttr.create_complete",
    "Verif.PlugAttr.file_deprecated_defect",
    "Verif.PlugAttr.single_word_defect",
    "Verif.PlugAttr.plugin_key_defect",
    "Verif.PlugAttr.num_exact",
    "Verif.PlugAttr.u64_partial",
    "Verif.PlugAttr.u64_negative_defect",
    "Verif.PlugAttr.range_code_defect",
    "Verif.PlugAttr.entries_stay"
   ],
   "note": "Missing because the code does not have them: the values of a repeated option that comes after another one (multi_defect: values of other options are returned), keys with an empty value (empty_key_defect: undefined behaviour), distinct keys with slashes in values (key_collision_defect), overlapping deprecated names (deprecated_defect), deprecated names in the file (file_deprecated_defect), single words on a line (single_word_defect), the plugin name as key (plugin_key_defect), negative numbers read as unsigned ones of 64 bits (u64_negative_defect) and the code for numbers out of range (range_code_defect). Continuation lines and comments are C89. Not modelled: the syntax of numbers, floating point, sizes with units."
  },
  {
   "property": "C89",
   "status": "partial",
   "theorems": [
    "Verif.PlugAttr.canonical_partial",
    "Verif.PlugAttr.blank_first_defect",
    "Verif.PlugAttr.last_comment_defect"
   ],
   "note": "Missing because the code does not have it: files with a blank first line (blank_first_defect reads before the buffer) and with a comment as their last line and no newline after it (last_comment_defect overwrites the NUL after the text, so that the search for the next newline leaves the buffer)."
  },
  {
   "property": "C90",
   "status": "partial",
   "theorems": [
    "Verif.OvisMap.find_first",
    "Verif.OvisMap.insert_unique",
    "Verif.OvisMap.insert_new",
    "Verif.OvisMap.snapshot_partial",
    "Verif.OvisMap.snapshot_zero_defect"
   ],
   "note": "Missing because the code does not have it: a snapshot into an array of length 0 is not refused but written to (snapshot_zero_defect)."
  }
 ]
}