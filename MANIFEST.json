{
 "claims": [
  {
   "property": "C01",
   "status": "proved",
   "theorems": [
    "Verif.Queue.C01_queue_refines_list",
    "Verif.Queue.C01_queue_spec_deterministic",
    "Verif.Queue.C01_push_back_pop_front_fifo",
    "Verif.Queue.C01_out_of_range_ignored"
   ],
   "note": ""
  },
  {
   "property": "C02",
   "status": "proved",
   "theorems": [
    "Verif.Pool.C02_pool_reports_last_store",
    "Verif.Pool.C02_pool_keys_in_insertion_order",
    "Verif.Pool.C02_pool_first_next_enumerates",
    "Verif.Pool.C02_pool_last_prev_enumerates",
    "Verif.Pool.C02_pool_empty_enumeration",
    "Verif.Pool.C02_pool_delete_during_iteration_skips"
   ],
   "note": "Full for UVMPool; object string pools are C85."
  },
  {
   "property": "C03",
   "status": "proved",
   "theorems": [
    "Verif.Mailbox.C03_mailbox_fifo_every_schedule",
    "Verif.Mailbox.C03_mailbox_capacity",
    "Verif.Mailbox.C03_mailbox_never_raises",
    "Verif.Mailbox.C03_mailbox_try_calls",
    "Verif.Mailbox.C03_num_is_nonempty"
   ],
   "note": "Full for put/get/try_*; peek is C86."
  },
  {
   "property": "C04",
   "status": "proved",
   "theorems": [
    "Verif.Mailbox.C04_mailbox_no_lost_wakeup",
    "Verif.Mailbox.C04_mailbox_no_deadlock",
    "Verif.Mailbox.C04_mailbox_unbounded_put_never_blocks"
   ],
   "note": ""
  },
  {
   "property": "C05",
   "status": "proved",
   "theorems": [
    "Verif.ScopeStack.C05_get_renders_path",
    "Verif.ScopeStack.C05_operations",
    "Verif.ScopeStack.C05_scope_changes_drop_argument"
   ],
   "note": "get() and all operations in full; restoring by up is C87."
  },
  {
   "property": "C06",
   "status": "proved",
   "theorems": [
    "Verif.SpellChkr.C06_distance_is_least_edits",
    "Verif.SpellChkr.C06_distance_empty",
    "Verif.SpellChkr.C06_distance_symmetric",
    "Verif.SpellChkr.C06_distance_zero_iff"
   ],
   "note": "Distance in full; suggestions are C88."
  },
  {
   "property": "C07",
   "status": "proved",
   "theorems": [
    "Verif.Packer.C07_pack_unpack_roundtrip",
    "Verif.Packer.C07_fresh_roundtrip",
    "Verif.Packer.C07_field_layout",
    "Verif.Packer.C07_reset_is_fresh"
   ],
   "note": "Full; size 0 and oversized values are C89."
  },
  {
   "property": "C08",
   "status": "partial",
   "theorems": [
    "Verif.Packer.C08_string_roundtrip_partial",
    "Verif.Packer.C08_terminated_string_roundtrip_partial",
    "Verif.Packer.C08_big_endian_string_fails",
    "Verif.Packer.C08_string_followed_by_field_fails",
    "Verif.Packer.C08_empty_string_fails"
   ],
   "note": "Full statement is StringRoundTrip; it fails in big-endian order and when the string is followed by something; what holds is in the _partial theorems."
  },
  {
   "property": "C09",
   "status": "proved",
   "theorems": [
    "Verif.Packer.C09_unpack_past_end_refused",
    "Verif.Packer.C09_unpack_history_stays_inside"
   ],
   "note": ""
  },
  {
   "property": "C10",
   "status": "proved",
   "theorems": [
    "Verif.Packer.C10_get_elements_recombine",
    "Verif.Packer.C10_big_endian_elements_mirrored",
    "Verif.Packer.C10_get_bit",
    "Verif.Packer.C10_elements_roundtrip"
   ],
   "note": "get_* and list round trips in full; put_* and positions are C90."
  },
  {
   "property": "C11",
   "status": "proved",
   "theorems": [
    "Verif.SvBits.C11_set_bit",
    "Verif.SvBits.C11_get_bit",
    "Verif.SvBits.C11_get_after_set",
    "Verif.SvBits.C11_vector_of_ones",
    "Verif.SvBits.C11_clog2"
   ],
   "note": ""
  },
  {
   "property": "C12",
   "status": "proved",
   "theorems": [
    "Verif.RegField.C12_write_follows_documented_policy",
    "Verif.RegField.C12_full_rights",
    "Verif.RegField.C12_read_only_rights",
    "Verif.RegField.C12_read_follows_documented_policy",
    "Verif.RegField.C12_set_like_a_write",
    "Verif.RegField.C12_direct_and_backdoor",
    "Verif.RegField.C12_new_field",
    "Verif.RegField.C12_policy"
   ],
   "note": "Full for RW and RO rights, backdoor and direct prediction; write-only maps and byte enables are C91."
  },
  {
   "property": "C13",
   "status": "partial",
   "theorems": [
    "Verif.Reg.C13_register_update",
    "Verif.Reg.C13_register_update_partial",
    "Verif.Reg.C13_register_update_destroys_fails",
    "Verif.RegField.C13_set_then_update",
    "Verif.RegField.C13_update_through_write_only_map_fails"
   ],
   "note": "Full for maps with RW rights; fails through write-only maps."
  },
  {
   "property": "C14",
   "status": "proved",
   "theorems": [
    "Verif.RegField.C14_values_fit"
   ],
   "note": ""
  },
  {
   "property": "C15",
   "status": "proved",
   "theorems": [
    "Verif.Reg.C15_register_reset",
    "Verif.RegField.C15_reset",
    "Verif.RegField.C15_last_set_reset_wins",
    "Verif.RegField.C15_write_once_after_hard_reset"
   ],
   "note": ""
  },
  {
   "property": "C16",
   "status": "proved",
   "theorems": [
    "Verif.Reg.C16_fields_ordered_and_overlaps_reported",
    "Verif.Reg.C16_value_is_union_of_fields",
    "Verif.Reg.C16_set_bitwise",
    "Verif.Reg.C16_get_after_set",
    "Verif.Reg.C16_number_of_bytes",
    "Verif.Reg.C16_byte_enables",
    "Verif.Reg.C16_predicted_write_bitwise",
    "Verif.Reg.C16_direct_prediction_while_busy"
   ],
   "note": "Layout, get/set/predict bitwise laws proved for every reachable register; fields beyond the width are C92."
  },
  {
   "property": "C17",
   "status": "proved",
   "theorems": [
    "Verif.RegMap.C17_write_accesses",
    "Verif.RegMap.C17_access_count",
    "Verif.RegMap.C17_write_then_read",
    "Verif.RegMap.C17_register_round_trip",
    "Verif.RegMap.C17_fifo_round_trip",
    "Verif.RegMap.C17_stops_at_first_error",
    "Verif.RegMap.C17_read_stops_at_first_error"
   ],
   "note": "Round trip through a memory-like and a FIFO-like device proved for every order policy; errors in bursts are C93."
  },
  {
   "property": "C18",
   "status": "proved",
   "theorems": [
    "Verif.RegMap.C18_number_of_addresses",
    "Verif.RegMap.C18_root_addresses",
    "Verif.RegMap.C18_big_is_reverse_of_little",
    "Verif.RegMap.C18_base_address",
    "Verif.RegMap.C18_bus_width",
    "Verif.RegMap.C18_nested_single_word"
   ],
   "note": "Root maps, and single words in nested maps; wide items in nested maps are C125."
  },
  {
   "property": "C19",
   "status": "proved",
   "theorems": [
    "Verif.RegMap.C19_lookup_finds_a_claimant",
    "Verif.RegMap.C19_first_claim_wins",
    "Verif.RegMap.C19_read_only_write_only_share",
    "Verif.RegMap.C19_register_access"
   ],
   "note": "Full; two write-only registers are C94."
  },
  {
   "property": "C20",
   "status": "partial",
   "theorems": [
    "Verif.Factory.C20_resolution",
    "Verif.Factory.C20_acyclic",
    "Verif.Factory.C20_chain_end",
    "Verif.Factory.C20_no_crash_after_first_loop",
    "Verif.Factory.C20_at_most_one_crash",
    "Verif.Factory.C20_no_loop_no_change",
    "Verif.Factory.C20_instance_path",
    "Verif.Factory.C20_loop_index_error_fails",
    "Verif.Factory.C20_same_names_recursion_fails",
    "Verif.Factory.C20_instance_overrides_in_order"
   ],
   "note": "Resolution proved terminating and correct for all override graphs with distinct type names; _fails: IndexError on a loop with a prefix, unbounded recursion with equal names. By-name creation is C119."
  },
  {
   "property": "C21",
   "status": "partial",
   "theorems": [
    "Verif.Factory.C21_type_override_partial",
    "Verif.Factory.C21_creation_uses_latest",
    "Verif.Factory.C21_replace_zero_fails",
    "Verif.Factory.C21_self_override_fails",
    "Verif.Factory.C21_by_name_ignored",
    "Verif.Factory.C21_by_name_takes_effect",
    "Verif.Factory.C21_by_name_target_redirected_fails"
   ],
   "note": "Refinement of the override table to the last-call-wins map for overrides by type with boolean replace, effect of overrides by name; _fails: replace=0 replaces, self override displaces, override by name redirects the name."
  },
  {
   "property": "C22",
   "status": "partial",
   "theorems": [
    "Verif.Factory.C22_names_partial",
    "Verif.Factory.C22_register_idempotent",
    "Verif.Factory.C22_unknown_name",
    "Verif.Factory.C22_override_redirects_name_fails",
    "Verif.Factory.C22_registry_creates",
    "Verif.Factory.C22_same_name_creates_other_class_fails"
   ],
   "note": "First registration wins, over every history without overrides by name; _fails: override by name redirects the name, same-named classes."
  },
  {
   "property": "C23",
   "status": "proved",
   "theorems": [
    "Verif.Resource.C23_highest_precedence",
    "Verif.Resource.C23_highest_precedence_of_type",
    "Verif.Resource.C23_lookup_by_name"
   ],
   "note": "Selection over every queue, with and without type, and lookup by name in every pool state of the invariant; typed config_db look-ups are C95."
  },
  {
   "property": "C24",
   "status": "partial",
   "theorems": [
    "Verif.Resource.C24_last_set_wins_partial",
    "Verif.Resource.C24_repeated_set_loses_fails",
    "Verif.Resource.C24_equal_value_kept_fails",
    "Verif.Resource.C24_key_collision_fails",
    "Verif.Resource.C24_get_finds_iff",
    "Verif.Resource.C24_exact_partial",
    "Verif.Resource.C24_path"
   ],
   "note": "C24_exact_partial gives what get returns for every history of sets (build or not) without colliding keys. Last matching set wins when it is the first of its key or no other key matched before. Code violations: a repeated set moves the resource to the end of the queue and loses against the other settings; equal values (True == 1) keep the old one; glued keys collide."
  },
  {
   "property": "C25",
   "status": "proved",
   "theorems": [
    "Verif.Resource.C25_depth",
    "Verif.Resource.C25_higher_level_wins",
    "Verif.Resource.C25_after_build_wins"
   ],
   "note": "Any order of build-phase sets; a set outside build counts as depth 0 and beats every set made in build by a component below the root."
  },
  {
   "property": "C26",
   "status": "proved",
   "theorems": [
    "Verif.Resource.C26_write",
    "Verif.Resource.C26_history",
    "Verif.Resource.C26_modified"
   ],
   "note": "Read-only, equal and effective writes, over all histories."
  },
  {
   "property": "C27",
   "status": "proved",
   "theorems": [
    "Verif.Objection.C27_chain_is_ancestors",
    "Verif.Objection.C27_totals",
    "Verif.Objection.C27_totals_without_drains"
   ],
   "note": "Invariant over all trees, histories and interleavings of the drain coroutines; exact accounting also with pending drains. A raise meeting a running drain is excluded there because the code is wrong in that case (C29)."
  },
  {
   "property": "C28",
   "status": "proved",
   "theorems": [
    "Verif.Objection.C28_over_drop_rejected",
    "Verif.Objection.C28_counts_and_accepted_drops",
    "Verif.Objection.C28_never_negative",
    "Verif.Objection.C28_cleared_until_raise"
   ],
   "note": "Rejection in every state, non-negative counts after every history; negative arguments are C96."
  },
  {
   "property": "C29",
   "status": "partial",
   "theorems": [
    "Verif.Objection.C29_reraise_before_drain_partial",
    "Verif.Objection.C29_reraise_during_drain_fails"
   ],
   "note": "Exact effect of a re-raise before the drain runs. Code violation: a running drain is not stopped by a re-raise, its drop still propagates and the coroutine ends with an exception."
  },
  {
   "property": "C30",
   "status": "partial",
   "theorems": [
    "Verif.Objection.C30_coroutines_come_to_rest",
    "Verif.Objection.C30_rest_means_drained_partial",
    "Verif.Objection.C30_second_drain_lost_fails",
    "Verif.Objection.C30_all_dropped_is_true",
    "Verif.Objection.C30_top_all_dropped"
   ],
   "note": "Coroutines always come to rest; at rest nothing is pending provided the background process never finds two waiting drains; all_dropped only announced when true. Code violation: it takes one context per wake-up, so a second drain is lost."
  },
  {
   "property": "C31",
   "status": "proved",
   "theorems": [
    "Verif.Arbiter.C31_only_eligible",
    "Verif.Arbiter.C31_fifo_oldest",
    "Verif.Arbiter.C31_random"
   ],
   "note": "Full for FIFO and RANDOM; other modes are C97."
  },
  {
   "property": "C32",
   "status": "proved",
   "theorems": [
    "Verif.Arbiter.C32_blocked_iff",
    "Verif.Arbiter.C32_single_lock",
    "Verif.Arbiter.C32_grabbed_iff"
   ],
   "note": "Blocking and grabbing decided exactly as specified; granting of locks is C98."
  },
  {
   "property": "C33",
   "status": "proved",
   "theorems": [
    "Verif.Arbiter.C33_removes_exactly",
    "Verif.Arbiter.C33_unblocks"
   ],
   "note": "m_unregister/remove_sequence_from_queues; kill_sequence itself is C99."
  },
  {
   "property": "C34",
   "status": "proved",
   "theorems": [
    "Verif.Response.C34_refines",
    "Verif.Response.C34_fifo",
    "Verif.Response.C34_bounded",
    "Verif.Response.C34_any_not_stuck"
   ],
   "note": "Refinement to a bounded queue; waiting by id is C100."
  },
  {
   "property": "C35",
   "status": "proved",
   "theorems": [
    "Verif.Sequencer.C35_history",
    "Verif.Sequencer.C35_history_const",
    "Verif.Sequencer.C35_transaction_ids",
    "Verif.Sequencer.C35_num_sent"
   ],
   "note": "All histories without exception; negative limits are C101."
  },
  {
   "property": "C36",
   "status": "proved",
   "theorems": [
    "Verif.Sequencer.C36_handshake",
    "Verif.Sequencer.C36_delivery",
    "Verif.Sequencer.C36_same_item",
    "Verif.Sequencer.C36_item_done_fatal",
    "Verif.Sequencer.C36_item_done",
    "Verif.Sequencer.C36_granted_can_send",
    "Verif.Sequencer.C36_finish_after_done"
   ],
   "note": "Order, one outstanding item, deliveries and item_done proved for every interleaving without stop_sequences and without try_next_item after an unfinished peek (C121). The end of finish_item is C120."
  },
  {
   "property": "C37",
   "status": "proved",
   "theorems": [
    "Verif.Report.C37_action",
    "Verif.Report.C37_verbosity",
    "Verif.Report.C37_filter",
    "Verif.Report.C37_report_effects"
   ],
   "note": "Every history; files are C102."
  },
  {
   "property": "C38",
   "status": "proved",
   "theorems": [
    "Verif.Report.C38_override",
    "Verif.Report.C38_not_chained",
    "Verif.Report.C38_other_ids"
   ],
   "note": "Severities range over the four severity levels."
  },
  {
   "property": "C39",
   "status": "proved",
   "theorems": [
    "Verif.Report.C39_severity_counts",
    "Verif.Report.C39_id_counts",
    "Verif.Report.C39_counts_of_reports",
    "Verif.Report.C39_quit_count",
    "Verif.Report.C39_quit_count_zero",
    "Verif.Report.C39_quit_count_reports",
    "Verif.Report.C39_max_quit_sticks"
   ],
   "note": "Every history of server calls and reports with arbitrary handlers and catchers; recording and show_verbosity are C103."
  },
  {
   "property": "C40",
   "status": "partial",
   "theorems": [
    "Verif.Report.C40_chain_partial",
    "Verif.Report.C40_counts_partial",
    "Verif.Report.C40_later_catchers",
    "Verif.Report.C40_disabled",
    "Verif.Report.C40_set_action_fails",
    "Verif.Report.C40_raise_disables_fails",
    "Verif.Report.C40_foreign_callback_fails",
    "Verif.Report.C40_unknown",
    "Verif.Report.C40_fatal_in_catcher"
   ],
   "note": "Proved for all queues of catchers that only modify the message, unless a catcher both sets the action and changes the severity (C40_set_action_fails). An exception in a catcher, or a callback of another class behind a catcher, disables all catchers (C40_raise_disables_fails, C40_foreign_callback_fails)."
  },
  {
   "property": "C41",
   "status": "proved",
   "theorems": [
    "Verif.Callback.C41_run",
    "Verif.Callback.C41_once",
    "Verif.Callback.C41_add_type",
    "Verif.Callback.C41_add_ok",
    "Verif.Callback.C41_exit_on",
    "Verif.Callback.C41_first_last",
    "Verif.Callback.C41_next_prev",
    "Verif.Callback.C41_backwards",
    "Verif.Callback.C41_mode"
   ],
   "note": "The exact rule for every history of additions; the merge with type-wide callbacks and delete are C126."
  },
  {
   "property": "C42",
   "status": "proved",
   "theorems": [
    "Verif.TlmFifo.C42_order",
    "Verif.TlmFifo.C42_put_ap",
    "Verif.TlmFifo.C42_flush",
    "Verif.TlmFifo.C42_capacity",
    "Verif.TlmFifo.C42_analysis_write",
    "Verif.TlmFifo.C42_no_lost_wakeup",
    "Verif.TlmFifo.C42_try_peek",
    "Verif.TlmFifo.C42_try_get"
   ],
   "note": "Every schedule; get_ap and peek with a list are C104."
  },
  {
   "property": "C43",
   "status": "partial",
   "theorems": [
    "Verif.TlmFifo.C43_used_partial",
    "Verif.TlmFifo.C43_used_fails",
    "Verif.TlmFifo.C43_is_empty",
    "Verif.TlmFifo.C43_is_full_partial",
    "Verif.TlmFifo.C43_is_full_fails",
    "Verif.TlmFifo.C43_can_put_partial",
    "Verif.TlmFifo.C43_can_put_fails",
    "Verif.TlmFifo.C43_can_peek",
    "Verif.TlmFifo.C43_can_get_sound",
    "Verif.TlmFifo.C43_can_get_partial",
    "Verif.TlmFifo.C43_can_get_after_kill_fails"
   ],
   "note": "is_empty and can_peek exact. used() is only 0/1, is_full and can_put are wrong for sizes above 1, can_get stays False after a cancelled get (the _fails theorems); partial theorems state the exact part that holds."
  },
  {
   "property": "C44",
   "status": "proved",
   "theorems": [
    "Verif.Dap.C44_get_to_lock_get",
    "Verif.Dap.C44_get_to_lock_frozen",
    "Verif.Dap.C44_get_to_lock_set",
    "Verif.Dap.C44_simple_lock_get",
    "Verif.Dap.C44_simple_lock_set",
    "Verif.Dap.C44_set_before_get_get",
    "Verif.Dap.C44_set_before_get_try_get",
    "Verif.Dap.C44_set_before_get_try_get_list"
   ],
   "note": "Every history; try_ variants are C105."
  },
  {
   "property": "C45",
   "status": "proved",
   "theorems": [
    "Verif.Comparator.C45_prefix",
    "Verif.Comparator.C45_all_pairs",
    "Verif.Comparator.C45_counts",
    "Verif.Comparator.C45_total",
    "Verif.Comparator.C45_progress",
    "Verif.Comparator.C45_algorithmic",
    "Verif.Comparator.C45_algorithmic_before"
   ],
   "note": "Proved for every interleaving, comparison function and flush placement on top of the FIFO and mailbox models; algorithmic comparator included."
  },
  {
   "property": "C46",
   "status": "proved",
   "theorems": [
    "Verif.Cmdline.C46_values",
    "Verif.Cmdline.C46_value",
    "Verif.Cmdline.C46_matches"
   ],
   "note": "Exact; the /regex/ form is C106."
  },
  {
   "property": "C47",
   "status": "proved",
   "theorems": [
    "Verif.Component.C47_full_name",
    "Verif.Component.C47_siblings",
    "Verif.Component.C47_children",
    "Verif.Component.C47_new",
    "Verif.Component.C47_name_fixed",
    "Verif.Component.C47_root",
    "Verif.Component.C47_after_build"
   ],
   "note": "All trees; look-ups by name are C124."
  },
  {
   "property": "C48",
   "status": "partial",
   "theorems": [
    "Verif.Traverse.C48_topdown_partial",
    "Verif.Traverse.C48_topdown_ends",
    "Verif.Traverse.C48_bottomup_partial",
    "Verif.Traverse.C48_task",
    "Verif.Traverse.C48_find_fails",
    "Verif.Traverse.C48_endless_fails"
   ],
   "note": "Order proved for all trees and for all callbacks that touch only their own component and those below it (they may create children in top-down phases). C48_find_fails: find/find_all of the root inside a callback makes the phase skip components; C48_endless_fails: get_first_child of the parent makes it endless."
  },
  {
   "property": "C49",
   "status": "partial",
   "theorems": [
    "Verif.Phase.C49_linear_partial",
    "Verif.Phase.C49_mutual_partial",
    "Verif.Phase.C49_order_partial",
    "Verif.Phase.C49_find_partial",
    "Verif.Phase.C49_with_partial",
    "Verif.Phase.C49_scope",
    "Verif.Phase.C49_scope_fails",
    "Verif.Phase.C49_refused",
    "Verif.Phase.C49_between_refused",
    "Verif.Phase.C49_with_append_fails",
    "Verif.Phase.C49_adjacent_fails",
    "Verif.Phase.C49_parallel_find_fails"
   ],
   "note": "Proved: histories that append, insert before or insert after one other phase (IMP phases and whole schedules) give exactly the described linear chains, all calls succeed, predecessor/successor mutual, is_before/is_after/find agree with the order; with_phase gives the same neighbours and keeps the relation mutual. Fails (proved): appending after a parallel pair raises KeyError because the pair shares one dictionary; after_phase+before_phase naming neighbours raises KeyError; find/is_before follow only the first successor, so parallel phases are missed."
  },
  {
   "property": "C50",
   "status": "partial",
   "theorems": [
    "Verif.RegFifo.C50_capacity",
    "Verif.RegFifo.C50_order_partial",
    "Verif.RegFifo.C50_read",
    "Verif.RegFifo.C50_get_empty_fails",
    "Verif.RegFifo.C50_write_fails",
    "Verif.RegFifo.C50_update_partial",
    "Verif.RegFifo.C50_update_fails",
    "Verif.RegFifo.C50_stale_pending_fails",
    "Verif.RegFifo.C50_randomize",
    "Verif.RegFifo.C50_rights_fails",
    "Verif.RegFifo.C50_full"
   ],
   "note": "Proved for every history: capacity, word size, order for set, predictions and reads (refinement to a bounded queue), full and empty cases, randomise. write() never succeeds (C50_write_fails) and update() repeats values until the queue is full (C50_update_fails, holds in general); also IndexError of get on an empty FIFO, stale pending count, prediction through a read-only map. Callbacks and back doors are not modelled."
  },
  {
   "property": "C51",
   "status": "proved",
   "theorems": [
    "Verif.RegBlock.C51_registers",
    "Verif.RegBlock.C51_memories",
    "Verif.RegBlock.C51_blocks",
    "Verif.RegBlock.C51_roots",
    "Verif.RegBlock.C51_block_wide",
    "Verif.RegBlock.C51_mirror",
    "Verif.RegBlock.C51_lock",
    "Verif.RegBlock.C51_locked_for_good",
    "Verif.RegBlock.C51_add",
    "Verif.RegBlock.C51_unlocked"
   ],
   "note": "Every legal history; update of a block and refused additions are C118. Coverage, maps and virtual registers are not modelled."
  },
  {
   "property": "C52",
   "status": "partial",
   "theorems": [
    "Verif.Comparer.C52_width_partial",
    "Verif.Comparer.C52_width_fails",
    "Verif.Comparer.C52_wide_fails",
    "Verif.Comparer.C52_values",
    "Verif.Comparer.C52_count"
   ],
   "note": "Comparisons of values no wider than the declared width and at most 64 bits are exact. C52_width_fails: the declared width is ignored, so bits above it miscompare; C52_wide_fails: above 64 bits nothing is compared."
  },
  {
   "property": "C53",
   "status": "partial",
   "theorems": [
    "Verif.Mam.C53_regions_partial",
    "Verif.Mam.C53_first",
    "Verif.Mam.C53_refused",
    "Verif.Mam.C53_second_fails",
    "Verif.Mam.C53_negative_fails"
   ],
   "note": "Only reserve_region exists. In range and disjoint because at most one region can ever be reserved: the second reservation raises (C53_second_fails)."
  },
  {
   "property": "C54",
   "status": "partial",
   "theorems": [
    "Verif.Text.C54_search",
    "Verif.Text.C54_complete_partial",
    "Verif.Text.C54_whole_partial",
    "Verif.Text.C54_substring_fails",
    "Verif.Text.C54_plus_fails",
    "Verif.Text.C54_slash_fails"
   ],
   "note": "What the code decides is characterised exactly for plain patterns (C54_search): it looks for a part that matches. The property itself holds for patterns beginning and ending with *; the other cases are refuted."
  },
  {
   "property": "C55",
   "status": "proved",
   "theorems": [
    "Verif.Event.C55_state",
    "Verif.Event.C55_reset_trigger",
    "Verif.Event.C55_wait_on_immediate",
    "Verif.Event.C55_wait_off_immediate",
    "Verif.Event.C55_wait_on",
    "Verif.Event.C55_wait_off",
    "Verif.Event.C55_reset_wakeup",
    "Verif.Event.C55_callbacks_nodup",
    "Verif.Event.C55_add_callback",
    "Verif.Event.C55_delete_callback"
   ],
   "note": "wait_on/wait_off, reset, trigger data for every history and schedule; trigger waits are C122."
  },
  {
   "property": "C56",
   "status": "proved",
   "theorems": [
    "Verif.Text.C56_action",
    "Verif.Text.C56_action_total",
    "Verif.Text.C56_severity"
   ],
   "note": "All strings; refusing unknown words is C107."
  },
  {
   "property": "C57",
   "status": "proved",
   "theorems": [
    "Verif.Port.C57_connect",
    "Verif.Port.C57_fanin_fanout",
    "Verif.Port.C57_write_reaches",
    "Verif.Port.C57_write_order",
    "Verif.Port.C57_size_reports",
    "Verif.Port.C57_bind_once"
   ],
   "note": "Any acyclic connection graph, any binding order; each reachable implementation is called exactly once, in connection order. Names assumed distinct. Unbound ports are C108."
  },
  {
   "property": "C58",
   "status": "proved",
   "theorems": [
    "Verif.Reg.C58_mirror_check_iff"
   ],
   "note": "Exact; write-only fields are C109."
  },
  {
   "property": "C59",
   "status": "proved",
   "theorems": [
    "Verif.RegMap.C59_memory_addresses",
    "Verif.RegMap.C59_burst_round_trip"
   ],
   "note": "In full for root maps and sizes >= 2; one-word memories are C110."
  },
  {
   "property": "C60",
   "status": "partial",
   "theorems": [
    "Verif.RegMap.C60_moved_register_found",
    "Verif.RegMap.C60_old_address_forgotten_fails",
    "Verif.RegMap.C60_old_address_forgotten_partial",
    "Verif.RegMap.C60_shared_address_partial",
    "Verif.RegMap.C60_unmapping_with_1_fails",
    "Verif.RegMap.C60_move_keeps_other_registers_fails"
   ],
   "note": "With default arguments the old address is not forgotten (identity test of 0 against False), and forgetting may remove another register."
  },
  {
   "property": "C61",
   "status": "partial",
   "theorems": [
    "Verif.Resource.C61_sort_partial",
    "Verif.Resource.C61_not_sorted_fails"
   ],
   "note": "Permutation and stability proved. Code violation: groups come in order of first appearance, so the result is not sorted."
  },
  {
   "property": "C62",
   "status": "proved",
   "theorems": [
    "Verif.Resource.C62_first_set_wins",
    "Verif.Resource.C62_write_by_name"
   ],
   "note": "First matching set wins; write_by_name round trip."
  },
  {
   "property": "C63",
   "status": "proved",
   "theorems": [
    "Verif.Resource.C63_access_records"
   ],
   "note": "Counts over every history."
  },
  {
   "property": "C64",
   "status": "partial",
   "theorems": [
    "Verif.Objection.C64_drain_time_of_root_partial",
    "Verif.Objection.C64_drain_time_of_object_fails"
   ],
   "note": "Code violation: the time is stored only when no object is given."
  },
  {
   "property": "C65",
   "status": "partial",
   "theorems": [
    "Verif.Objection.C65_clear_partial",
    "Verif.Objection.C65_clear_during_drain_fails"
   ],
   "note": "Proved when no drain is forked or running. Code violation: otherwise clear raises an exception."
  },
  {
   "property": "C66",
   "status": "partial",
   "theorems": [
    "Verif.Sequencer.C66_stop_fails",
    "Verif.Sequencer.C66_stop_partial"
   ],
   "note": "stop_sequences leaves flags get_next_item does not recognise (C66_stop_fails)."
  },
  {
   "property": "C67",
   "status": "proved",
   "theorems": [
    "Verif.Sequencer.C67_never_misrouted",
    "Verif.Sequencer.C67_routed",
    "Verif.Sequencer.C67_unknown"
   ],
   "note": "Every history, including exceptions."
  },
  {
   "property": "C68",
   "status": "proved",
   "theorems": [
    "Verif.Sequencer.C68_grant_not_lost"
   ],
   "note": "Every history, including exceptions."
  },
  {
   "property": "C69",
   "status": "partial",
   "theorems": [
    "Verif.Event.C69_num_waiters_fails",
    "Verif.Event.C69_num_waiters_partial",
    "Verif.Event.C69_cancel"
   ],
   "note": "Holds for histories of trigger waits made while no trigger is pending, triggers and waking resets; fails otherwise (C69_num_waiters_fails)."
  },
  {
   "property": "C70",
   "status": "proved",
   "theorems": [
    "Verif.Cmdline.C70_args"
   ],
   "note": "get_args; the other queries are C127."
  },
  {
   "property": "C71",
   "status": "partial",
   "theorems": [
    "Verif.Cmdline.C71_action_partial",
    "Verif.Cmdline.C71_action_fails",
    "Verif.Cmdline.C71_severity_partial",
    "Verif.Cmdline.C71_severity_fails",
    "Verif.Cmdline.C71_severity_malformed",
    "Verif.Cmdline.C71_action_malformed",
    "Verif.Cmdline.C71_verbosity_names",
    "Verif.Cmdline.C71_verbosity_partial",
    "Verif.Cmdline.C71_verbosity_fails"
   ],
   "note": "Proved for well-formed settings, except severity UVM_INFO and action UVM_NO_ACTION which are refused; malformed settings raise or are applied (the _fails theorems). uvm_is_match is a parameter."
  },
  {
   "property": "C72",
   "status": "partial",
   "theorems": [
    "Verif.Text.C72_string_to_bits_partial",
    "Verif.Text.C72_string_to_bits_fails"
   ],
   "note": "Proved up to two bytes; refuted from three bytes on."
  },
  {
   "property": "C73",
   "status": "partial",
   "theorems": [
    "Verif.Object.C73_flags",
    "Verif.Object.C73_copy_partial",
    "Verif.Object.C73_clone_partial",
    "Verif.Object.C73_cycle_fails",
    "Verif.Object.C73_recursion_fails"
   ],
   "note": "Proved for acyclic sources of any size. C73_cycle_fails and C73_recursion_fails: cycles give uncopied references, a stale copy map or unbounded recursion."
  },
  {
   "property": "C74",
   "status": "partial",
   "theorems": [
    "Verif.Object.C74_flags",
    "Verif.Object.C74_compare_partial",
    "Verif.Object.C74_reflexive",
    "Verif.Object.C74_string_fails",
    "Verif.Object.C74_ignored_fails",
    "Verif.Object.C74_shared_fails",
    "Verif.Object.C74_after_exception_fails",
    "Verif.Object.C74_none_fails"
   ],
   "note": "Proved when corresponding values have the same kind, differing values are ints or objects and the right-hand side is a tree; reflexivity holds always. Fails: differing strings raise; None or list on the left is ignored; shared sub-objects on the right; comparison after an exception; compare(None)."
  },
  {
   "property": "C75",
   "status": "partial",
   "theorems": [
    "Verif.Object.C75_original_equals_clone_partial",
    "Verif.Object.C75_clone_equals_original_partial",
    "Verif.Object.C75_shared_fails",
    "Verif.Object.C75_cycle_fails"
   ],
   "note": "orig.compare(clone) for all acyclic originals, clone.compare(orig) for trees; C75_shared_fails shows the latter fails with a shared sub-object, C75_cycle_fails that both fail for an object that refers to itself (clone does not copy cycles, C73_cycle_fails)."
  },
  {
   "property": "C76",
   "status": "partial",
   "theorems": [
    "Verif.Fields.C76_fields_partial",
    "Verif.Fields.C76_inherit_fails",
    "Verif.Fields.C76_class_attribute_fails"
   ],
   "note": "Proved when no class registers after an ancestor; C76_inherit_fails: a subclass of a registered class adds its fields to the base class and processes all fields twice."
  },
  {
   "property": "C77",
   "status": "proved",
   "theorems": [
    "Verif.Traverse.C77_find_all",
    "Verif.Traverse.C77_find_order"
   ],
   "note": "The matching predicate is a parameter (glob matching is C54). find_all does move the iteration pointers used by running phase traversals: see C48_find_fails."
  },
  {
   "property": "C78",
   "status": "partial",
   "theorems": [
    "Verif.RegAtomic.C78_exclusive_partial",
    "Verif.RegAtomic.C78_reset_fails",
    "Verif.RegAtomic.C78_progress_partial",
    "Verif.RegAtomic.C78_lost_mirror_fails",
    "Verif.RegAtomic.C78_lost_kill_fails",
    "Verif.RegAtomic.C78_reset_recovers",
    "Verif.RegAtomic.C78_nested_fails",
    "Verif.RegAtomic.C78_fairness_fails"
   ],
   "note": "Exclusion proved for every schedule without reset(); progress proved when nobody is cancelled inside an access and no mirror is made without a map. Fails: reset during an access admits a second one; a mirror() that finds no map, or a coroutine cancelled inside an access, keeps the token for good; an access made from inside an access deadlocks; waiting coroutines can be overtaken for ever. The double release of a refused write is harmless (proved: both are made in one atomic segment)."
  },
  {
   "property": "C79",
   "status": "proved",
   "theorems": [
    "Verif.RegAccess.C79_write",
    "Verif.RegAccess.C79_read",
    "Verif.RegAccess.C79_no_map",
    "Verif.RegAccess.C79_update",
    "Verif.RegAccess.C79_update_needed"
   ],
   "note": "Bit by bit for every device and register; refused accesses and single-field updates are C116, status, checks and back doors are C117."
  },
  {
   "property": "C80",
   "status": "partial",
   "theorems": [
    "Verif.RegAccess.C80_write_calls_partial",
    "Verif.RegAccess.C80_register_callbacks_never_called_fails",
    "Verif.RegAccess.C80_write_each_once_partial",
    "Verif.RegAccess.C80_last_field_twice_fails",
    "Verif.RegAccess.C80_hooks_shape_value_partial",
    "Verif.RegAccess.C80_refused_write",
    "Verif.RegAccess.C80_refused_read",
    "Verif.RegAccess.C80_device_gets_shaped_value",
    "Verif.RegAccess.C80_post_write_callbacks_fails",
    "Verif.RegAccess.C80_read_calls_partial",
    "Verif.RegAccess.C80_read_register_callbacks_fails",
    "Verif.RegAccess.C80_post_read_calls",
    "Verif.RegAccess.C80_post_read_value_fails",
    "Verif.RegAccess.C80_bare_callback_fails",
    "Verif.RegAccess.C80_bare_callback_read_fails"
   ],
   "note": "Exact call lists proved. Fails: register callbacks never called before writes and reads, the last field's called twice, field callbacks not run after writes, value changed by post-read hooks dropped, callbacks without post_predict raise."
  },
  {
   "property": "C81",
   "status": "proved",
   "theorems": [
    "Verif.RegAccess.C81_mirror_tracks_device",
    "Verif.RegAccess.C81_no_false_mismatch",
    "Verif.RegAccess.C81_no_false_read_error"
   ],
   "note": "Every history and every device following the documentation (such a device is constructed for every layout). Write-only maps are C111."
  },
  {
   "property": "C82",
   "status": "proved",
   "theorems": [
    "Verif.SeqStart.C82_life_of_a_sequence",
    "Verif.SeqStart.C82_documented_once",
    "Verif.SeqStart.C82_priority",
    "Verif.SeqStart.C82_restart",
    "Verif.SeqStart.C82_no_second_start"
   ],
   "note": "All scripts of the methods without exceptions; exceptions are C112, waiting for a state is C113."
  },
  {
   "property": "C83",
   "status": "proved",
   "theorems": [
    "Verif.SeqItem.C83_full_name",
    "Verif.SeqItem.C83_sequence_path",
    "Verif.SeqItem.C83_root_sequence",
    "Verif.SeqItem.C83_sequencer"
   ],
   "note": "Every tree; the depth is C123."
  },
  {
   "property": "C84",
   "status": "proved",
   "theorems": [
    "Verif.PhaseRun.C84_order",
    "Verif.PhaseRun.C84_states",
    "Verif.PhaseRun.C84_once",
    "Verif.PhaseRun.C84_all_done"
   ],
   "note": "All schedules, interleavings and objection histories; objections are C114, progress is C115."
  },
  {
   "property": "C85",
   "status": "partial",
   "theorems": [
    "Verif.Pool.C85_string_pool_delete_fails",
    "Verif.Pool.C85_string_pool_get_stable"
   ],
   "note": "get proved; delete recurses without end."
  },
  {
   "property": "C86",
   "status": "partial",
   "theorems": [
    "Verif.Mailbox.C86_peek_may_return_none_fails",
    "Verif.Mailbox.C86_peek_front_partial"
   ],
   "note": "Blocking peek may complete without an item (_fails); what holds is C86_peek_front_partial."
  },
  {
   "property": "C87",
   "status": "partial",
   "theorems": [
    "Verif.ScopeStack.C87_nested_history_restores",
    "Verif.ScopeStack.C87_nested_history_arg",
    "Verif.ScopeStack.C87_down_up",
    "Verif.ScopeStack.C87_down_up_clears_argument_fails",
    "Verif.ScopeStack.C87_set_arg_element_fails"
   ],
   "note": "Holds without an argument; down/up loses the argument, set_arg_element raises."
  },
  {
   "property": "C88",
   "status": "partial",
   "theorems": [
    "Verif.SpellChkr.C88_check_iff_known",
    "Verif.SpellChkr.C88_check_never_suggests_fails",
    "Verif.SpellChkr.C88_alternatives_are_closest_partial"
   ],
   "note": "Membership proved; check() never suggests anything (_fails); the loop itself is right (_partial)."
  },
  {
   "property": "C89",
   "status": "partial",
   "theorems": [
    "Verif.Packer.C89_empty_field_fails",
    "Verif.Packer.C89_oversized_value_fails",
    "Verif.Packer.C89_empty_field_partial",
    "Verif.Packer.C89_oversized_low_bits_partial"
   ],
   "note": "Fails: size 0 raises in big-endian order, values that do not fit raise in big-endian order and spill into the next field in little-endian order. C89_empty_field_partial and C89_oversized_low_bits_partial: in little-endian order empty fields are right, and exactly the bits that do not fit are or-ed into the next field."
  },
  {
   "property": "C90",
   "status": "partial",
   "theorems": [
    "Verif.Packer.C90_elements_after_field_fails",
    "Verif.Packer.C90_put_bits_partial",
    "Verif.Packer.C90_put_bits_leading_zero_fails"
   ],
   "note": "put_bits without leading zeros proved; refuted otherwise: unpack_bytes/ints ignore the current position and put_bits drops leading zeros."
  },
  {
   "property": "C91",
   "status": "partial",
   "theorems": [
    "Verif.RegField.C91_write_only_rights_fails",
    "Verif.RegField.C91_disabled_lane_raises_fails"
   ],
   "note": "Refuted: through a write-only map no write has an effect; a cleared byte enable raises."
  },
  {
   "property": "C92",
   "status": "partial",
   "theorems": [
    "Verif.Reg.C92_field_beyond_width_fails",
    "Verif.Reg.C92_any_field_beyond_width_fails",
    "Verif.Reg.C92_too_wide_reported_partial"
   ],
   "note": "Fields that do not overlap and are in sum not wider than the register are accepted wherever they are placed; setting a register with any field reaching beyond its width gives a value that does not fit (_fails, for all such registers). Fields in sum too wide are reported (_partial)."
  },
  {
   "property": "C93",
   "status": "partial",
   "theorems": [
    "Verif.RegMap.C93_burst_error_reported_fails",
    "Verif.RegMap.C93_status_of_last_partial"
   ],
   "note": "The status of a burst of writes is exactly that of its last value (_partial); an error on an earlier value is lost (_fails)."
  },
  {
   "property": "C94",
   "status": "partial",
   "theorems": [
    "Verif.RegMap.C94_second_write_only_register_fails",
    "Verif.RegMap.C94_displaced_fails",
    "Verif.RegMap.C94_kept_partial"
   ],
   "note": "Proved in general: with a read-only and a write-only register at the address another write-only register silently takes the writes (_fails); without the read-only one the first keeps the address and a warning is given (_partial)."
  },
  {
   "property": "C95",
   "status": "partial",
   "theorems": [
    "Verif.Resource.C95_config_get_with_type_fails",
    "Verif.Resource.C95_type_of_value_ignored_fails"
   ],
   "note": "A look-up with a type of which no resource is an instance finds nothing whatever was set, so the type of the value plays no part (_fails, for all databases, plus a witness)."
  },
  {
   "property": "C96",
   "status": "partial",
   "theorems": [
    "Verif.Objection.C96_negative_raise_fails",
    "Verif.Objection.C96_any_raise_counts_fails"
   ],
   "note": "Refuted in general: raising any number changes the count by that number in every tree and state, so negative numbers make counts negative (_fails)."
  },
  {
   "property": "C97",
   "status": "partial",
   "theorems": [
    "Verif.Arbiter.C97_other_modes_partial",
    "Verif.Arbiter.C97_priority_modes_fails",
    "Verif.Arbiter.C97_two_candidates_fails"
   ],
   "note": "Proved with at most one candidate; with two or more candidates the simulation ends with a fatal error, for every queue and set of locks (_fails)."
  },
  {
   "property": "C98",
   "status": "partial",
   "theorems": [
    "Verif.Arbiter.C98_lock_request_fails"
   ],
   "note": "Refuted: a lock request at the head of the queue raises instead of being granted."
  },
  {
   "property": "C99",
   "status": "partial",
   "theorems": [
    "Verif.Arbiter.C99_kill_fails"
   ],
   "note": "Refuted: kill_sequence raises."
  },
  {
   "property": "C100",
   "status": "partial",
   "theorems": [
    "Verif.Response.C100_id_not_stuck_partial",
    "Verif.Response.C100_id_missed_fails"
   ],
   "note": "Proved for a single waiter; with several a getter by id can miss its response (_fails)."
  },
  {
   "property": "C101",
   "status": "partial",
   "theorems": [
    "Verif.Sequencer.C101_negative_limit_fails"
   ],
   "note": "Refuted, in general."
  },
  {
   "property": "C102",
   "status": "partial",
   "theorems": [
    "Verif.Report.C102_file_first_nonzero",
    "Verif.Report.C102_file_fails",
    "Verif.Report.C102_file_partial"
   ],
   "note": "File 0 set for a pair or an id does not win over less specific settings (_fails); the exact rule (first setting that is not 0) and the documented precedence without such zeros are proved."
  },
  {
   "property": "C103",
   "status": "partial",
   "theorems": [
    "Verif.Report.C103_record_fails",
    "Verif.Report.C103_show_verbosity_fails",
    "Verif.Report.C103_record_always_fails"
   ],
   "note": "Every report that gets through with an action asking for recording ends in a KeyError with nothing printed (_fails, for all settings, plus witnesses)."
  },
  {
   "property": "C104",
   "status": "partial",
   "theorems": [
    "Verif.TlmFifo.C104_get_ap_partial",
    "Verif.TlmFifo.C104_get_ap_try_get_fails",
    "Verif.TlmFifo.C104_get_ap_flush_fails",
    "Verif.TlmFifo.C104_peek_list_fails"
   ],
   "note": "get_ap holds for blocking gets; fails for try_get with a non-empty list and for flush; peek with a list appends twice."
  },
  {
   "property": "C105",
   "status": "partial",
   "theorems": [
    "Verif.Dap.C105_try_fails"
   ],
   "note": "Refuted: NotImplementedError."
  },
  {
   "property": "C106",
   "status": "partial",
   "theorems": [
    "Verif.Cmdline.C106_regex_fails",
    "Verif.Cmdline.C106_last_character_ignored_fails"
   ],
   "note": "Refuted: the last character of the expression plays no part, for every expression and argument vector, and the match is anchored (_fails)."
  },
  {
   "property": "C107",
   "status": "partial",
   "theorems": [
    "Verif.Text.C107_action_unknown_fails",
    "Verif.Text.C107_other_words_ignored_fails"
   ],
   "note": "Refuted: the answer depends on the action names among the words alone, any other words are ignored (_fails, for all lists of words)."
  },
  {
   "property": "C108",
   "status": "partial",
   "theorems": [
    "Verif.Port.C108_unbound_fails",
    "Verif.Port.C108_never_bound_fails"
   ],
   "note": "A write before the ports are bound reaches nobody silently, for every network (_fails); an index that is out of range is reported."
  },
  {
   "property": "C109",
   "status": "partial",
   "theorems": [
    "Verif.Reg.C109_policy_ignored_fails",
    "Verif.Reg.C109_write_only_field_compared_fails"
   ],
   "note": "Refuted: the policy of a field plays no part in the comparison, for every register (_fails)."
  },
  {
   "property": "C110",
   "status": "partial",
   "theorems": [
    "Verif.RegMap.C110_single_word_memory_fails"
   ],
   "note": "Refuted: ZeroDivisionError."
  },
  {
   "property": "C111",
   "status": "partial",
   "theorems": [
    "Verif.RegAccess.C111_write_only_map_fails"
   ],
   "note": "Refuted."
  },
  {
   "property": "C112",
   "status": "partial",
   "theorems": [
    "Verif.SeqStart.C112_exception_prefix_partial",
    "Verif.SeqStart.C112_exception_keeps_objection_fails"
   ],
   "note": "The calls are a prefix (_partial), but the objection stays raised and the sequence stays registered and not restartable (_fails)."
  },
  {
   "property": "C113",
   "status": "partial",
   "theorems": [
    "Verif.SeqStart.C113_wait_for_state_fails",
    "Verif.SeqStart.C113_wait_when_finished_partial"
   ],
   "note": "wait_for_sequence_state raises in every state but FINISHED."
  },
  {
   "property": "C114",
   "status": "partial",
   "theorems": [
    "Verif.PhaseRun.C114_objection_partial",
    "Verif.PhaseRun.C114_objection_fails"
   ],
   "note": "A task phase without siblings ends only while nobody objects; for phases with a sibling this fails."
  },
  {
   "property": "C115",
   "status": "partial",
   "theorems": [
    "Verif.Domain.C115_standard_partial",
    "Verif.PhaseRun.C115_progress_partial",
    "Verif.PhaseRun.C115_end_partial",
    "Verif.PhaseRun.C115_parallel_fails",
    "Verif.PhaseRun.C115_late_objection_fails",
    "Verif.PhaseRun.C115_last_phase_fails"
   ],
   "note": "No deadlock is proved for schedules with at most two parallel task phases per join (the common UVM schedule is shown to be one) and objections that are not raised again late; it fails for three parallel task phases, for late objections and for a last phase not named final."
  },
  {
   "property": "C116",
   "status": "partial",
   "theorems": [
    "Verif.RegAccess.C116_update_partial",
    "Verif.RegAccess.C116_failed_write_fails",
    "Verif.RegAccess.C116_write_ignores_answer_fails",
    "Verif.RegAccess.C116_read_ignores_answer_fails",
    "Verif.RegAccess.C116_failed_read_fails",
    "Verif.RegAccess.C116_mirror_failed_read_fails",
    "Verif.RegAccess.C116_failed_update_fails"
   ],
   "note": "Update after single-field sets without write-clears/write-sets fields proved; what a write makes of the register is the same whatever the device answers, and a read depends on the data alone, so refused accesses change the mirror, lose the desired value and are checked (_fails)."
  },
  {
   "property": "C117",
   "status": "partial",
   "theorems": [
    "Verif.RegAccess.C117_update_status_fails",
    "Verif.RegAccess.C117_check_on_read_fails",
    "Verif.RegAccess.C117_backdoor_fails",
    "Verif.RegAccess.C117_backdoor_mirror_fails"
   ],
   "note": "Refuted: update status missing when nothing is written, check_on_read compares with the desired value, user back doors are never awaited."
  },
  {
   "property": "C118",
   "status": "partial",
   "theorems": [
    "Verif.RegBlock.C118_refused_fails",
    "Verif.RegBlock.C118_refused_keeps_parent_fails",
    "Verif.RegBlock.C118_twice_fails",
    "Verif.RegBlock.C118_update_fails",
    "Verif.RegBlock.C118_update_partial",
    "Verif.RegBlock.C118_update_stops"
   ],
   "note": "Fails: update of a block with a sub-block raises, a refused block or register still names the parent, blocks configured twice are enumerated twice. Update proved for blocks without sub-blocks."
  },
  {
   "property": "C119",
   "status": "partial",
   "theorems": [
    "Verif.Factory.C119_by_name_agrees_partial",
    "Verif.Factory.C119_by_name_misses_instance_override_fails",
    "Verif.Factory.C119_self_override_by_name_fails"
   ],
   "note": "Agreement proved without instance overrides on the way; refuted in general."
  },
  {
   "property": "C120",
   "status": "partial",
   "theorems": [
    "Verif.Sequencer.C120_done_noticed_partial",
    "Verif.Sequencer.C120_next_request_partial",
    "Verif.Sequencer.C120_done_lost_fails",
    "Verif.Sequencer.C120_done_not_signalled_fails"
   ],
   "note": "Proved when nobody else waits; the notification can be missed (_fails)."
  },
  {
   "property": "C121",
   "status": "partial",
   "theorems": [
    "Verif.Sequencer.C121_peek_try_fails",
    "Verif.Sequencer.C121_irrelevant_fails",
    "Verif.Sequencer.C121_waits_partial"
   ],
   "note": "Refuted: try_next_item after an unfinished peek is fatal; irrelevant sequences raise."
  },
  {
   "property": "C122",
   "status": "partial",
   "theorems": [
    "Verif.Event.C122_trigger_callback_fails",
    "Verif.Event.C122_wait_trigger_partial",
    "Verif.Event.C122_wait_trigger_fails",
    "Verif.Event.C122_trigger_resumes",
    "Verif.Event.C122_wait_ptrigger_partial",
    "Verif.Event.C122_wait_ptrigger_fails",
    "Verif.Event.C122_reset_strands"
   ],
   "note": "Proved when no trigger is pending. Code violations: a pending trigger ends wait_trigger at once, wait_ptrigger within one time slice, trigger with a registered callback."
  },
  {
   "property": "C123",
   "status": "partial",
   "theorems": [
    "Verif.SeqItem.C123_depth_partial",
    "Verif.SeqItem.C123_depth_fails",
    "Verif.SeqItem.C123_detach_fails"
   ],
   "note": "Proved for all histories that set contexts from the outside in; a depth cached before a sequence got its parent stays stale (_fails). set_depth by the user is not modelled."
  },
  {
   "property": "C124",
   "status": "partial",
   "theorems": [
    "Verif.Component.C124_relative_partial",
    "Verif.Component.C124_absolute_partial",
    "Verif.Component.C124_unique_partial",
    "Verif.Component.C124_dot_fails",
    "Verif.Component.C124_empty_part_fails"
   ],
   "note": "Proved for names without dots. C124_dot_fails: dotted names are accepted and break look-up and uniqueness; C124_empty_part_fails: 'a..b' is looked up from the root."
  },
  {
   "property": "C125",
   "status": "partial",
   "theorems": [
    "Verif.RegMap.C125_no_endian_fails",
    "Verif.RegMap.C125_nested_addresses_partial",
    "Verif.RegMap.C125_nested_addresses_fails"
   ],
   "note": "Proved unless a map two or more levels below the root splits an access."
  },
  {
   "property": "C126",
   "status": "partial",
   "theorems": [
    "Verif.Callback.C126_merge_fails",
    "Verif.Callback.C126_merge_partial",
    "Verif.Callback.C126_delete_fails",
    "Verif.Callback.C126_typewide_lost_fails",
    "Verif.Callback.C126_delete_never_fails",
    "Verif.Callback.C126_no_class_ignores_mode_fails",
    "Verif.Callback.C126_no_object_fails",
    "Verif.Callback.C126_no_class_fails",
    "Verif.Callback.C126_typewide_after_instance_fails"
   ],
   "note": "An object's own callbacks run once it has one, the type-wide ones otherwise (_partial); the documented merge fails. delete is not implemented; type-wide callbacks never run without an object, a class-less iteration returns disabled callbacks, and a type-wide addition can raise."
  },
  {
   "property": "C127",
   "status": "partial",
   "theorems": [
    "Verif.Cmdline.C127_uvm_args_partial",
    "Verif.Cmdline.C127_uvm_args_fails",
    "Verif.Cmdline.C127_plusargs_fails"
   ],
   "note": "get_plusargs returns only plus signs; get_uvm_args does not check the first character."
  },
  {
   "property": "C128",
   "status": "proved",
   "theorems": [
    "Verif.RegTests.C128_bit_bash_accepts_correct_device",
    "Verif.RegTests.C128_wide_raises"
   ],
   "note": "Hooks and callbacks change nothing; maps are read/write with automatic prediction."
  },
  {
   "property": "C129",
   "status": "proved",
   "theorems": [
    "Verif.RegTests.C129_bit_bash_finds_stuck_bits"
   ],
   "note": "Same assumptions on maps and hooks as C128; the device is arbitrary."
  },
  {
   "property": "C130",
   "status": "proved",
   "theorems": [
    "Verif.RegTests.C130_reset_check"
   ],
   "note": "The reset kind is HARD, the default."
  },
  {
   "property": "C131",
   "status": "proved",
   "theorems": [
    "Verif.RegTests.C131_bit_bash_covers",
    "Verif.RegTests.C131_excluded"
   ],
   "note": "Exclusions are flags (the resource lookup is C23\u2013C26)."
  },
  {
   "property": "C132",
   "status": "partial",
   "theorems": [
    "Verif.RegTests.C132_once_fails",
    "Verif.RegTests.C132_once_partial"
   ],
   "note": "Fails: a register d+1 levels down is tested 2^d times. Holds when sub-blocks have no sub-blocks."
  },
  {
   "property": "C133",
   "status": "partial",
   "theorems": [
    "Verif.RegTests.C133_reset_covers_fails",
    "Verif.RegTests.C133_no_map_fails",
    "Verif.RegTests.C133_reset_covers_partial"
   ],
   "note": "Fails: a model whose first map has a sub-map, or without a map of its own, is not checked at all. Holds when every block has a map and no map has sub-maps."
  },
  {
   "property": "C134",
   "status": "proved",
   "theorems": [
    "Verif.RegPredictor.C134_never_raises",
    "Verif.RegPredictor.C134_transfer_is_predicted"
   ],
   "note": "Stated without byte enables (be = -1, what adapters that do not set them report) and for registers whose addresses differ; FIFO maps and byte enables are C137."
  },
  {
   "property": "C135",
   "status": "proved",
   "theorems": [
    "Verif.RegPredictor.C135_transfers_are_predicted",
    "Verif.RegPredictor.C135_front_door_write_is_seen"
   ],
   "note": "The operations of a front-door write are those of the bus model of C17, seen without byte enables."
  },
  {
   "property": "C136",
   "status": "proved",
   "theorems": [
    "Verif.RegPredictor.C136_incomplete_transfers_reported"
   ],
   "note": "Histories without repeated addresses within a transfer; repeated ones are C137."
  },
  {
   "property": "C137",
   "status": "partial",
   "theorems": [
    "Verif.RegPredictor.C137_kinds_are_mixed_fails",
    "Verif.RegPredictor.C137_fifo_map_fails",
    "Verif.RegPredictor.C137_byte_enables_fails",
    "Verif.RegPredictor.C137_collision_fails",
    "Verif.RegPredictor.C137_collision_partial"
   ],
   "note": "All four parts fail: a read and a write of two halves are merged; a register of more than one word in a FIFO map is never predicted (general); byte enables of the last beat are taken for the whole register and raise; the transaction that reveals a collision is dropped. What holds: a collision is reported and the next whole transfer starts afresh."
  },
  {
   "property": "C138",
   "status": "proved",
   "theorems": [
    "Verif.Mem.C138_memory_is_an_array"
   ],
   "note": "For a memory mapped in a root map (little or big endian) with the bus model of C17 on a device with one cell per address. The width is in whole bytes; C143 is about bits."
  },
  {
   "property": "C139",
   "status": "partial",
   "theorems": [
    "Verif.Mem.C139_front_door_out_of_range_fails",
    "Verif.Mem.C139_default_path_out_of_range_fails",
    "Verif.Mem.C139_burst_over_the_end_fails",
    "Verif.Mem.C139_errors_reported_partial"
   ],
   "note": "Fails: the result 0 of the check is compared with `is False`, so no access is refused: through the front door an offset outside raises IndexError, on the default path without back door it reports OK and does nothing, and a burst over the end writes behind the memory. What holds: the error is reported exactly for such accesses."
  },
  {
   "property": "C140",
   "status": "partial",
   "theorems": [
    "Verif.Mem.C140_burst_read_fails"
   ],
   "note": "Fails for every memory: the list of values must be empty and gives the number of words to read, so nothing is read."
  },
  {
   "property": "C141",
   "status": "proved",
   "theorems": [
    "Verif.Mem.C141_write_veto",
    "Verif.Mem.C141_read_method_veto",
    "Verif.Mem.C141_hooks_change_the_access"
   ],
   "note": ""
  },
  {
   "property": "C142",
   "status": "partial",
   "theorems": [
    "Verif.Mem.C142_words_written_are_sampled_partial",
    "Verif.Mem.C142_next_word_is_sampled_fails"
   ],
   "note": "Fails: one word too many is sampled by every successful access. Proved: every word written is sampled; failures sample nothing."
  },
  {
   "property": "C143",
   "status": "partial",
   "theorems": [
    "Verif.Mem.C143_values_cut_to_width_fails",
    "Verif.Mem.C143_values_cut_to_bus_words_partial"
   ],
   "note": "Fails on a witness (12 bits on a 16-bit bus). Proved: values are cut to whole bus words."
  },
  {
   "property": "C144",
   "status": "partial",
   "theorems": [
    "Verif.Mem.C144_read_callbacks_fails",
    "Verif.Mem.C144_read_veto_fails"
   ],
   "note": "Fails for all callbacks: they are called without await."
  },
  {
   "property": "C145",
   "status": "proved",
   "theorems": [
    "Verif.Hdl.C145_block_paths",
    "Verif.Hdl.C145_undefined_reported",
    "Verif.Hdl.C145_number_of_paths",
    "Verif.Hdl.C145_register_paths"
   ],
   "note": "Paths are lists of components; the separator is the dot."
  },
  {
   "property": "C146",
   "status": "proved",
   "theorems": [
    "Verif.Hdl.C146_signal_access",
    "Verif.Hdl.C146_read_compares",
    "Verif.Hdl.C146_write_all_places"
   ],
   "note": "Paths without indices on any simulator, with at most one index per component on Verilator. Deposits take effect at once."
  },
  {
   "property": "C147",
   "status": "proved",
   "theorems": [
    "Verif.Hdl.C147_write",
    "Verif.Hdl.C147_write_disagreeing"
   ],
   "note": "Registers that are one signal, possibly in several places, without user back door; bits of the device outside all fields are cleared (the last clause of C147_write). Hooks are covered by C80."
  },
  {
   "property": "C148",
   "status": "proved",
   "theorems": [
    "Verif.Hdl.C148_read",
    "Verif.Hdl.C148_read_disagreeing"
   ],
   "note": "As C147; check_on_read of the back-door map off."
  },
  {
   "property": "C149",
   "status": "partial",
   "theorems": [
    "Verif.Hdl.C149_cleared_field_fails",
    "Verif.Hdl.C149_mirror_partial"
   ],
   "note": "Fails: the device's read-to-clear field is cleared but the mirror keeps the value read (likewise set-on-read and write-only fields). Holds for registers without such fields."
  },
  {
   "property": "C150",
   "status": "partial",
   "theorems": [
    "Verif.Hdl.C150_missing_component_fails"
   ],
   "note": "Fails for every design and path: a missing component is treated as if it were not there."
  },
  {
   "property": "C151",
   "status": "partial",
   "theorems": [
    "Verif.Hdl.C151_word_index_dropped_fails"
   ],
   "note": "Fails for every such path: only the first index of a component is used."
  },
  {
   "property": "C152",
   "status": "partial",
   "theorems": [
    "Verif.Hdl.C152_sliced_fails",
    "Verif.Hdl.C152_deposit_slices_partial"
   ],
   "note": "Fails: every back-door read (and write, which reads first) of a sliced register or memory raises AttributeError. What holds: deposits give each signal its bits."
  },
  {
   "property": "C153",
   "status": "proved",
   "theorems": [
    "Verif.Hdl.C153_memory_is_array"
   ],
   "note": "On Verilator (on other simulators indices are not split off)."
  },
  {
   "property": "C154",
   "status": "partial",
   "theorems": [
    "Verif.Hdl.C154_no_path_fails"
   ],
   "note": "Fails: with an empty root path there are no paths, nothing is reported, the status is OK and the mirror is predicted."
  },
  {
   "property": "C155",
   "status": "proved",
   "theorems": [
    "Verif.ReqRsp.C155_order",
    "Verif.ReqRsp.C155_analysis_ports",
    "Verif.ReqRsp.C155_capacity",
    "Verif.ReqRsp.C155_no_lost_wakeup",
    "Verif.ReqRsp.C155_roles",
    "Verif.ReqRsp.C155_try",
    "Verif.ReqRsp.C155_blocking_master",
    "Verif.ReqRsp.C155_blocking_slave",
    "Verif.ReqRsp.C155_served"
   ],
   "note": "Order, analysis ports, capacity, roles of all end points, blocking behaviour and no lost wake-ups, for all histories; built on C42."
  },
  {
   "property": "C156",
   "status": "partial",
   "theorems": [
    "Verif.ReqRsp.C156_value_fails",
    "Verif.ReqRsp.C156_run_fails",
    "Verif.ReqRsp.C156_list_partial"
   ],
   "note": "Violated: the wrapper all ports share drops the value (C156_value_fails, C156_run_fails). Holds: the list argument receives it (C156_list_partial)."
  },
  {
   "property": "C157",
   "status": "proved",
   "theorems": [
    "Verif.MapSel.C157_local_map",
    "Verif.MapSel.C157_is_in_map",
    "Verif.MapSel.C157_default_map"
   ],
   "note": "Any tree of maps; maps compared by identity (Named)."
  },
  {
   "property": "C158",
   "status": "proved",
   "theorems": [
    "Verif.MapSel.C158_no_warning"
   ],
   "note": "Since the loop over the maps ends at once (C314), no warning can come from it."
  },
  {
   "property": "C159",
   "status": "partial",
   "theorems": [
    "Verif.MapSel.C159_restricted_access_fails",
    "Verif.MapSel.C159_access_partial",
    "Verif.MapSel.C159_rights_reg"
   ],
   "note": "Violated: get_access ends without return when rights are restricted (C159_restricted_access_fails). Holds elsewhere (C159_access_partial, C159_rights_reg)."
  },
  {
   "property": "C160",
   "status": "proved",
   "theorems": [
    "Verif.MemTests.C160_walk",
    "Verif.MemTests.C160_sound",
    "Verif.MemTests.C160_mapped",
    "Verif.MemTests.C160_good",
    "Verif.MemTests.C160_good_maps",
    "Verif.MemTests.C160_maps",
    "Verif.MemTests.C160_store_faults"
   ],
   "note": "C160_sound: any memory that keeps what is written; C160_mapped instantiates it with the memory model of C138."
  },
  {
   "property": "C161",
   "status": "partial",
   "theorems": [
    "Verif.MemTests.C161_stuck_at_one_fails"
   ],
   "note": "Violated: only the polarity of ~k is checked for word k (C161_stuck_at_one_fails); exactly which faults are found is C160_store_faults."
  },
  {
   "property": "C162",
   "status": "partial",
   "theorems": [
    "Verif.MemTests.C162_neighbours_partial",
    "Verif.MemTests.C162_distant_alias_fails"
   ],
   "note": "Violated for words that are not neighbours (C162_distant_alias_fails); neighbours are always found (C162_neighbours_partial)."
  },
  {
   "property": "C163",
   "status": "proved",
   "theorems": [
    "Verif.MemTests.C163_doors",
    "Verif.MemTests.C163_write_only"
   ],
   "note": "For all front and back doors and all random draws, words of 1 to 32 bits."
  },
  {
   "property": "C164",
   "status": "partial",
   "theorems": [
    "Verif.MemTests.C164_wide_words_fails",
    "Verif.MemTests.C164_good_reported_fails"
   ],
   "note": "Violated: the value written is not masked after the second draw (C164_wide_words_fails gives exactly when, C164_good_reported_fails a run)."
  },
  {
   "property": "C165",
   "status": "partial",
   "theorems": [
    "Verif.MemTests.C165_read_only_fails"
   ],
   "note": "Violated: peek is given a number as output argument, TypeError (C165_read_only_fails)."
  },
  {
   "property": "C166",
   "status": "partial",
   "theorems": [
    "Verif.MemTests.C166_excluded_partial",
    "Verif.MemTests.C166_block_excluded_fails",
    "Verif.MemTests.C166_access_block_partial",
    "Verif.MemTests.C166_walk_block_partial",
    "Verif.MemTests.C166_exact_partial"
   ],
   "note": "Violated for blocks in the walk test: uvm_mem_walk_seq.py 261 asks for NO_MEM_ACCESS_TEST (C166_block_excluded_fails). C166_exact_partial gives exactly which memories are tested, for models of any depth; it is the property for memories and for the access test. A block below an excluded block is tested, as get_blocks() is hierarchical."
  },
  {
   "property": "C167",
   "status": "proved",
   "theorems": [
    "Verif.Recording.C167_file",
    "Verif.Recording.C167_file_current",
    "Verif.Recording.C167_time_order"
   ],
   "note": "All histories of calls; the file as a list of lines, read by a small automaton. Closing twice is allowed by it (C168)."
  },
  {
   "property": "C168",
   "status": "partial",
   "theorems": [
    "Verif.Recording.C168_careful_partial",
    "Verif.Recording.C168_close_again_fails",
    "Verif.Recording.C168_file_fails",
    "Verif.Recording.C168_close_freed_fails"
   ],
   "note": "Fails: closing a closed recorder writes a second line and changes the time; closing a freed one raises. Proved for users who close only open recorders."
  },
  {
   "property": "C169",
   "status": "proved",
   "theorems": [
    "Verif.Recording.C169_handle",
    "Verif.Recording.C169_distinct",
    "Verif.Recording.C169_lookup"
   ],
   "note": ""
  },
  {
   "property": "C170",
   "status": "partial",
   "theorems": [
    "Verif.Recording.C170_freed_partial",
    "Verif.Recording.C170_freed_handle_fails"
   ],
   "note": "Fails: asking a freed recorder for its handle gives a non-zero handle and makes it be found again. Proved until it is asked for."
  },
  {
   "property": "C171",
   "status": "partial",
   "theorems": [
    "Verif.Recording.C171_reopen_fails",
    "Verif.Recording.C171_recorders_fails",
    "Verif.Recording.C171_open_close_partial"
   ],
   "note": "Fails: a closed database cannot be opened again and closing it leaves its recorders as they are."
  },
  {
   "property": "C172",
   "status": "partial",
   "theorems": [
    "Verif.Recording.C172_main_fails",
    "Verif.Recording.C172_named_partial",
    "Verif.Recording.C172_end_partial",
    "Verif.Recording.C172_new_stream_partial"
   ],
   "note": "Fails on the main stream after its first transaction (nothing recorded, handle 0). Proved for named streams."
  },
  {
   "property": "C173",
   "status": "partial",
   "theorems": [
    "Verif.Recording.C173_link_fails",
    "Verif.Recording.C173_child_fails",
    "Verif.Recording.C173_related_fails"
   ],
   "note": "Fails: no link is ever recorded; a transaction that records itself makes the component raise."
  },
  {
   "property": "C174",
   "status": "proved",
   "theorems": [
    "Verif.Recording.C174_times",
    "Verif.Recording.C174_begin",
    "Verif.Recording.C174_end",
    "Verif.Recording.C174_rebegin"
   ],
   "note": ""
  },
  {
   "property": "C175",
   "status": "partial",
   "theorems": [
    "Verif.Recording.C175_never_begun_fails",
    "Verif.Recording.C175_active_partial"
   ],
   "note": "Fails: a transaction that was never begun is active. Proved from begin on."
  },
  {
   "property": "C176",
   "status": "partial",
   "theorems": [
    "Verif.ObjPack.C176_pack_layout",
    "Verif.ObjPack.C176_unpack_exact_partial",
    "Verif.ObjPack.C176_unpack_zeros_partial",
    "Verif.ObjPack.C176_roundtrip_iff_partial",
    "Verif.ObjPack.C176_even_value_fails"
   ],
   "note": "The layout is proved in full. The round trip is characterised exactly: it succeeds iff the last value that is not zero is odd (big endian, default) or at least 2^31 (little endian), because put_bits takes the position of the highest set bit for the size. C176_even_value_fails: every even value in a single-field object is lost."
  },
  {
   "property": "C177",
   "status": "proved",
   "theorems": [
    "Verif.ObjPack.C177_pack_ends",
    "Verif.ObjPack.C177_unpack_ends"
   ],
   "note": "Proved for every finite graph: a depth above the number of objects is never reached. (An object on a cycle through the object pack() is called on is packed twice, since that object is not entered in cycle_check; shown by an example.)"
  },
  {
   "property": "C178",
   "status": "partial",
   "theorems": [
    "Verif.ObjPack.C178_pack_ints_partial",
    "Verif.ObjPack.C178_unpack_ints_fails"
   ],
   "note": "Packing is proved; unpack_bytes and unpack_ints always raise since the packer has no put_bytes and put_ints."
  },
  {
   "property": "C179",
   "status": "partial",
   "theorems": [
    "Verif.ObjPack.C179_warning_never_given_fails",
    "Verif.ObjPack.C179_missing_bits_reported_partial"
   ],
   "note": "Missing bits are always reported by an error; the warning BDUNPK compares two values that are always equal and is never given."
  },
  {
   "property": "C180",
   "status": "proved",
   "theorems": [
    "Verif.Printer.C180_rows",
    "Verif.Printer.C180_rows_depth"
   ],
   "note": "Proved for every finite graph with names that are not empty, have no dot and do not begin with a bracket (see C185), and fields that are integers, strings, objects or None."
  },
  {
   "property": "C181",
   "status": "proved",
   "theorems": [
    "Verif.Printer.C181_print_again"
   ],
   "note": "Proved, with a depth above the number of objects."
  },
  {
   "property": "C182",
   "status": "partial",
   "theorems": [
    "Verif.Printer.C182_heading_partial",
    "Verif.Printer.C182_row_partial",
    "Verif.Printer.C182_indented_row_fails",
    "Verif.Printer.C182_wide_fails",
    "Verif.Printer.C182_dashes_partial",
    "Verif.Printer.C182_wide_dashes_fails",
    "Verif.Printer.C182_table_lines"
   ],
   "note": "Every line of an indented row has its columns one place to the left of the heading (space[1:k] has k-1 characters): C182_indented_row_fails holds for every table. In tables with a column of 100 characters or more, one-character cells are misplaced too and the dashes are short. Exact positions are proved for all rows whose cells are in columns of at most 98 characters or have two characters."
  },
  {
   "property": "C183",
   "status": "proved",
   "theorems": [
    "Verif.Printer.C183_tree_balanced",
    "Verif.Printer.C183_tree_text",
    "Verif.Printer.C183_row_text",
    "Verif.Printer.C183_block_per_object"
   ],
   "note": "Proved for the rows of every object graph."
  },
  {
   "property": "C184",
   "status": "partial",
   "theorems": [
    "Verif.Printer.C184_hex_bin_partial",
    "Verif.Printer.C184_dec_partial",
    "Verif.Printer.C184_default_field_partial",
    "Verif.Printer.C184_prefix_partial",
    "Verif.Printer.C184_octal_fails",
    "Verif.Printer.C184_dec_fails",
    "Verif.Printer.C184_field_radix_fails"
   ],
   "note": "Hexadecimal and binary: proved. Octal prints decimal digits. Decimal values with the sign bit or above are neither reduced nor prefixed. The radix given to a field is not used (what__ & UVM_RADIX instead of the mask)."
  },
  {
   "property": "C185",
   "status": "partial",
   "theorems": [
    "Verif.Printer.C185_scope_partial",
    "Verif.Printer.C185_element_fails"
   ],
   "note": "print_object sets name to the empty string before choosing the closing separator, so a name in brackets closes the enclosing scope too."
  },
  {
   "property": "C186",
   "status": "proved",
   "theorems": [
    "Verif.Semaphore.C186_at_most_n",
    "Verif.Semaphore.C186_first_come_first"
   ],
   "note": ""
  },
  {
   "property": "C187",
   "status": "partial",
   "theorems": [
    "Verif.Semaphore.C187_prompt_partial",
    "Verif.Semaphore.C187_no_lost_token_partial",
    "Verif.Semaphore.C187_lost_token_fails"
   ],
   "note": "Proved for one token, and for any number of tokens when a woken task continues before the next put (C187_prompt_partial). With two or more it fails: put() releases the lock only when `locked` is set, which the woken task sets when it continues; a put in that window does not wake the next."
  },
  {
   "property": "C188",
   "status": "partial",
   "theorems": [
    "Verif.Semaphore.C188_several_tokens_fails",
    "Verif.Semaphore.C188_try_get_fails",
    "Verif.Semaphore.C188_get_after_try_get_fails",
    "Verif.Semaphore.C188_counts_partial",
    "Verif.Semaphore.C188_refusals_partial"
   ],
   "note": "Fails: get(k) with count <= k takes the lock without looking at the count; try_get() looks at the count, not at the lock. What single calls do is proved."
  },
  {
   "property": "C189",
   "status": "proved",
   "theorems": [
    "Verif.RandStab.C189_own_stream",
    "Verif.RandStab.C189_same_seed"
   ],
   "note": ""
  },
  {
   "property": "C190",
   "status": "partial",
   "theorems": [
    "Verif.RandStab.C190_sub_object_fails",
    "Verif.RandStab.C190_with_fails",
    "Verif.RandStab.C190_stable_fails",
    "Verif.RandStab.C190_saved_partial",
    "Verif.RandStab.C190_by_object_fails"
   ],
   "note": "Fails: after the sub-objects the object draws from the state the last of them left; randomize_with() neither restores nor keeps the state; rand(obj) makes hasattr(self, obj) raise."
  },
  {
   "property": "C191",
   "status": "partial",
   "theorems": [
    "Verif.RandStab.C191_seed_from_other_fails",
    "Verif.RandStab.C191_chain_partial",
    "Verif.RandStab.C191_next_seed_partial"
   ],
   "note": "Fails: creation draws from the global state, which randomize() leaves equal to the saved state of the object randomized last. The chain of seeds without other draws is proved."
  },
  {
   "property": "C192",
   "status": "partial",
   "theorems": [
    "Verif.ConfigAuto.C192_last_applied_partial",
    "Verif.ConfigAuto.C192_single_partial",
    "Verif.ConfigAuto.C192_oldest_wins_fails",
    "Verif.ConfigAuto.C192_config_db_fails",
    "Verif.ConfigAuto.C192_lookup_partial"
   ],
   "note": "Fails: the sorted list is walked from the highest precedence to the lowest, each setting replacing the one before, so the lowest precedence and the oldest setting stay. The exact result for ordinary names is proved."
  },
  {
   "property": "C193",
   "status": "proved",
   "theorems": [
    "Verif.ConfigAuto.C193_only_registered"
   ],
   "note": ""
  },
  {
   "property": "C194",
   "status": "partial",
   "theorems": [
    "Verif.ConfigAuto.C194_others_partial",
    "Verif.ConfigAuto.C194_contained_fails",
    "Verif.ConfigAuto.C194_count_fails"
   ],
   "note": "Fails: names are compared with uvm_is_match, which searches: `count` is applied to `max_count`. Fields that do not contain the name are left alone (proved)."
  },
  {
   "property": "C195",
   "status": "partial",
   "theorems": [
    "Verif.ConfigAuto.C195_type_fails",
    "Verif.ConfigAuto.C195_unsupported_partial"
   ],
   "note": "Fails: the type of the field is not looked at. Values of unsupported types are ignored (proved)."
  },
  {
   "property": "C196",
   "status": "partial",
   "theorems": [
    "Verif.ConfigAuto.C196_path_partial",
    "Verif.ConfigAuto.C196_index_kept_fails",
    "Verif.ConfigAuto.C196_integer_field_fails",
    "Verif.ConfigAuto.C196_element_fails"
   ],
   "note": "Fails: the index of the search for [ or . is not set back between settings; elements are never assigned; a path setting raises if another field holds an integer. A path setting alone is handed on (proved)."
  },
  {
   "property": "C197",
   "status": "partial",
   "theorems": [
    "Verif.RegIndirect.C197_first_partial",
    "Verif.RegIndirect.C197_shared_values_fails",
    "Verif.RegIndirect.C197_second_blank_fails",
    "Verif.RegIndirect.C197_again_partial"
   ],
   "note": "Fails: do_copy takes the list of values over by reference, and calls copy() again, which sets depth to 0, so that the table of copied objects is not emptied: the next clone of the same item is blank."
  },
  {
   "property": "C198",
   "status": "partial",
   "theorems": [
    "Verif.RegIndirect.C198_value_lost_fails",
    "Verif.RegIndirect.C198_index_first_partial",
    "Verif.RegIndirect.C198_read_partial"
   ],
   "note": "Fails for writes: the clone for the index shares the list of values, so the index replaces the value, and the second clone is blank (a read). Index first and reads are proved."
  },
  {
   "property": "C199",
   "status": "partial",
   "theorems": [
    "Verif.RegIndirect.C199_released_partial",
    "Verif.RegIndirect.C199_refused_fails",
    "Verif.RegIndirect.C199_owner_partial",
    "Verif.RegIndirect.C199_predict_partial"
   ],
   "note": "Fails: `return` on a refused index without releasing the two registers and without a status. Successful accesses are proved."
  },
  {
   "property": "C200",
   "status": "proved",
   "theorems": [
    "Verif.SvText.C200_fields",
    "Verif.SvText.C200_tail",
    "Verif.SvText.C200_short",
    "Verif.SvText.C200_numbers"
   ],
   "note": "ASCII letters and digits; %f is outside the model."
  },
  {
   "property": "C201",
   "status": "partial",
   "theorems": [
    "Verif.SvText.C201_sign_fails",
    "Verif.SvText.C201_blank_fails",
    "Verif.SvText.C201_partial"
   ],
   "note": "Fails: the sign is dropped, a hexadecimal field behind two separators is lost, a lone underscore raises. Proved: numbers that are not negative."
  },
  {
   "property": "C202",
   "status": "proved",
   "theorems": [
    "Verif.SvText.C202_sformatf"
   ],
   "note": "str.format is modelled for the two forms the replacements produce; messages with braces are the subject of C204."
  },
  {
   "property": "C203",
   "status": "partial",
   "theorems": [
    "Verif.SvText.C203_radix_fails",
    "Verif.SvText.C203_partial"
   ],
   "note": "Fails: %x, %b and %0b show decimal. Proved: %h, %0h, %d, %0d."
  },
  {
   "property": "C204",
   "status": "partial",
   "theorems": [
    "Verif.SvText.C204_brace_fails",
    "Verif.SvText.C204_pair_fails",
    "Verif.SvText.C204_partial"
   ],
   "note": "Fails: a single brace raises, a pair takes an argument. Proved: text without braces."
  },
  {
   "property": "C205",
   "status": "proved",
   "theorems": [
    "Verif.RootSettings.C205_settings",
    "Verif.RootSettings.C205_numbers"
   ],
   "note": "Python's int() is modelled with signs, blanks, underscores and prefixes; the limit on the number of decimal digits is not. What the database does with the calls is C24, C25."
  },
  {
   "property": "C206",
   "status": "partial",
   "theorems": [
    "Verif.RootSettings.C206_partial",
    "Verif.RootSettings.C206_value_fails",
    "Verif.RootSettings.C206_name_fails"
   ],
   "note": "Fails: a value that is not a number raises and the settings after it are lost; names that only begin like a setting are taken. Proved: a wrong number of fields."
  },
  {
   "property": "C207",
   "status": "partial",
   "theorems": [
    "Verif.RootSettings.C207_partial",
    "Verif.RootSettings.C207_kept_partial",
    "Verif.RootSettings.C207_call_partial",
    "Verif.RootSettings.C207_no_fails",
    "Verif.RootSettings.C207_word_fails"
   ],
   "note": "Fails: NO stores 0, which is not False; other words are ignored silently; non-numbers raise. Proved: n and n,YES, none, and counts protected with False."
  },
  {
   "property": "C208",
   "status": "proved",
   "theorems": [
    "Verif.RootSettings.C208_set_timeout"
   ],
   "note": "The value recorded; nothing in the code reads it."
  },
  {
   "property": "C209",
   "status": "partial",
   "theorems": [
    "Verif.RootSettings.C209_number_fails",
    "Verif.RootSettings.C209_word_fails",
    "Verif.RootSettings.C209_partial"
   ],
   "note": "Fails for every number: the values of sscanf are swapped. Proved: no argument, and protected timeouts."
  },
  {
   "property": "C210",
   "status": "proved",
   "theorems": [
    "Verif.RootSettings.C210_decided",
    "Verif.RootSettings.C210_inherits",
    "Verif.RootSettings.C210_components",
    "Verif.RootSettings.C210_all_created"
   ],
   "note": "A verbosity that is neither a name nor a number is in C214. Settings made by +uvm_set_verbosity at creation are C71."
  },
  {
   "property": "C211",
   "status": "proved",
   "theorems": [
    "Verif.RootSettings.C211_hier",
    "Verif.RootSettings.C211_verbosity"
   ],
   "note": "All twelve functions are the same recursion over the setter."
  },
  {
   "property": "C212",
   "status": "partial",
   "theorems": [
    "Verif.RootSettings.C212_fails",
    "Verif.RootSettings.C212_order_fails",
    "Verif.RootSettings.C212_partial"
   ],
   "note": "Fails: each setting waits for the difference to the one before, counted from the start. Proved: the earliest one; each is made once; exactly when others are on time."
  },
  {
   "property": "C213",
   "status": "partial",
   "theorems": [
    "Verif.RootSettings.C213_fails",
    "Verif.RootSettings.C213_pending_fails",
    "Verif.RootSettings.C213_partial"
   ],
   "note": "Fails: any phase start raises for a component with such a setting. Proved: components without one."
  },
  {
   "property": "C214",
   "status": "partial",
   "theorems": [
    "Verif.RootSettings.C214_second_fails",
    "Verif.RootSettings.C214_raise_fails",
    "Verif.RootSettings.C214_partial"
   ],
   "note": "Fails: the fields of all settings so far are counted; fewer than three fields or an unknown +UVM_VERBOSITY raise. Proved: a single setting."
  },
  {
   "property": "C215",
   "status": "partial",
   "theorems": [
    "Verif.RootSettings.C215_type_fails",
    "Verif.RootSettings.C215_partial"
   ],
   "note": "Fails: type overrides do nothing. Proved: instance overrides."
  },
  {
   "property": "C216",
   "status": "proved",
   "theorems": [
    "Verif.TlmTime.C216_resolution_invisible"
   ],
   "note": "Numbers are rationals: the rounding of floats is not modelled."
  },
  {
   "property": "C217",
   "status": "proved",
   "theorems": [
    "Verif.TlmTime.C217_laws",
    "Verif.TlmTime.C217_raises"
   ],
   "note": "Numbers are rationals: the rounding of floats is not modelled."
  },
  {
   "property": "C218",
   "status": "partial",
   "theorems": [
    "Verif.TlmTime.C218_never_negative_fails",
    "Verif.TlmTime.C218_never_negative_partial"
   ],
   "note": "set_abstime takes negative times without a report; times that are given lengths of time only are never negative."
  },
  {
   "property": "C219",
   "status": "partial",
   "theorems": [
    "Verif.RegAccessTest.C219_write_only_fails",
    "Verif.RegAccessTest.C219_accepts_correct_device_partial"
   ],
   "note": "Violated for compared write-only fields (the back-door read masks them to 0, the check does not mask). Proved for registers of readable fields kept in one signal, any number of maps."
  },
  {
   "property": "C220",
   "status": "proved",
   "theorems": [
    "Verif.RegAccessTest.C220_seen_both_ways",
    "Verif.RegAccessTest.C220_finds_disconnected"
   ],
   "note": "Proved for every device; the register is one signal of the design."
  },
  {
   "property": "C221",
   "status": "partial",
   "theorems": [
    "Verif.RegAccessTest.C221_other_maps_fails",
    "Verif.RegAccessTest.C221_left_alone",
    "Verif.RegAccessTest.C221_tested_partial"
   ],
   "note": "Violated: read-only or write-only in one map means not tested through any. Proved for registers with all rights in all maps."
  },
  {
   "property": "C222",
   "status": "proved",
   "theorems": [
    "Verif.RegAccessTest.C222_covers"
   ],
   "note": "Proved against the coverage of the bit bash test (C131), for all block trees."
  },
  {
   "property": "C223",
   "status": "proved",
   "theorems": [
    "Verif.SeqMacros.C223_framed",
    "Verif.SeqMacros.C223_order"
   ],
   "note": "Proved for all bodies; hooks do not change sequencers and priorities."
  },
  {
   "property": "C224",
   "status": "partial",
   "theorems": [
    "Verif.SeqMacros.C224_sequencer_fails",
    "Verif.SeqMacros.C224_sequencer_partial"
   ],
   "note": "Violated: the sequencer given is passed to the object made by the factory, which is dropped; the item goes to its own sequencer or the sequence's. Holds for items that belong to the sequencer already and for sequences."
  },
  {
   "property": "C225",
   "status": "partial",
   "theorems": [
    "Verif.SeqMacros.C225_factory_fails",
    "Verif.SeqMacros.C225_factory_partial"
   ],
   "note": "Violated: the object given is sent, the object made by the factory is dropped."
  },
  {
   "property": "C226",
   "status": "proved",
   "theorems": [
    "Verif.WaitMod.C226_returns_for_changes",
    "Verif.WaitMod.C226_writable",
    "Verif.WaitMod.C226_change_wakes"
   ],
   "note": "Proved for every history and schedule."
  },
  {
   "property": "C227",
   "status": "partial",
   "theorems": [
    "Verif.WaitMod.C227_all_released_fails",
    "Verif.WaitMod.C227_only_task_partial",
    "Verif.WaitMod.C227_single_partial"
   ],
   "note": "Violated: the first task that runs clears the flag, the others wait again. Holds for one task."
  },
  {
   "property": "C228",
   "status": "partial",
   "theorems": [
    "Verif.PhaseSeq.C228_default_sequence_fails"
   ],
   "note": "Violated: resources are cast to UVMConfigDb, which they never are, so no default sequence is ever started."
  },
  {
   "property": "C229",
   "status": "proved",
   "theorems": [
    "Verif.Coverage.C229_coverage"
   ],
   "note": "proved for every legal history that builds the tree and controls coverage, with no bound on depth"
  },
  {
   "property": "C230",
   "status": "partial",
   "theorems": [
    "Verif.Coverage.C230_returns_previous_fails",
    "Verif.Coverage.C230_returns_now_partial"
   ],
   "note": "refuted: the models on now are returned (proved)"
  },
  {
   "property": "C231",
   "status": "proved",
   "theorems": [
    "Verif.Coverage.C231_sample_values"
   ],
   "note": "proved for every legal history"
  },
  {
   "property": "C232",
   "status": "partial",
   "theorems": [
    "Verif.Coverage.C232_outer_sampled_fails",
    "Verif.Coverage.C232_own_block_partial"
   ],
   "note": "refuted for every outer block and access; the register's own block is sampled (proved)"
  },
  {
   "property": "C233",
   "status": "partial",
   "theorems": [
    "Verif.Coverage.C233_nothing_included_fails",
    "Verif.Coverage.C233_included_partial"
   ],
   "note": "refuted: raises when no resource is found; otherwise exact (proved)"
  },
  {
   "property": "C234",
   "status": "proved",
   "theorems": [
    "Verif.Domain.C234_same_domains",
    "Verif.Domain.C234_standard_order",
    "Verif.Domain.C234_run_parallel"
   ],
   "note": "the schedule as the code builds it, executed by the model of phase execution; order proved for every interleaving"
  },
  {
   "property": "C235",
   "status": "proved",
   "theorems": [
    "Verif.Domain.C235_domains"
   ],
   "note": "proved for all sequences of domains"
  },
  {
   "property": "C236",
   "status": "partial",
   "theorems": [
    "Verif.RegXlate.C236_parent_partial",
    "Verif.RegXlate.C236_upstream_partial",
    "Verif.RegXlate.C236_same_parent_partial",
    "Verif.RegXlate.C236_concurrent_fails"
   ],
   "note": "refuted for overlapping calls; proved for calls one after another and for parent_select UPSTREAM"
  },
  {
   "property": "C237",
   "status": "proved",
   "theorems": [
    "Verif.RegXlate.C237_in_order"
   ],
   "note": "order and progress proved; without an upstream sequencer the body raises after its warning (not stated as a theorem)"
  },
  {
   "property": "C238",
   "status": "partial",
   "theorems": [
    "Verif.RegXlate.C238_read_only_fails",
    "Verif.RegXlate.C238_predict_fails",
    "Verif.RegXlate.C238_write_only_fails"
   ],
   "note": "refuted for every register and device: nothing is refused, and with prediction the access raises after reaching the device"
  },
  {
   "property": "C239",
   "status": "proved",
   "theorems": [
    "Verif.VReg.C239_fields"
   ],
   "note": "Refines the model of registers' add_field (C16); any list of fields in any order."
  },
  {
   "property": "C240",
   "status": "partial",
   "theorems": [
    "Verif.VReg.C240_outside_fails"
   ],
   "note": "Refuted for every register and every single field beyond it that is not too wide."
  },
  {
   "property": "C241",
   "status": "partial",
   "theorems": [
    "Verif.VReg.C241_implement_partial",
    "Verif.VReg.C241_other_memories_partial",
    "Verif.VReg.C241_least_increment_fails",
    "Verif.VReg.C241_in_use_fails",
    "Verif.VReg.C241_default_fails"
   ],
   "note": "Exact condition of acceptance and the exact region for whole increments into an unused memory; refuted for the least increment and for the default increment (the increment is computed with / instead of //), and for every memory with a region in use (C53)."
  },
  {
   "property": "C242",
   "status": "partial",
   "theorems": [
    "Verif.VReg.C242_again_fails",
    "Verif.VReg.C242_leak_fails",
    "Verif.VReg.C242_static_partial"
   ],
   "note": "Refuted for every implemented register and every history: release_region is missing, so a second implement never succeeds, and it leaves the new memory reserved. The static part holds."
  },
  {
   "property": "C243",
   "status": "proved",
   "theorems": [
    "Verif.PortRel.C243_warning"
   ],
   "note": "All kinds and all places; stated with the three documented forms as an inductive predicate."
  },
  {
   "property": "C244",
   "status": "partial",
   "theorems": [
    "Verif.ReportText.C244_copy_partial",
    "Verif.ReportText.C244_elements_fails"
   ],
   "note": "Refuted for every message with elements (clone gives None and composing the copy raises); holds without elements."
  },
  {
   "property": "C245",
   "status": "partial",
   "theorems": [
    "Verif.ReportText.C245_elements_fails"
   ],
   "note": "Refuted for every message: two messages that differ only in (non-empty) elements have the same text."
  },
  {
   "property": "C246",
   "status": "proved",
   "theorems": [
    "Verif.ReportText.C246_text_shows_all"
   ],
   "note": "Injectivity of the composed text on messages whose parts do not contain the separators."
  },
  {
   "property": "C247",
   "status": "partial",
   "theorems": [
    "Verif.ReportText.C247_sets_partial",
    "Verif.ReportText.C247_again_fails"
   ],
   "note": "Refuted: a second call gives nothing, whatever the history. Over a whole history nothing is lost or given twice."
  },
  {
   "property": "C248",
   "status": "proved",
   "theorems": [
    "Verif.ReportText.C248_summary",
    "Verif.ReportText.C248_new_quit_count"
   ],
   "note": "Any history from a new server, any quit settings."
  },
  {
   "property": "C249",
   "status": "proved",
   "theorems": [
    "Verif.PhaseLook.C249_adjacent_successors"
   ],
   "note": "Any acyclic graph (the ranking is a hypothesis); the loop provably ends."
  },
  {
   "property": "C250",
   "status": "proved",
   "theorems": [
    "Verif.PhaseLook.C250_find_by_name"
   ],
   "note": "Any acyclic graph."
  },
  {
   "property": "C251",
   "status": "partial",
   "theorems": [
    "Verif.PhaseLook.C251_wait_partial",
    "Verif.PhaseLook.C251_returns_partial",
    "Verif.PhaseLook.C251_second_waiter_fails"
   ],
   "note": "Refuted after any history: the shared event is cleared by the first of two waiting tasks, the second waits although the state is met. Proved: a task waiting when the phase is set returns iff its state is met, and never in another state."
  },
  {
   "property": "C252",
   "status": "proved",
   "theorems": [
    "Verif.RunTest.C252_test",
    "Verif.RunTest.C252_one_test"
   ],
   "note": "All decision cases and histories; an exception in the factory (C20) is one more way of not running."
  },
  {
   "property": "C253",
   "status": "partial",
   "theorems": [
    "Verif.RunTest.C253_find_partial",
    "Verif.RunTest.C253_first_partial",
    "Verif.RunTest.C253_none_fails"
   ],
   "note": "Proved for trees with a match; refuted for every tree without one: the warning is given the pattern as verbosity and raises TypeError."
  },
  {
   "property": "C254",
   "status": "proved",
   "theorems": [
    "Verif.MapTree.C254_forest",
    "Verif.MapTree.C254_inherited",
    "Verif.MapTree.C254_add",
    "Verif.MapTree.C254_move"
   ],
   "note": "Any history on blocks that form a tree of bounded depth; moving is by set_submap_offset of submaps (for other maps see C255)."
  },
  {
   "property": "C255",
   "status": "partial",
   "theorems": [
    "Verif.MapTree.C255_refused_partial",
    "Verif.MapTree.C255_foreign_block_fails",
    "Verif.MapTree.C255_set_offset_fails"
   ],
   "note": "Proved: None and maps with a parent are refused. Refuted: a map of a block that is not below raises (the message uses the name of None), set_submap_offset of a map that is not a submap is accepted."
  },
  {
   "property": "C256",
   "status": "proved",
   "theorems": [
    "Verif.MapTree.C256_default",
    "Verif.MapTree.C256_foreign"
   ],
   "note": "Any history."
  },
  {
   "property": "C257",
   "status": "proved",
   "theorems": [
    "Verif.MapTree.C257_map_by_name"
   ],
   "note": "Any reachable structure."
  },
  {
   "property": "C258",
   "status": "partial",
   "theorems": [
    "Verif.MapTree.C258_write_by_name_fails",
    "Verif.MapTree.C258_no_register_partial"
   ],
   "note": "Refuted for every existing register: the status list is replaced by a number and write raises."
  },
  {
   "property": "C259",
   "status": "partial",
   "theorems": [
    "Verif.MapInit.C259_overlaps_partial",
    "Verif.MapInit.C259_memories_fails",
    "Verif.MapInit.C259_register_fails"
   ],
   "note": "Exact condition of success and exact warnings; refuted for all overlapping memories (formats the functions min and max) and for registers at an address of a memory entered before (the message is a tuple)."
  },
  {
   "property": "C260",
   "status": "proved",
   "theorems": [
    "Verif.Policy.C260_define",
    "Verif.Policy.C260_configure",
    "Verif.Policy.C260_set",
    "Verif.Policy.C260_others",
    "Verif.Policy.C260_always_known"
   ],
   "note": "Model/Policy: the class tables and fields by name. Names are ASCII (`Char.toUpper`)."
  },
  {
   "property": "C261",
   "status": "proved",
   "theorems": [
    "Verif.Policy.C261_known"
   ],
   "note": "Model/Policy.getAccess is the whole of get_access by rights."
  },
  {
   "property": "C262",
   "status": "partial",
   "theorems": [
    "Verif.Policy.C262_every_field_random_fails",
    "Verif.Policy.C262_statement_fails"
   ],
   "note": "Refuted for every configuration: `rand('value', ...)` is called always, `is_rand` is not used and the attribute set for unwritable policies is read by nothing."
  },
  {
   "property": "C263",
   "status": "proved",
   "theorems": [
    "Verif.Policy.C263_format",
    "Verif.Policy.C263_injective"
   ],
   "note": "For all natural numbers; injective on the values below 128."
  },
  {
   "property": "C264",
   "status": "partial",
   "theorems": [
    "Verif.Policy.C264_read_back_fails"
   ],
   "note": "Refuted for every action: the names lack the prefix UVM_ and are separated by spaces, so nothing is recognised."
  },
  {
   "property": "C265",
   "status": "proved",
   "theorems": [
    "Verif.SetLocal.C265_plain"
   ],
   "note": "Model/SetLocal with the shared scope and list of objects; the matching is a parameter."
  },
  {
   "property": "C266",
   "status": "proved",
   "theorems": [
    "Verif.SetLocal.C266_tree",
    "Verif.SetLocal.C266_flat",
    "Verif.SetLocal.C266_ends",
    "Verif.SetLocal.C266_restores"
   ],
   "note": "C266_tree is for calls that do not raise (a registered field with an integer or text on the way raises, C196); objects shared between paths are visited more than once and are not covered by the exact claim."
  },
  {
   "property": "C267",
   "status": "partial",
   "theorems": [
    "Verif.SetLocal.C267_scope_kept_fails",
    "Verif.SetLocal.C267_after_exception_fails"
   ],
   "note": "Refuted: the scope of a call that raised is not reset, and its names become part of every name matched later; C267_scope_kept_fails shows it for every call that raises."
  },
  {
   "property": "C268",
   "status": "proved",
   "theorems": [
    "Verif.CompDomain.C268_set_domain",
    "Verif.CompDomain.C268_inherited"
   ],
   "note": "Step theorems over all reachable states; Below is an inductive relation on the tree of components."
  },
  {
   "property": "C269",
   "status": "proved",
   "theorems": [
    "Verif.CompDomain.C269_phases",
    "Verif.CompDomain.C269_order",
    "Verif.CompDomain.C269_apart",
    "Verif.CompDomain.C269_kinds"
   ],
   "note": "Invariant over all histories: which phases exist, who is linked to whom; order in every execution through C84. Names of components play no part; define_domain is not overridden and no phases are added by the user."
  },
  {
   "property": "C270",
   "status": "partial",
   "theorems": [
    "Verif.CompDomain.C270_name_fails",
    "Verif.CompDomain.C270_common_fails"
   ],
   "note": "Refuted: a domain called uvm_sched is found as its own schedule and stays empty; the common domain gets run-time phases after final."
  },
  {
   "property": "C271",
   "status": "proved",
   "theorems": [
    "Verif.CompDomain.C271_takes_part"
   ],
   "note": "Uses the invariant of C269; which components a traversal visits is C48."
  },
  {
   "property": "C272",
   "status": "proved",
   "theorems": [
    "Verif.PhaseNames.C272_somewhere",
    "Verif.PhaseNames.C272_full_name",
    "Verif.PhaseNames.C272_unknown",
    "Verif.PhaseNames.C272_own_name"
   ],
   "note": "Proved for all histories of constructions and add() calls that add to schedules and domains, without cycles; `Within` gives the schedules around a phase in terms of get_parent()."
  },
  {
   "property": "C273",
   "status": "proved",
   "theorems": [
    "Verif.PhaseNames.C273_node",
    "Verif.PhaseNames.C273_schedule",
    "Verif.PhaseNames.C273_others"
   ],
   "note": "Proved for node and schedule additions, and for the phases outside of what moved."
  },
  {
   "property": "C274",
   "status": "proved",
   "theorems": [
    "Verif.PhaseNames.C274_topmost",
    "Verif.PhaseNames.C274_own",
    "Verif.PhaseNames.C274_none"
   ],
   "note": "Proved for both values of hier."
  },
  {
   "property": "C275",
   "status": "partial",
   "theorems": [
    "Verif.PhaseNames.C275_end_fails",
    "Verif.PhaseNames.C275_end_partial"
   ],
   "note": "C275_end_fails: the full name of the end of any schedule in a domain leaves out all schedules; it holds for ends of domains (C275_end_partial)."
  },
  {
   "property": "C276",
   "status": "partial",
   "theorems": [
    "Verif.PhaseNames.C276_ends_partial",
    "Verif.PhaseNames.C276_cycle_fails"
   ],
   "note": "C276_cycle_fails: add() accepts a schedule in itself, or two in each other, and the look-ups then loop for ever; without such cycles they end (C276_ends_partial)."
  },
  {
   "property": "C277",
   "status": "proved",
   "theorems": [
    "Verif.UserDoor.C277_block",
    "Verif.UserDoor.C277_element"
   ],
   "note": "Holds for every forest of blocks and every history in which the element itself was not yet asked."
  },
  {
   "property": "C278",
   "status": "partial",
   "theorems": [
    "Verif.UserDoor.C278_stale_fails",
    "Verif.UserDoor.C278_seen_partial"
   ],
   "note": "Fails: get_backdoor() of a register or memory stores what it found as its own back door, so it never sees later changes, and get_backdoor(False) then gives the inherited one."
  },
  {
   "property": "C279",
   "status": "partial",
   "theorems": [
    "Verif.UserDoor.C279_roundtrip_fails",
    "Verif.UserDoor.C279_roundtrip_partial"
   ],
   "note": "Fails: do_pre_write calls decode instead of encode, and do_post_read decodes in the order of registration. Holds for decoders that undo themselves and commute."
  },
  {
   "property": "C280",
   "status": "partial",
   "theorems": [
    "Verif.UserDoor.C280_callbacks_fails",
    "Verif.UserDoor.C280_disabled_fails",
    "Verif.UserDoor.C280_own_partial"
   ],
   "note": "Fails: pre_write, post_write and pre_read of callbacks are coroutines never awaited; disabled callbacks still decode. The back door's own methods and the enabled post_read callbacks run in the documented order."
  },
  {
   "property": "C281",
   "status": "partial",
   "theorems": [
    "Verif.UserDoor.C281_poke_fails",
    "Verif.UserDoor.C281_other_partial"
   ],
   "note": "Fails: poke and peek call coroutines of the back door without awaiting them, and report UVM_IS_OK. The refusal, and the path through HDL, are proved."
  },
  {
   "property": "C282",
   "status": "proved",
   "theorems": [
    "Verif.TlmIf.C282_accepted",
    "Verif.TlmIf.C282_methods",
    "Verif.TlmIf.C282_sides"
   ],
   "note": "Exhaustive over the 23 interface classes and 20 methods, with a proof that the enumeration is complete."
  },
  {
   "property": "C283",
   "status": "partial",
   "theorems": [
    "Verif.TlmIf.C283_collision_fails",
    "Verif.TlmIf.C283_offers_partial"
   ],
   "note": "Fails exactly for the colliding pairs: the masks of blocking transport and non-blocking put are the same bit (2 << 3), and the sequencer's interface reuses the bits of the TLM interfaces."
  },
  {
   "property": "C284",
   "status": "partial",
   "theorems": [
    "Verif.TlmIf.C284_call_partial",
    "Verif.TlmIf.C284_write_partial",
    "Verif.TlmIf.C284_transport_fails"
   ],
   "note": "Proved for networks in which the interfaces reached do not collide (C283); fails with a collision."
  },
  {
   "property": "C285",
   "status": "partial",
   "theorems": [
    "Verif.TlmIf.C285_default_index_fails",
    "Verif.TlmIf.C285_set_if_partial"
   ],
   "note": "Fails: set_default_index only stores the index. Proved for set_if; an index out of range leaves the port without implementation."
  },
  {
   "property": "C286",
   "status": "proved",
   "theorems": [
    "Verif.Socket.C286_forward",
    "Verif.Socket.C286_delay"
   ],
   "note": "Forward path through any acyclic topology of pass-through sockets; null delay; unconnected sockets."
  },
  {
   "property": "C287",
   "status": "partial",
   "theorems": [
    "Verif.Socket.C287_direct_partial",
    "Verif.Socket.C287_delay",
    "Verif.Socket.C287_passthrough_fails"
   ],
   "note": "Holds for initiators connected directly. Refuted behind pass-through sockets: their connect never connects the backward path, so a backward call raises wherever the forward path comes from (C287_passthrough_fails is a general statement, not one witness)."
  },
  {
   "property": "C288",
   "status": "partial",
   "theorems": [
    "Verif.Socket.C288_initiator_fails",
    "Verif.Socket.C288_target_partial"
   ],
   "note": "Targets are right. The non-blocking initiator tests the wrong way round: the error is reported exactly when an implementation is given."
  },
  {
   "property": "C289",
   "status": "partial",
   "theorems": [
    "Verif.Socket.C289_silent_fails",
    "Verif.Socket.C289_reported_partial"
   ],
   "note": "Valid connections are accepted silently and every invalid one is reported except pass-through initiator to initiator; an initiator connected to an initiator is reported but connected all the same."
  },
  {
   "property": "C290",
   "status": "partial",
   "theorems": [
    "Verif.Container.C290_separate_partial",
    "Verif.Container.C290_copy_fails",
    "Verif.Container.C290_emptied_partial",
    "Verif.Container.C290_clone_partial"
   ],
   "note": "Refuted: copy and clone share the Python list, so every later change but delete() shows in both (general theorem over all histories). Proved: no interference without copies, clone contents, and separation after delete()."
  },
  {
   "property": "C291",
   "status": "partial",
   "theorems": [
    "Verif.Container.C291_copy_fails"
   ],
   "note": "Refuted: pools have no do_copy, so a clone is empty and a copy changes nothing. Nothing of the property holds."
  },
  {
   "property": "C292",
   "status": "partial",
   "theorems": [
    "Verif.Container.C292_twice_fails",
    "Verif.Container.C292_first_partial",
    "Verif.Container.C292_string_pool_partial"
   ],
   "note": "Refuted: do_print of UVMPool walks with the pool's own pointer, so a second print shows nothing and walks end. Proved for the first print and for string pools."
  },
  {
   "property": "C293",
   "status": "proved",
   "theorems": [
    "Verif.RegQuery.C293_mapped",
    "Verif.RegQuery.C293_unmapped",
    "Verif.RegQuery.C293_unmapped_locked",
    "Verif.RegQuery.C293_not_in_map",
    "Verif.RegQuery.C293_without_map",
    "Verif.RegQuery.C293_not_locked"
   ],
   "note": "Answers for the serving map, unmapped and foreign registers, unlocked models; without a map for registers in one or no map (several maps: C157)."
  },
  {
   "property": "C294",
   "status": "proved",
   "theorems": [
    "Verif.RegQuery.C294_round_trip"
   ],
   "note": "Every layout; registers sharing addresses are C19."
  },
  {
   "property": "C295",
   "status": "partial",
   "theorems": [
    "Verif.RegQuery.C295_lowest_partial",
    "Verif.RegQuery.C295_big_endian_fails"
   ],
   "note": "Refuted for every register of several words in a big-endian root map, where get_address is the highest address; holds otherwise."
  },
  {
   "property": "C296",
   "status": "partial",
   "theorems": [
    "Verif.RegQuery.C296_width_partial",
    "Verif.RegQuery.C296_width_fails"
   ],
   "note": "Refuted for maps without registers or memories of their own below a narrower bus (own width), and before locking (0); holds for every map with a mapped item."
  },
  {
   "property": "C297",
   "status": "partial",
   "theorems": [
    "Verif.ObjTrace.C297_mode",
    "Verif.ObjTrace.C297_same_partial",
    "Verif.ObjTrace.C297_raise_fails",
    "Verif.ObjTrace.C297_drop_fails",
    "Verif.ObjTrace.C297_drain_fails"
   ],
   "note": "Refuted for every raise, every accepted drop and every drain while tracing is on: m_report raises (sname unbound for the source, str.len for others). Same behaviour proved with tracing off, disabled messages and amount 0."
  },
  {
   "property": "C298",
   "status": "partial",
   "theorems": [
    "Verif.ObjTrace.C298_leaf_and_depth",
    "Verif.ObjTrace.C298_root_partial",
    "Verif.ObjTrace.C298_none",
    "Verif.ObjTrace.C298_root_twice_fails",
    "Verif.ObjTrace.C298_subtree_fails",
    "Verif.ObjTrace.C298_same_name_fails"
   ],
   "note": "Lines of the root's display proved for all proper counts; refuted: the root has two lines always; for other objects lines below are missing and foreign ones shown."
  },
  {
   "property": "C299",
   "status": "partial",
   "theorems": [
    "Verif.ObjTrace.C299_wakes",
    "Verif.ObjTrace.C299_only_after_event_partial",
    "Verif.ObjTrace.C299_stale_fails"
   ],
   "note": "No lost event proved for all interleavings; return only after the event proved when nobody else waits for the object and no task was killed; refuted otherwise (event flags are never cleared)."
  },
  {
   "property": "C300",
   "status": "partial",
   "theorems": [
    "Verif.Factory.C300_by_type",
    "Verif.Factory.C300_by_type_loop",
    "Verif.Factory.C300_by_name_partial",
    "Verif.Factory.C300_spurious_loop_fails",
    "Verif.Factory.C300_unknown_name_fails",
    "Verif.Factory.C300_looked_up"
   ],
   "note": "By type proved in full (list, marks, result, loops), for unique type names. By name: the resulting type is right; a self instance override is reported as a loop that creating does not meet, and an unknown name raises TypeError."
  },
  {
   "property": "C301",
   "status": "partial",
   "theorems": [
    "Verif.Factory.C301_creation_by_type",
    "Verif.Factory.C301_creation_by_name_partial",
    "Verif.Factory.C301_registers_fails",
    "Verif.Factory.C301_no_index_error"
   ],
   "note": "Requests by type are unaffected; requests by registered names too. Refuted for names that are not registered: debug_create_by_type registers the type."
  },
  {
   "property": "C302",
   "status": "partial",
   "theorems": [
    "Verif.Factory.C302_instance_overrides_fails",
    "Verif.Factory.C302_type_overrides_partial",
    "Verif.Factory.C302_stale_name_fails",
    "Verif.Factory.C302_type_names_partial",
    "Verif.Factory.C302_overridden_type_fails",
    "Verif.Factory.C302_total",
    "Verif.Factory.C302_no_overrides"
   ],
   "note": "Type overrides and type names are listed exactly unless overrides by name interfere (refuted with witnesses). Instance overrides: refuted for every factory with more than one overridden type, since all queues get the key 'uvm_queue'."
  },
  {
   "property": "C303",
   "status": "proved",
   "theorems": [
    "Verif.Recording.C303_recorded",
    "Verif.Recording.C303_handle",
    "Verif.Recording.C303_others"
   ],
   "note": "Proved for every database that was not closed."
  },
  {
   "property": "C304",
   "status": "partial",
   "theorems": [
    "Verif.Recording.C304_same_stream",
    "Verif.Recording.C304_silences_transactions_fails",
    "Verif.Recording.C304_closed_partial"
   ],
   "note": "Streams are stable; refuted that events do not disturb transactions: an event on the main stream keeps every later transaction from being recorded there. After close_db nothing is recorded."
  },
  {
   "property": "C305",
   "status": "proved",
   "theorems": [
    "Verif.CatcherDbg.C305_unmodified"
   ],
   "note": "Proved for messages without elements; those with elements are C306."
  },
  {
   "property": "C306",
   "status": "partial",
   "theorems": [
    "Verif.CatcherDbg.C306_elements_fails",
    "Verif.CatcherDbg.C306_plain_partial"
   ],
   "note": "Refuted for every message with elements: clone gives None elements, copying those back raises AttributeError, and in_catcher stays set so no catcher is asked again. Proved: with the flag off nothing raises."
  },
  {
   "property": "C307",
   "status": "partial",
   "theorems": [
    "Verif.CatcherDbg.C307_lookup_fails"
   ],
   "note": "Refuted for every history: the iterator is made for the object None, whose queue is the class-level list nobody fills."
  },
  {
   "property": "C308",
   "status": "proved",
   "theorems": [
    "Verif.CatcherDbg.C308_walk",
    "Verif.CatcherDbg.C308_restart"
   ],
   "note": "Proved; the callbacks do not change during the walk."
  },
  {
   "property": "C309",
   "status": "partial",
   "theorems": [
    "Verif.CatcherDbg.C309_back_fails",
    "Verif.CatcherDbg.C309_back_partial"
   ],
   "note": "Refuted whenever the last callback of the queue is one that is run (prev then skips it); proved when a callback that is not run follows it."
  },
  {
   "property": "C310",
   "status": "partial",
   "theorems": [
    "Verif.PackSize.C310_whole_partial",
    "Verif.PackSize.C310_too_large_partial",
    "Verif.PackSize.C310_unpack_position_partial",
    "Verif.PackSize.C310_roundtrip_partial",
    "Verif.PackSize.C310_pack_fails",
    "Verif.PackSize.C310_unpack_fails"
   ],
   "note": "Refuted for every size smaller than the list: packing packs the whole list, unpacking overwrites all elements. Proved: refusal of larger sizes, position after unpacking, round trip with the same size."
  },
  {
   "property": "C311",
   "status": "partial",
   "theorems": [
    "Verif.AgentCfg.C311_agent_partial",
    "Verif.AgentCfg.C311_not_highest_fails",
    "Verif.AgentCfg.C311_lower_level_wins_fails",
    "Verif.AgentCfg.C311_older_setting_wins_fails"
   ],
   "note": "Holds without settings and when the newest setting has strictly the highest precedence. Fails otherwise: the loop over the resources has no break and the order they are read in is not by precedence, so the agent takes the oldest of the settings that have the precedence of the newest one."
  },
  {
   "property": "C312",
   "status": "partial",
   "theorems": [
    "Verif.AgentCfg.C312_print_config_partial",
    "Verif.AgentCfg.C312_nothing_shown_fails",
    "Verif.AgentCfg.C312_audit_fails"
   ],
   "note": "One line per visible resource, in the right order of components. Fails: the line is a dash, with neither name nor value; audit=True raises AttributeError after the first resource (print_accessors does not exist), print_config_with_audit passes 1, for which `is True` does not hold, and shows no audit."
  },
  {
   "property": "C313",
   "status": "partial",
   "theorems": [
    "Verif.MapSel.C313_local_map_partial",
    "Verif.MapSel.C313_map_above_fails",
    "Verif.MapSel.C313_default_map_fails"
   ],
   "note": "Holds for the maps the memory is in, and for maps that do not reach it. Fails for maps above the memory's maps and for the choice between several maps, because both loops run over a UVMPool (C314)."
  },
  {
   "property": "C314",
   "status": "partial",
   "theorems": [
    "Verif.PoolIter.C314_loop_partial",
    "Verif.PoolIter.C314_keys_not_visited_fails",
    "Verif.PoolIter.C314_values_visited_fails"
   ],
   "note": "UVMPool has __getitem__ but no __iter__: the loop gets the values of the keys 0, 1, 2, ... up to the first that is missing."
  },
  {
   "property": "C315",
   "status": "partial",
   "theorems": [
    "Verif.AgentCfg.C315_dump_prints_nothing_fails"
   ],
   "note": "Refuted: the loop over the table ends at once (C314)."
  },
  {
   "property": "C316",
   "status": "partial",
   "theorems": [
    "Verif.PoolIter.C316_configure_first_partial",
    "Verif.PoolIter.C316_register_in_map_fails",
    "Verif.PoolIter.C316_configure_after_maps_fails"
   ],
   "note": "Holds when configure comes first, for tables without repetitions whose registers are in none of the maps. Fails for maps added before, because the loop over m_maps ends at once (C314), and for registers that are in the map already: registers have no set_frontdoor, AttributeError."
  },
  {
   "property": "C317",
   "status": "proved",
   "theorems": [
    "Verif.RegFile.C317_full_name",
    "Verif.RegFile.C317_tells_path"
   ],
   "note": ""
  },
  {
   "property": "C318",
   "status": "partial",
   "theorems": [
    "Verif.RegFile.C318_in_block_partial",
    "Verif.RegFile.C318_in_file_fails"
   ],
   "note": "Register files have neither get_default_hdl_path nor get_full_hdl_path, so for a register in a register file both questions raise AttributeError. For registers directly in a block the property holds."
  },
  {
   "property": "C319",
   "status": "proved",
   "theorems": [
    "Verif.Payload.C319_last",
    "Verif.Payload.C319_not_both"
   ],
   "note": ""
  },
  {
   "property": "C320",
   "status": "proved",
   "theorems": [
    "Verif.Service.C320_create",
    "Verif.Service.C320_any_factory",
    "Verif.Service.C320_reset"
   ],
   "note": ""
  },
  {
   "property": "C321",
   "status": "partial",
   "theorems": [
    "Verif.Service.C321_by_name_partial",
    "Verif.Service.C321_new_factory_fails",
    "Verif.Service.C321_reset_fails"
   ],
   "note": "A new factory knows none of the classes defined before it was set. A factory that is set again after reset knows names that have no class any more. Without set_factory the property holds."
  },
  {
   "property": "C322",
   "status": "partial",
   "theorems": [
    "Verif.CmpHist.C322_no_exception_partial",
    "Verif.CmpHist.C322_only_the_next_partial",
    "Verif.CmpHist.C322_next_fails",
    "Verif.CmpHist.C322_for_ever_fails"
   ],
   "note": "compare does not restore the scope stack when it raises. If the exception comes from the object itself, the next comparison may be wrong and no other. If it comes from a sub-object, one miscompare makes all later comparisons fail. Without exceptions the property holds."
  },
  {
   "property": "C323",
   "status": "proved",
   "theorems": [
    "Verif.RegSystem.C323_as_variables",
    "Verif.RegSystem.C323_order_irrelevant",
    "Verif.RegSystem.C323_no_interference",
    "Verif.RegSystem.C323_apart_in_map"
   ],
   "note": "Composes the models of register accesses and bus accesses. Accesses run one after the other; user front doors and HDL back doors are not modelled."
  },
  {
   "property": "C324",
   "status": "proved",
   "theorems": [
    "Verif.RegSystem.C324_all_ok",
    "Verif.RegSystem.C324_last_written",
    "Verif.RegSystem.C324_never_written",
    "Verif.RegSystem.C324_mirrors_follow",
    "Verif.RegSystem.C324_no_mismatch"
   ],
   "note": "For front-door accesses with hooks that leave the item alone; hooks of any kind are covered by C323."
  },
  {
   "property": "C325",
   "status": "proved",
   "theorems": [
    "Verif.RegConc.C325_interleaving",
    "Verif.RegConc.C325_as_if_alone",
    "Verif.RegConc.C325_completes",
    "Verif.RegConc.C325_last_written"
   ],
   "note": "Words of accesses interleaved at every await of do_bus_write/do_bus_read; accesses to one register are queued (its lock is C-numbered separately in RegAtomic). Device: any per-address cells."
  },
  {
   "property": "C326",
   "status": "proved",
   "theorems": [
    "Verif.RsrcPrio.C326_low",
    "Verif.RsrcPrio.C326_order",
    "Verif.RsrcPrio.C326_others",
    "Verif.RsrcPrio.C326_unnamed"
   ],
   "note": "Every history of sets and priority changes."
  },
  {
   "property": "C327",
   "status": "partial",
   "theorems": [
    "Verif.RsrcPrio.C327_high_fails",
    "Verif.RsrcPrio.C327_high_partial"
   ],
   "note": "_fails for every state: high priority appends like low priority, so a resource with an equal competitor is never found; partial: found if its precedence is strictly above."
  },
  {
   "property": "C328",
   "status": "proved",
   "theorems": [
    "Verif.RegText.C328_field_text",
    "Verif.RegText.C328_tells_desired",
    "Verif.RegText.C328_progress",
    "Verif.RegText.C328_register_text"
   ],
   "note": "Exact texts, for every width, value, name and chain of maps; the desired value can be told from the text of a field. Texts of registers are modelled for registers that are not being accessed."
  },
  {
   "property": "C329",
   "status": "partial",
   "theorems": [
    "Verif.RegText.C329_mirror_fails",
    "Verif.RegText.C329_hex_fails",
    "Verif.RegText.C329_register_partial"
   ],
   "note": "Violated: the note on the mirrored value is built but the template has one place too few, so the text of a field is the same for every mirrored value (C329_mirror_fails); the value is shown in decimal behind the unused format '8'h%2.75h' (C329_hex_fails). The register's own value is shown in hexadecimal and can be told from the text (C329_register_partial)."
  },
  {
   "property": "C330",
   "status": "proved",
   "theorems": [
    "Verif.RegChip.C330_mirrors_follow",
    "Verif.RegChip.C330_no_mismatch",
    "Verif.RegChip.C330_read"
   ],
   "note": "End to end over the models of C12, C13, C79 and the bus accesses; hooks that leave the items alone, a read/write map, no access refused, one access after the other (concurrent ones: C325). The chip is specified word by word from the table of policies; that a write-once bit is written counts per word."
  },
  {
   "property": "C331",
   "status": "proved",
   "theorems": [
    "Verif.MapSwitch.C331_set",
    "Verif.MapSwitch.C331_last",
    "Verif.MapSwitch.C331_never",
    "Verif.MapSwitch.C331_checked"
   ],
   "note": "Depth of the recursion bounded by the tree of blocks, proved to suffice. What the check compares is in C117."
  },
  {
   "property": "C332",
   "status": "partial",
   "theorems": [
    "Verif.MapSwitch.C332_never_partial",
    "Verif.MapSwitch.C332_submap_fails",
    "Verif.MapSwitch.C332_root_partial"
   ],
   "note": "The switch of a submap is stored but nobody looks at it: accesses ask the root map. Holds of root maps, for all accesses through maps below them."
  },
  {
   "property": "C333",
   "status": "proved",
   "theorems": [
    "Verif.RegChip.C333_mirror",
    "Verif.RegChip.C333_read",
    "Verif.RegChip.C333_stays"
   ],
   "note": "End to end like C330 (register, field, map and bus models composed), for histories with changes of the chip by something else. The report is characterised exactly (iff), reads and mirrors resynchronise, and resynchronised registers stay so. Registers with fields that cannot be read are excluded (see C109)."
  },
  {
   "property": "C334",
   "status": "partial",
   "theorems": [
    "Verif.OvrRel.C334_outside_partial",
    "Verif.OvrRel.C334_applies_partial",
    "Verif.OvrRel.C334_exact_partial",
    "Verif.OvrRel.C334_other_instances_fails"
   ],
   "note": "The code violates the property: paths are matched anywhere in the name (C54), so an override for one instance also catches instances with longer names and elsewhere (C334_other_instances_fails). Proved: everything below the parent that matches gets the override; creations at paths that do not contain the parent's name are unaffected; for patterns ending in * and paths with the parent's name only at the beginning the override applies exactly below it."
  },
  {
   "property": "C335",
   "status": "proved",
   "theorems": [
    "Verif.RegWatch.C335_mirrors",
    "Verif.RegWatch.C335_no_mismatch",
    "Verif.RegWatch.C335_read"
   ],
   "note": "Registers behind the documented chip of Props/RegChip, accessed through the model with auto prediction off and by other masters; the monitor and adapter are user code, taken to report every bus operation in order without byte enables. Register files with rights other than read/write, FIFO and indirect registers are outside."
  },
  {
   "property": "C336",
   "status": "proved",
   "theorems": [
    "Verif.RegMem.C336_separate",
    "Verif.RegMem.C336_registers_and_memories"
   ],
   "note": "registers of C330 and memories of C138 on one bus; separation theorem for any device behind the registers"
  },
  {
   "property": "C337",
   "status": "proved",
   "theorems": [
    "Verif.RegPar.C337_as_if_alone",
    "Verif.RegPar.C337_exceptions",
    "Verif.RegPar.C337_completes",
    "Verif.RegPar.C337_mirrors"
   ],
   "note": "Full. Front-door accesses whose user hooks do not give up control; the accesses to one register wait for each other, and other calls that change the register are made between its accesses."
  },
  {
   "property": "C338",
   "status": "proved",
   "theorems": [
    "Verif.RegAdapter.C338_access",
    "Verif.RegAdapter.C338_write_items",
    "Verif.RegAdapter.C338_read_items"
   ],
   "note": "Full for adapters without responses (C339). Hooks of the parent sequence are recorded and change nothing; what other sequences do between two items is the subject of C325 and C337."
  },
  {
   "property": "C339",
   "status": "partial",
   "theorems": [
    "Verif.RegAdapter.C339_responses_fails"
   ],
   "note": "Fails for every adapter and access (C339_responses_fails): get_base_response is given None instead of a list, so the access raises when the response arrives, after the first item was executed, and waits for ever if none arrives."
  },
  {
   "property": "C340",
   "status": "proved",
   "theorems": [
    "Verif.RegPar.C340_mirrors",
    "Verif.RegPar.C340_returns"
   ],
   "note": "C340_mirrors: histories of requests, bus words and calls of set in any order. C340_returns: a call of set while an access is under way does not change what that access returns."
  },
  {
   "property": "C341",
   "status": "partial",
   "theorems": [
    "Verif.RegPar.C341_set_survives_fails"
   ],
   "note": "Violated: automatic prediction at the end of the write overwrites the desired value. C341_set_survives_fails: whatever happens after the set, once the write is over the whole state is what it is without the set."
  },
  {
   "property": "C342",
   "status": "proved",
   "theorems": [
    "Verif.RegTests.C342_bit_bash_accepts_chip"
   ],
   "note": "Composes the walk (C131), the test of one register (C128), the accesses and the words on the bus. The map is the only map of each register; registers are at most 64 bits wide (C128 shows wider ones raise)."
  },
  {
   "property": "C343",
   "status": "proved",
   "theorems": [
    "Verif.RegTests.C343_bit_bash_finds_stuck_bits"
   ],
   "note": "The device behind the bus is arbitrary; only the stuck bit is assumed."
  },
  {
   "property": "C344",
   "status": "proved",
   "theorems": [
    "Verif.RegTests.C344_reset_test_accepts_chip"
   ],
   "note": "Blocks whose maps have sub-maps are excluded: there the code checks nothing (C133). Registers with fields that cannot be read: C346."
  },
  {
   "property": "C345",
   "status": "proved",
   "theorems": [
    "Verif.RegTests.C345_reset_test_finds_wrong_bits"
   ],
   "note": "The check of the register in question comes before any other access to its words, since the other registers are at other addresses."
  },
  {
   "property": "C346",
   "status": "partial",
   "theorems": [
    "Verif.RegTests.C346_write_only_fails",
    "Verif.RegTests.C346_silent_partial"
   ],
   "note": "Fails: do_check compares acc[0:1] (one character) with two-character names, so write-only fields are never masked; a compared write-only field with a reset value other than 0 makes the test report an error on every chip (C346_write_only_fails). C346_silent_partial: a chip in its reset state is accepted if the compared unreadable fields of the covered registers have the reset value 0, so the two theorems together say exactly when."
  },
  {
   "property": "C347",
   "status": "proved",
   "theorems": [
    "Verif.PhaseObj.C347_order",
    "Verif.PhaseObj.C347_states",
    "Verif.PhaseObj.C347_all_done",
    "Verif.PhaseObj.C347_objection"
   ],
   "note": "C84 and C114 with the whole objection model of C27-C30 in place of one number per phase; the calls on objections are those whose accounting is right (no raise that meets a running drain, no negative count)."
  },
  {
   "property": "C348",
   "status": "partial",
   "theorems": [
    "Verif.PhaseObj.C348_drain_cut_off_fails",
    "Verif.PhaseObj.C348_done_partial"
   ],
   "note": "Fails: the phase looks only at the total of the root; with the last objection dropped before it looks, it ends during the root's drain, and the clear of the clean-up raises. Proved: DONE in two steps if no drain is forked or running, with an empty objection."
  },
  {
   "property": "C349",
   "status": "partial",
   "theorems": [
    "Verif.PhaseObj.C349_phase_hangs_fails",
    "Verif.PhaseObj.C349_ends_partial"
   ],
   "note": "Fails: of two components that drop in the same time step the second drain is lost (C30) and the phase waits for ever. Proved: if the background process never finds two waiting drains, a phase without siblings ends within four steps of its task once nobody objects and the coroutines rest."
  },
  {
   "property": "C350",
   "status": "proved",
   "theorems": [
    "Verif.SeqPhase.C350_phase_waits",
    "Verif.SeqPhase.C350_methods"
   ],
   "note": "Fair: no negative counts, no raise that meets a running drain, no clear by the user, nobody else uses the sequences as source of an objection. Phases without siblings."
  },
  {
   "property": "C351",
   "status": "partial",
   "theorems": [
    "Verif.SeqPhase.C351_exception_fails",
    "Verif.SeqPhase.C351_over_partial",
    "Verif.SeqPhase.C351_ends_partial"
   ],
   "note": "The code violates it for sequences that end by an exception (C351_exception_fails, proved for every continuation). C351_over_partial and C351_ends_partial: sequences whose methods raise no exception; histories as in C349."
  },
  {
   "property": "C352",
   "status": "proved",
   "theorems": [
    "Verif.PhaseCalls.C352_once",
    "Verif.PhaseCalls.C352_at_most_once",
    "Verif.PhaseCalls.C352_all",
    "Verif.PhaseCalls.C352_ends"
   ],
   "note": "The model of the execution of phases (PhaseRun) run together with the traversals (Traverse).  Excluded by hypothesis: callbacks that create components outside the build phase or search the tree from the root (C47, C48 say what the code does then), and exceptions.  The components in the domain of a phase do not change during the run."
  },
  {
   "property": "C353",
   "status": "proved",
   "theorems": [
    "Verif.PhaseCalls.C353_order",
    "Verif.PhaseCalls.C353_one_phase"
   ],
   "note": "Proved for all pairs of calls of all interleavings, with the hypotheses of C352."
  },
  {
   "property": "C354",
   "status": "proved",
   "theorems": [
    "Verif.Scoreboard.C354_subscriber",
    "Verif.Scoreboard.C354_fifo",
    "Verif.Scoreboard.C354_pairs",
    "Verif.Scoreboard.C354_verdict"
   ],
   "note": "The models of ports (C57), analysis FIFOs (C42) and comparators (C45) put together. Transactions are values (nobody changes one after writing it), and subscribers keep what they receive; a subscriber that writes on from inside its write method is not modelled."
  },
  {
   "property": "C355",
   "status": "proved",
   "theorems": [
    "Verif.Scoreboard.C355_items_checked"
   ],
   "note": "The sequencer of C36 on top of C354. The driver is user code: it is assumed to write one observation for each item it finished, in the step in which item_done returned."
  },
  {
   "property": "C356",
   "status": "proved",
   "theorems": [
    "Verif.PlusArgs.C356_value"
   ],
   "note": "names of plusargs have no '=' (cocotb splits at the first one); texts are lists of characters"
  },
  {
   "property": "C357",
   "status": "partial",
   "theorems": [
    "Verif.PlusArgs.C357_never_true_fails",
    "Verif.PlusArgs.C357_with_equals_partial"
   ],
   "note": "violated: the character loop appends '=' to every plusarg name and reads past the end of NAME, so the answer is never True; C357_never_true_fails is an equation for all plusargs and names; holds with the '=' written in the name"
  },
  {
   "property": "C358",
   "status": "proved",
   "theorems": [
    "Verif.BuildCfg.C358_setting_reaches_below"
   ],
   "note": "Traverse and Resource composed; user code in build_phase is any list of set/get calls with self as context, chosen with the database in view; NoCollision as in C25; values are compared as in C25 (a value equal to the present one does not replace it)"
  },
  {
   "property": "C359",
   "status": "proved",
   "theorems": [
    "Verif.BuildCfg.C359_seen_in_build"
   ],
   "note": "same model as C358; the second and third parts are about every entry of the log"
  },
  {
   "property": "C360",
   "status": "proved",
   "theorems": [
    "Verif.BuildCfg.C360_command_line_wins"
   ],
   "note": "RootSettings, BuildCfg, Traverse and Resource composed; well-formed settings are those of C205; the root alone has the empty name"
  },
  {
   "property": "C361",
   "status": "partial",
   "theorems": [
    "Verif.BuildCfg.C361_pattern_used_before_fails",
    "Verif.BuildCfg.C361_new_pattern_partial"
   ],
   "note": "violated: a repeated pattern is moved to the end of the queue (see C24_repeated_set_loses_fails), so an earlier other pattern wins (C361_pattern_used_before_fails); holds if the pattern was not used before"
  },
  {
   "property": "C362",
   "status": "proved",
   "theorems": [
    "Verif.BuildFactory.C362_created"
   ],
   "note": "Traverse and Factory composed; the specification of overrides is stated on the history of calls (Spec/BuildFactory); overrides by name are excluded (see C119, C21, C22 for what goes wrong with them); type names are unique as in C20; chains that run into a cycle are left to C20"
  },
  {
   "property": "C363",
   "status": "proved",
   "theorems": [
    "Verif.BuildFactory.C363_override_above_wins"
   ],
   "note": "same model as C362"
  },
  {
   "property": "C364",
   "status": "proved",
   "theorems": [
    "Verif.SeqPhase.C364_left",
    "Verif.SeqPhase.C364_again"
   ],
   "note": "The end of start is its last step; exceptions in a method skip it (C351)."
  },
  {
   "property": "C365",
   "status": "proved",
   "theorems": [
    "Verif.BuildAuto.C365_setting_reaches_fields"
   ],
   "note": "With several settings the winner is not the documented one: C192."
  },
  {
   "property": "C366",
   "status": "proved",
   "theorems": [
    "Verif.BuildAuto.C366_others_alone"
   ],
   "note": "Names are compared by containment: C194."
  },
  {
   "property": "C367",
   "status": "proved",
   "theorems": [
    "Verif.SeqRun.C367_body_returns",
    "Verif.SeqRun.C367_phase_end",
    "Verif.SeqRun.C367_driver_idle"
   ],
   "note": "Verif.Model.SeqRun composes Verif.Model.SeqPhase and Verif.Model.Sequencer. C367_body_returns: no item is left when the body is over; C367_phase_end: at the end of a phase; C367_driver_idle: all items. Hypotheses: no exception in the sequencer, no kill, no stop_sequences (Good), objections accounted rightly (Fair)."
  },
  {
   "property": "C368",
   "status": "proved",
   "theorems": [
    "Verif.PortText.C368_fanout",
    "Verif.PortText.C368_fanin",
    "Verif.PortText.C368_reached"
   ],
   "note": "Proved. The network without cycles is any state of connections with a rank that connections decrease. A text is modelled as its lines with name, port and indentation; the characters of a line are not. Calls by a user start at level 0."
  },
  {
   "property": "C369",
   "status": "partial",
   "theorems": [
    "Verif.PortText.C369_depth_fails",
    "Verif.PortText.C369_levels_fails",
    "Verif.PortText.C369_chain_partial"
   ],
   "note": "C369_depth_fails: with two or more connections the indentation of a later connection is always larger than that of the first although both have the same depth, because the shared indentation is never taken back. C369_levels_fails: with max_level 0 one shows nothing and the other a level. C369_chain_partial: right where every port has at most one connection."
  },
  {
   "property": "C370",
   "status": "proved",
   "theorems": [
    "Verif.RegName.C370_field_by_name"
   ],
   "note": "Proved for registers built by adding any fields of at least one bit."
  },
  {
   "property": "C371",
   "status": "proved",
   "theorems": [
    "Verif.RegName.C371_tells_path",
    "Verif.RegName.C371_whole"
   ],
   "note": "Proved. Slices are as add_path makes them: whole (offset and size -1) or with offset and size at least 0; paths do not contain the punctuation of the text."
  },
  {
   "property": "C372",
   "status": "proved",
   "theorems": [
    "Verif.BuiltIn.C372_selection",
    "Verif.BuiltIn.C372_runs",
    "Verif.BuiltIn.C372_raises"
   ],
   "note": "Proved. The selection and the order as stated; C372_runs: run one after the other, errors added up, nothing run without a block; C372_raises: an exception ends the run. The resources are taken not to change during the run."
  },
  {
   "property": "C373",
   "status": "partial",
   "theorems": [
    "Verif.BuiltIn.C373_shared_access_fails"
   ],
   "note": "The code violates it for every selection: the branch is commented out (C373_shared_access_fails). There is no part of the property that holds."
  },
  {
   "property": "C374",
   "status": "proved",
   "theorems": [
    "Verif.BuiltIn.C374_accepts_chip"
   ],
   "note": "Proved, for blocks whose fields all are readable and have a hard reset value and whose maps have no sub-maps (C133)."
  },
  {
   "property": "C375",
   "status": "partial",
   "theorems": [
    "Verif.BuiltIn.C375_default_reset_partial",
    "Verif.BuiltIn.C375_default_reset_fails"
   ],
   "note": "False (C375_default_reset_fails: a field cleared by reads). C375_default_reset_partial: it holds if no field is changed by being read."
  },
  {
   "property": "C376",
   "status": "proved",
   "theorems": [
    "Verif.BuiltIn.C376_finds_stuck_bits"
   ],
   "note": "Proved, for registers of at most 64 bits; the other tests are not selected."
  },
  {
   "property": "C377",
   "status": "partial",
   "theorems": [
    "Verif.Barrier.C377_create_fails"
   ],
   "note": "False for every name (C377_create_fails): a Python set is passed as the name of the event, which appends it to strings: TypeError. C378 to C380 are about the methods on an object that a subclass has given the intended attributes."
  },
  {
   "property": "C378",
   "status": "partial",
   "theorems": [
    "Verif.Barrier.C378_release_fails",
    "Verif.Barrier.C378_reset_releases_partial"
   ],
   "note": "Reaching the threshold releases nobody, since m_trigger is not awaited (C378_release_fails, for every state and every further arrivals). C378_reset_releases_partial: reset with wake-up and set_threshold do release everybody, after histories without cancel and without reset without wake-up."
  },
  {
   "property": "C379",
   "status": "partial",
   "theorems": [
    "Verif.Barrier.C379_rearm_fails"
   ],
   "note": "False in every case (C379_rearm_fails): after the threshold is reached every further process passes."
  },
  {
   "property": "C380",
   "status": "partial",
   "theorems": [
    "Verif.Barrier.C380_arrivals_partial",
    "Verif.Barrier.C380_early_fails"
   ],
   "note": "False with resets (C380_early_fails: a reset with nobody waiting leaves the event triggered). C380_arrivals_partial: without resets and changes of the threshold exactly the processes from the threshold-th on pass, and no other ever does."
  },
  {
   "property": "C381",
   "status": "proved",
   "theorems": [
    "Verif.Barrier.C381_stays_open",
    "Verif.Barrier.C381_automatic"
   ],
   "note": "Proved for every threshold, every history of arrivals that reaches it and every later history without reset and changes of settings."
  },
  {
   "property": "C382",
   "status": "partial",
   "theorems": [
    "Verif.Barrier.C382_number_partial",
    "Verif.Barrier.C382_number_fails"
   ],
   "note": "Proved for histories of arrivals below the threshold. Violated in general: processes that have passed stay counted, and cancel replaces the count by that of the event minus one (C382_number_fails)."
  },
  {
   "property": "C383",
   "status": "proved",
   "theorems": [
    "Verif.CbRun.C383_once",
    "Verif.CbRun.C383_complete",
    "Verif.CbRun.C383_switched_off"
   ],
   "note": "Proved for objects with a callback of their own, all histories and all behaviours of the methods that do not add in front of the queue of the object being run."
  },
  {
   "property": "C384",
   "status": "partial",
   "theorems": [
    "Verif.CbRun.C384_prepend_fails",
    "Verif.CbRun.C384_forever_fails"
   ],
   "note": "Violated: for every object, queue and class, a first callback that adds a new one in front is run twice in a row (C384_prepend_fails), and if it does so each time the run never ends (C384_forever_fails). What holds without such additions is C383."
  },
  {
   "property": "C385",
   "status": "proved",
   "theorems": [
    "Verif.MsgMacros.C385_methods",
    "Verif.MsgMacros.C385_default"
   ],
   "note": "Proved for every history of settings."
  },
  {
   "property": "C386",
   "status": "partial",
   "theorems": [
    "Verif.MsgMacros.C386_root_decides_partial",
    "Verif.MsgMacros.C386_same_limit_partial",
    "Verif.MsgMacros.C386_own_limit_fails",
    "Verif.MsgMacros.C386_levels_fails",
    "Verif.MsgMacros.C386_hierarchy_partial"
   ],
   "note": "Violated: the macros ask the root (uvm_globals.py 89-91) and then report unchecked, so the limit of the component has no effect (C386_own_limit_fails, general; C386_levels_fails, witness). Proved: the limit of the root decides, everything else comes from the component; the claim holds where both limits agree, and so in every hierarchy whose verbosities were only set by the command line and set_report_verbosity_level_hier at the root."
  },
  {
   "property": "C387",
   "status": "proved",
   "theorems": [
    "Verif.MsgMacros.C387_elsewhere",
    "Verif.MsgMacros.C387_minus_one"
   ],
   "note": "Proved for every history of settings of the root."
  },
  {
   "property": "C388",
   "status": "proved",
   "theorems": [
    "Verif.MsgMacros.C388_never_hidden"
   ],
   "note": "Proved; UVM_NONE is 0, so the limits of the root are not negative unless set to a negative number on purpose."
  },
  {
   "property": "C389",
   "status": "proved",
   "theorems": [
    "Verif.ImpDecl.C389_routed",
    "Verif.ImpDecl.C389_only"
   ],
   "note": "Proved for every acyclic bound network, every choice of components and suffixes and every sequence of writes: with the declared methods present and not raising, each method receives exactly the values written to the ports that lead to its implementation, once each and in order, and every write returns (C389_routed); whatever is missing or raises, nothing else is ever received (C389_only). Subscribers that write to ports themselves are not modelled here."
  },
  {
   "property": "C390",
   "status": "partial",
   "theorems": [
    "Verif.ImpDecl.C390_before_partial",
    "Verif.ImpDecl.C390_rest_fails"
   ],
   "note": "Violated: the broadcast loop does not catch exceptions, so subscribers behind the failing one get nothing; if the first lacks its method, no write ever reaches anyone (C390_rest_fails, every network). Proved part: those before it receive the value in connection order and the writer gets the exception (C390_before_partial)."
  },
  {
   "property": "C391",
   "status": "proved",
   "theorems": [
    "Verif.SqrIds.C391_never_another",
    "Verif.SqrIds.C391_routed",
    "Verif.SqrIds.C391_unknown"
   ],
   "note": "Proved for any number of sequences and sequencers and every history: responses with the id of a sent item are never given to another sequence or at another sequencer (C391_never_another); while the sequence is in use at the sequencer they are given to it (C391_routed; the status is read off the history by Spec/SqrIds.status); without use the item has no id and a response is fatal (C391_unknown). Arbitration at one sequencer is C35-C36, C67."
  },
  {
   "property": "C392",
   "status": "partial",
   "theorems": [
    "Verif.SqrIds.C392_own_sequencer_partial",
    "Verif.SqrIds.C392_other_sequencer_fails"
   ],
   "note": "Violated: the end of a sequence takes it only out of the table of the sequencer it was started on; at every other sequencer it used it stays for ever, so late responses are given to it, even in a later run (C392_other_sequencer_fails, after every history). Proved part: at the sequencer where it ended, responses are reported as lost for ever (C392_own_sequencer_partial)."
  },
  {
   "property": "C393",
   "status": "proved",
   "theorems": [
    "Verif.RspRoute.C393_identifies",
    "Verif.RspRoute.C393_arrives"
   ],
   "note": "Proved on Model/RspRoute.lean (over the id tables of Model/SqrIds.lean) for any number of sequences, sequencers and items and every history: C393_identifies, C393_arrives. Users' own set_transaction_id and overflowing response queues (C34) are outside."
  },
  {
   "property": "C394",
   "status": "partial",
   "theorems": [
    "Verif.RspRoute.C394_sent_again_fails",
    "Verif.RspRoute.C394_new_sender_partial"
   ],
   "note": "Violated: send_request numbers an item only if it has no transaction id, so an item sent again keeps its old one, which may be that of another item of its new sender (C394_sent_again_fails, after every history where the numbers meet). Proved part: the response goes to the last sender, with the old transaction id (C394_new_sender_partial)."
  },
  {
   "property": "C395",
   "status": "proved",
   "theorems": [
    "Verif.RspSystem.C395_right_answer"
   ],
   "note": "Composition of RspRoute (C393) with one response queue per sequence (C34). Sequences that use a response handler are not modelled; an item object sent again is C394."
  },
  {
   "property": "C396",
   "status": "proved",
   "theorems": [
    "Verif.RspSystem.C396_at_most_once",
    "Verif.RspSystem.C396_available"
   ],
   "note": "Same composed model as C395. The hypothesis that the response was stored excludes overflow of the queue (C34)."
  }
 ]
}