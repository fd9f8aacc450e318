{"id": "C01", "title": "UVMQueue is a list with guarded indices", "statement": "For every sequence of push_back, push_front, pop_back, pop_front, insert, delete, get, size and find calls, a UVMQueue holds exactly the elements a plain double-ended list would hold: pushes and pops act at the named end, insert and delete act at an index strictly inside the queue and otherwise leave the contents unchanged, get returns the element at an in-range index, and size is the number of elements.", "quantifier": "every initial content, every element type, every (possibly negative or out of range) index and every finite history of calls", "why_tests_cant": "The index space and the history of calls are unbounded; tests fix a few indices and a few call orders.", "anchors": ["src/uvm/base/uvm_queue.py: UVMQueue.get/insert/delete/push_back/push_front/pop_back/pop_front/size/find_with"]}
{"id": "C02", "title": "UVMPool is a finite map in insertion order", "statement": "After any history of add, get, delete and item assignment, exists(k) and get(k) report the last value stored under k since it was last deleted, num() is the number of distinct live keys, re-adding a key keeps its position, and first()/next() enumerate every live key exactly once in insertion order (last()/prev() in the reverse order).", "quantifier": "every key and value, every finite history of pool operations, every number of keys", "why_tests_cant": "Holds for all histories and all key sets; a test inspects a handful of keys in one order.", "anchors": ["src/uvm/base/uvm_pool.py: UVMPool.add/get/delete/exists/num/first/next/last/prev"]}
{"id": "C03", "title": "UVMMailbox is a bounded FIFO under every schedule", "statement": "However the coroutines calling put, get, peek, try_put, try_get and try_peek are interleaved, the items received by completed gets, followed by the items still stored, are exactly the items of completed puts in completion order; nothing is lost, duplicated or reordered, and the number of stored items never exceeds a positive bound.", "quantifier": "every number of producer and consumer coroutines, every bound, every interleaving the cooperative scheduler can produce", "why_tests_cant": "The set of interleavings is unbounded; a test observes one schedule.", "anchors": ["src/uvm/base/uvm_mailbox.py: UVMMailbox.put/get/peek/try_put/try_get/try_peek/can_put/can_get"]}
{"id": "C04", "title": "UVMMailbox has no lost wake-ups", "statement": "At every point of every schedule, a coroutine left suspended in get() with no wake-up pending implies the mailbox is empty, and one left suspended in put() with no wake-up pending implies the mailbox is full.", "quantifier": "every set of coroutines and every interleaving", "why_tests_cant": "A lost wake-up needs a particular interleaving; tests cannot enumerate schedules.", "anchors": ["src/uvm/base/uvm_mailbox.py: UVMMailbox.put/get, read_event, write_event"]}
{"id": "C05", "title": "The scope stack renders the path of its open scopes", "statement": "For every history of down, down_element, up, up_element, set_arg and unset_arg calls, get() returns the open scopes in order joined by '.', without a '.' in front of index-like elements ('[', '(' or '{'), followed by the current argument.", "quantifier": "every history of scope operations and every scope name", "why_tests_cant": "Depth and names are unbounded.", "anchors": ["src/uvm/base/uvm_scope_stack.py: UVMScopeStack.down/down_element/up/up_element/get/set_arg/unset_arg"]}
{"id": "C06", "title": "The spell checker's distance is the edit distance", "statement": "For all non-empty strings s and t, the distance the spell checker computes is the least number of single-character insertions, deletions and substitutions turning s into t; it is symmetric and is zero exactly when s = t; for an empty argument it is -1.", "quantifier": "all pairs of strings of any length", "why_tests_cant": "Quantifies over all strings and all edit scripts; a test checks a few words.", "anchors": ["src/uvm/base/uvm_spell_chkr.py: UVMSpellChkr.levenshtein_distance/minimum/check"]}
{"id": "C07", "title": "Packing fields and unpacking them returns the fields", "statement": "For every list of (value, size) fields with size at least 1 and value < 2**size, packing them in order with pack_field_int/pack_field and then unpacking with the same sizes in the same order returns the same values, whatever the big_endian setting, and the packed size is the sum of the sizes.", "quantifier": "every number of fields, every positive size, every value that fits, both bit orders, any previously packed content", "why_tests_cant": "Unbounded lists of arbitrary-width integers.", "anchors": ["src/uvm/base/uvm_packer.py: UVMPacker.pack_field/pack_field_int/unpack_field/unpack_field_int/get_packed_size/reset"]}
{"id": "C08", "title": "Packing a string and unpacking it returns the string", "statement": "For every string without NUL characters whose characters fit in a byte, packing it null-terminated and unpacking returns the same string and leaves the unpack position right after it.", "quantifier": "every string, both bit orders, any surrounding fields", "why_tests_cant": "All strings of all lengths at all bit offsets.", "anchors": ["src/uvm/base/uvm_packer.py: UVMPacker.pack_string/unpack_string"]}
{"id": "C09", "title": "Unpacking past the end is refused", "statement": "Unpacking more bits than remain never moves the unpack position, reports an error and returns 0; no sequence of unpack calls moves the position past the packed size.", "quantifier": "every packer content and every sequence of unpack sizes", "why_tests_cant": "Every history and size; tests exercise one overflow.", "anchors": ["src/uvm/base/uvm_packer.py: UVMPacker.enough_bits/unpack_field_int"]}
{"id": "C10", "title": "Byte and bit-stream exchange of packed data", "statement": "get_bytes and get_ints return the packed bits cut into 8/32-bit elements so that the elements recombine to the packed bits (mirrored element by element in big-endian order); packing a list of bytes or ints into a reset packer and unpacking it returns the list; get_bit(i) is bit i of the packed bits.", "quantifier": "every packed content of every size", "why_tests_cant": "All sizes, including those not a multiple of the element width.", "anchors": ["src/uvm/base/uvm_packer.py: UVMPacker.get_bytes/get_ints/put_bits/put_bytes/get_bit/unpack_bytes"]}
{"id": "C11", "title": "Bit helpers change only the addressed bit", "statement": "sv.set_bit(v, i, b) changes bit i to b and no other bit, sv.get_bit reads exactly that bit, sv.clear_bit clears it, and a vector of n ones has exactly the n low bits set.", "quantifier": "all natural numbers v and all bit positions", "why_tests_cant": "Unbounded integers and positions.", "anchors": ["src/uvm/base/sv.py: sv.set_bit/get_bit/clear_bit/get_vector_of_ones, clog2"]}
{"id": "C12", "title": "Register field write policies", "statement": "For every access policy and every current and written value within the field, the predicted mirrored value after a front-door write through a read/write map is the value the policy's documented definition gives bit by bit (for example W1C clears exactly the bits written as one, WS sets all bits, RO keeps the value), and it always fits the field; a read-only map leaves the field as only reads can.", "quantifier": "all 25 predefined access policies, every field width, all current and written values", "why_tests_cant": "The table is over all widths and values, not a sample.", "anchors": ["src/uvm/reg/uvm_reg_field.py: UVMRegField.XpredictX/do_predict/set_access"]}
{"id": "C13", "title": "Set then update makes the hardware hold the desired value", "statement": "For every policy for which a single write can reach the desired value, writing the value chosen for an update, starting from the mirrored value, results in the desired value; and a field that needs no update is already at its desired value.", "quantifier": "all access policies, widths, mirrored values and requested values", "why_tests_cant": "Relates three functions over all values.", "anchors": ["src/uvm/reg/uvm_reg_field.py: UVMRegField.set/XupdateX/XpredictX/needs_update"]}
{"id": "C14", "title": "Desired and mirrored values always fit the field", "statement": "After any history of configure, set, reset, set_reset, predict, and front-door reads and writes, get(), get_mirrored_value() and get_reset() are smaller than 2**n_bits provided the values passed to reset values fit.", "quantifier": "every history of field operations, every width", "why_tests_cant": "An invariant over unbounded histories.", "anchors": ["src/uvm/reg/uvm_reg_field.py: UVMRegField.set/reset/set_reset/predict/do_predict/configure"]}
{"id": "C15", "title": "Reset restores the last configured reset value", "statement": "After reset(kind), a field that has a reset value of that kind has desired and mirrored value equal to it, needs no update, and becomes writable again if it is write-once; a field without a reset of that kind is unchanged.", "quantifier": "every field history, every reset kind", "why_tests_cant": "Ranges over all histories and kinds.", "anchors": ["src/uvm/reg/uvm_reg_field.py: UVMRegField.reset/get_reset/has_reset/set_reset"]}
{"id": "C16", "title": "A register is the disjoint union of its fields", "statement": "For a register whose fields do not overlap, get() after set(v) of plain read/write fields returns v restricted to the bits covered by fields; each field sees exactly its slice; fields are always kept ordered by bit position; overlapping fields are reported.", "quantifier": "every list of fields, every order of adding them, every value", "why_tests_cant": "Unbounded number of fields and values.", "anchors": ["src/uvm/reg/uvm_reg.py: UVMReg.add_field/set/get/get_mirrored_value/do_predict"]}
{"id": "C17", "title": "Bus accesses split and reassemble register values", "statement": "A front-door write of an n-byte register over a bus of w bytes issues ceil(n/w) bus writes whose data, placed at the same positions from which they were cut, recombine to the written value; a front-door read of the same locations returns that value.", "quantifier": "every register width, every bus width, every value", "why_tests_cant": "All width combinations and values.", "anchors": ["src/uvm/reg/uvm_reg_map.py: UVMRegMap.do_bus_write/do_bus_read"]}
{"id": "C18", "title": "Physical addresses of a register", "statement": "The physical addresses of an n-byte item at an offset in a map whose bus is w bytes wide are ceil(n/w) consecutive addressing units starting at base+offset, ascending for little-endian, descending for big-endian, constant for FIFO maps; the big-endian list is the reverse of the little-endian one; nesting a single-word item in parent maps with wider or equal data width translates by the sum of the submap offsets.", "quantifier": "every base, offset, width, endianness and depth of map nesting", "why_tests_cant": "All widths, offsets, nestings.", "anchors": ["src/uvm/reg/uvm_reg_map.py: UVMRegMap.get_physical_addresses/get_base_addr/get_root_map"]}
{"id": "C19", "title": "Address map lookups find the register mapped there", "statement": "After address map initialisation, get_reg_by_offset(a) returns a register mapped at a; when two ordinary registers claim the same address the earlier one keeps it and a warning is given; a read-only and a write-only register may share an address, and the lookup for reads and writes then returns the respective one.", "quantifier": "every set of registers, rights and offsets in a map", "why_tests_cant": "All combinations of offsets and rights.", "anchors": ["src/uvm/reg/uvm_reg_map.py: UVMRegMap.Xinit_address_mapX/get_reg_by_offset/add_reg"]}
{"id": "C20", "title": "Factory override resolution", "statement": "For every set of registered overrides, the type created for a request is found by following overrides until none applies: an applicable instance override (the first registered match) takes precedence over a type override, the result is itself resolved again, and resolution always terminates, also when the overrides form a cycle.", "quantifier": "every set of type and instance overrides, every requested type and instance path", "why_tests_cant": "Override graphs are arbitrary; tests use two or three types.", "anchors": ["src/uvm/base/uvm_factory.py: UVMDefaultFactory.find_override_by_type/set_type_override_by_type/set_inst_override_by_type"]}
{"id": "C21", "title": "Later factory type overrides replace earlier ones", "statement": "Setting a type override for a type that already has one replaces it when replace is given and leaves it when replace is 0; setting an override of a type by itself changes nothing.", "quantifier": "every history of set_type_override calls", "why_tests_cant": "All histories.", "anchors": ["src/uvm/base/uvm_factory.py: UVMDefaultFactory.set_type_override_by_type/set_type_override_by_name"]}
{"id": "C22", "title": "Factory registration is idempotent and name-stable", "statement": "Registering a type twice keeps the first registration; creation by a name that was registered resolves to the registered type; creation by an unknown name yields no object.", "quantifier": "every history of registrations and every name", "why_tests_cant": "All histories and names.", "anchors": ["src/uvm/base/uvm_factory.py: UVMDefaultFactory.register/create_object_by_name/find_override_by_name"]}
{"id": "C23", "title": "Resource lookup returns the highest precedence match", "statement": "Among the resources with a given name whose scope pattern matches and whose type matches, a lookup returns one of maximal precedence, and among those of maximal precedence the earliest in the resource queue.", "quantifier": "every queue of resources, scopes, precedences and types", "why_tests_cant": "All queues.", "anchors": ["src/uvm/base/uvm_resource.py: UVMResource.get_highest_precedence, UVMResourcePool.lookup_name/get_by_name"]}
{"id": "C24", "title": "Last config_db set wins at equal precedence", "statement": "After any sequence of config_db set calls outside the build phase, a get whose instance path and field match several of them returns the value of the last matching set.", "quantifier": "every history of sets, all contexts, instance patterns and field names", "why_tests_cant": "All histories of sets.", "anchors": ["src/uvm/base/uvm_config_db.py: UVMConfigDb.set/get", "src/uvm/base/uvm_resource.py: UVMResourcePool.set/set_priority_name/set_priority_queue"]}
{"id": "C25", "title": "Higher-level config_db sets win during build", "statement": "During the build phase a set from a component closer to the root overrides a matching set from a deeper component, independently of the order in which they were made.", "quantifier": "every history of sets during build and every hierarchy depth", "why_tests_cant": "All orders and depths.", "anchors": ["src/uvm/base/uvm_config_db.py: UVMConfigDb.set", "src/uvm/base/uvm_resource.py: UVMResource.get_highest_precedence"]}
{"id": "C26", "title": "Resource writes respect read-only and records change only", "statement": "Writing a read-only resource leaves its value and modified flag unchanged; writing an equal value leaves the modified flag unchanged; any other write makes read return the new value and marks it modified.", "quantifier": "every history of writes, reads and read-only changes", "why_tests_cant": "All histories.", "anchors": ["src/uvm/base/uvm_resource.py: UVMResource.read/write/set_read_only"]}
{"id": "C27", "title": "Objection totals are the sums of outstanding objections below", "statement": "Without pending drains, in every component tree and after every history of raise and drop calls, the total objection count of a component equals the sum of the source counts of that component and all its descendants, the top's total is the sum over all components, and it is zero exactly when every raise has been matched by drops.", "quantifier": "every component tree, every history of raises and drops with any counts", "why_tests_cant": "All trees and histories.", "anchors": ["src/uvm/base/uvm_objection.py: UVMObjection.raise_objection/m_raise/drop_objection/m_drop/m_propagate/get_objection_count/get_objection_total"]}
{"id": "C28", "title": "Dropping more than was raised is rejected", "statement": "A drop whose count exceeds the outstanding count of the object is reported as fatal (unless the objection was cleared) and changes no count; no history of raises and drops with non-negative counts makes a count negative.", "quantifier": "every history and every non-negative count", "why_tests_cant": "All histories.", "anchors": ["src/uvm/base/uvm_objection.py: UVMObjection.m_drop"]}
{"id": "C29", "title": "Re-raising during a drain propagates only the difference", "statement": "If an object whose objections were all dropped raises again before its pending drain was propagated, its ancestors' totals change by exactly the difference between the new count and the pending count, and the pending drain is cancelled.", "quantifier": "every tree, pending drain and raise count", "why_tests_cant": "Needs every interleaving of raises with scheduled drains.", "anchors": ["src/uvm/base/uvm_objection.py: UVMObjection.m_raise, m_scheduled_list, m_forked_list"]}
{"id": "C30", "title": "Every scheduled drain is eventually processed", "statement": "Whenever an object's total reaches zero, its drain is eventually executed and the drop propagated to the parent without any further call by the user.", "quantifier": "every history and schedule", "why_tests_cant": "Requires reasoning about the background process in every schedule.", "anchors": ["src/uvm/base/uvm_objection.py: UVMObjection.m_execute_scheduled_forks/m_drop"]}
{"id": "C31", "title": "Sequencer arbitration picks only eligible requests, first-come first-served in FIFO mode", "statement": "The arbiter never selects a request whose sequence is blocked by another sequence's lock or is not relevant, in any mode; in FIFO mode it selects the oldest eligible request and in random mode some eligible request, and in these modes it selects nothing only if no eligible request exists.", "quantifier": "every queue of requests, every set of locks, every relevance predicate, every arbitration mode", "why_tests_cant": "All queues and lock sets.", "anchors": ["src/uvm/seq/uvm_sequencer_base.py: UVMSequencerBase.m_choose_next_request/is_blocked/set_arbitration"]}
{"id": "C32", "title": "Locks exclude all but the owner and its descendants", "statement": "A sequence is blocked exactly when some lock is held by a sequence that is neither itself nor one of its ancestors.", "quantifier": "every sequence tree and set of lock holders", "why_tests_cant": "All trees and lock sets.", "anchors": ["src/uvm/seq/uvm_sequencer_base.py: UVMSequencerBase.is_blocked/is_child/is_grabbed/has_lock"]}
{"id": "C33", "title": "Killing a sequence removes exactly its requests and locks", "statement": "Removing a sequence from the queues removes every pending request and every lock of the sequence and its descendants and no others, preserving the order of the rest.", "quantifier": "every queue content and sequence tree", "why_tests_cant": "All queue contents.", "anchors": ["src/uvm/seq/uvm_sequencer_base.py: UVMSequencerBase.remove_sequence_from_queues"]}
{"id": "C34", "title": "Sequence response queue", "statement": "Responses are stored in arrival order up to the response queue depth (unbounded for depth -1), excess responses are dropped and reported; get without id returns the oldest; get with a transaction id returns the oldest response with this id and leaves the others in order.", "quantifier": "every history of responses and gets, every depth", "why_tests_cant": "All histories.", "anchors": ["src/uvm/seq/uvm_sequence_base.py: UVMSequenceBase.put_base_response/get_base_response/put_response/clear_response_queue"]}
{"id": "C35", "title": "Request history buffer and transaction ids", "statement": "The sequencer's last-request buffer holds the most recent min(n, limit) requests, newest first; automatically assigned transaction ids are distinct and increasing within a sequence; the number of sent requests counts the successful sends.", "quantifier": "every history of send_request calls and buffer limits", "why_tests_cant": "All histories.", "anchors": ["src/uvm/seq/uvm_sequencer_param_base.py: UVMSequencerParamBase.send_request/m_last_req_push_front/set_num_last_reqs/get_num_reqs_sent"]}
{"id": "C36", "title": "Driver handshake", "statement": "For every interleaving of get_next_item, peek, get, item_done and send_request, the driver sees the items of granted sequences one at a time in grant order; item_done without an outstanding item is fatal; repeated peeks return the same item until item_done.", "quantifier": "every history of driver and sequence calls", "why_tests_cant": "All histories and interleavings.", "anchors": ["src/uvm/seq/uvm_sequencer.py: UVMSequencer.get_next_item/item_done/get/peek"]}
{"id": "C37", "title": "Report action, verbosity and file lookup precedence", "statement": "For every history of settings, the action and verbosity used for a (severity, id) pair is the last one set for the pair, else the last one set for the id, else the last one set for the severity (or the default); a report is passed on exactly when its verbosity is within the limit, with the action so found.", "quantifier": "every history of set calls, every severity and id", "why_tests_cant": "All histories.", "anchors": ["src/uvm/base/uvm_report_handler.py: UVMReportHandler.get_action/get_verbosity_level/get_file_handle/set_*"]}
{"id": "C38", "title": "Severity overrides", "statement": "A severity-id override applies to messages with that id and severity, a severity override to other ids; an overridden severity is applied once (not chained), and the message's action and file are those of the new severity.", "quantifier": "every history of overrides and messages", "why_tests_cant": "All histories.", "anchors": ["src/uvm/base/uvm_report_handler.py: UVMReportHandler.process_report_message/set_severity_override/set_severity_id_override"]}
{"id": "C39", "title": "Report counts and quit count", "statement": "After any sequence of processed messages the severity and id counts equal the number of messages executed with that severity and id; with a positive maximum quit count the simulation is ended by the first counted message that makes the count reach the maximum, and never because of the quit count when the maximum is 0.", "quantifier": "every sequence of messages and server settings", "why_tests_cant": "All message sequences.", "anchors": ["src/uvm/base/uvm_report_server.py: UVMReportServer.process_report_message/execute_report_message/incr_severity_count/set_max_quit_count/is_quit_count_reached"]}
{"id": "C40", "title": "Report catchers", "statement": "A message caught by any enabled catcher is not executed and later catchers do not see it; a message no catcher catches is executed with the modifications made by the catchers in order; disabled catchers have no effect; caught and demoted counters count exactly the caught and demoted messages.", "quantifier": "every list of catchers, every catcher behaviour, every message sequence", "why_tests_cant": "Catcher behaviours are arbitrary functions.", "anchors": ["src/uvm/base/uvm_report_catcher.py: UVMReportCatcher.process_all_report_catchers/process_report_catcher"]}
{"id": "C41", "title": "Callback queues", "statement": "For every history of callback add calls, the callbacks run for an object are, in queue order, the enabled ones of the queue kept for it, each at most once and only if it was added; the first/next and last/prev iterations walk this queue in order and in reverse.", "quantifier": "every history of add/delete for type-wide and instance callbacks", "why_tests_cant": "All histories.", "anchors": ["src/uvm/base/uvm_callback.py: UVMCallbacks.add/delete/get_first/get_next"]}
{"id": "C42", "title": "TLM FIFO order and broadcast", "statement": "A TLM FIFO delivers transactions in put order, never holds more than its size, and its put_ap observers see every transaction put exactly once in order; a blocked put or get is resumed when it can proceed; an analysis FIFO accepts every write.", "quantifier": "every size and every history of blocking and non-blocking calls", "why_tests_cant": "All histories and schedules.", "anchors": ["src/uvm/tlm1/uvm_tlm_fifos.py: UVMTLMFIFO.put/get/try_put/try_get/peek/flush", "src/uvm/tlm1/uvm_analysis_port.py"]}
{"id": "C43", "title": "TLM FIFO status queries", "statement": "used() is the number of stored transactions, is_empty holds exactly when it is zero, is_full exactly when it equals a non-zero size, can_put exactly when a try_put would succeed.", "quantifier": "every size and every history", "why_tests_cant": "All sizes and fill levels.", "anchors": ["src/uvm/tlm1/uvm_tlm_fifos.py: UVMTLMFIFO.used/is_empty/is_full/can_put", "src/uvm/base/uvm_mailbox.py: UVMMailbox.num"]}
{"id": "C44", "title": "Data access policies", "statement": "get_to_lock: once read, the value never changes again; simple_lock: a set while locked changes nothing and a set while unlocked takes effect; set_before_get: reads before the first set are reported, reads after it return the last value set.", "quantifier": "every history of set, get, lock and unlock calls", "why_tests_cant": "All histories.", "anchors": ["src/uvm/dap/uvm_get_to_lock_dap.py", "src/uvm/dap/uvm_simple_lock_dap.py", "src/uvm/dap/uvm_set_before_get_dap.py"]}
{"id": "C45", "title": "In-order comparator pairs the i-th expected with the i-th actual", "statement": "After any interleaving of writes to the before and after exports, the comparator has compared exactly the first min(#before, #after) pairs position by position; matches plus mismatches equals that number and each pair is published once in order.", "quantifier": "every interleaving of arrivals and every comparison function", "why_tests_cant": "All interleavings.", "anchors": ["src/uvm/comps/uvm_in_order_comparator.py: UVMInOrderComparator.run_phase", "src/uvm/comps/uvm_algorithmic_comparator.py: UVMAlgorithmicComparator.write"]}
{"id": "C46", "title": "Command line argument queries", "statement": "get_arg_values returns, in order, the remainder of every argument starting with the given prefix and their number; get_arg_value returns the same number and the first remainder; get_arg_matches returns the arguments with the given prefix.", "quantifier": "every argument vector and every prefix", "why_tests_cant": "All argument vectors.", "anchors": ["src/uvm/base/uvm_cmdline_processor.py: UVMCmdlineProcessor.get_arg_value/get_arg_values/get_arg_matches/extract_args"]}
{"id": "C47", "title": "Component names are unique paths", "statement": "In every component tree built through the constructor, the full name of a component is the dot-joined path from the root, children of one parent have distinct names, a name is never changed, and a second child of the same name, or a child added after the build phase, is refused.", "quantifier": "every tree of components and every name", "why_tests_cant": "All trees.", "anchors": ["src/uvm/base/uvm_component.py: UVMComponent.__init__/m_add_child/m_set_full_name/lookup/get_depth/get_child"]}
{"id": "C48", "title": "Phase traversal order", "statement": "A top-down phase visits every component exactly once, parents before children; a bottom-up phase visits every component exactly once, children before parents; siblings are visited in the same order.", "quantifier": "every component tree", "why_tests_cant": "All trees.", "anchors": ["src/uvm/base/uvm_topdown_phase.py: UVMTopdownPhase.traverse", "src/uvm/base/uvm_bottomup_phase.py: UVMBottomupPhase.traverse"]}
{"id": "C49", "title": "Phase schedules", "statement": "Adding phases to a domain one after the other gives a linear order in which each phase's predecessor and successor are the neighbours; adding before/after/with another phase places it accordingly; predecessor and successor relations are always mutual.", "quantifier": "every sequence of schedule additions", "why_tests_cant": "All construction histories.", "anchors": ["src/uvm/base/uvm_phase.py: UVMPhase.add/find/is_before/is_after/get_adjacent_successor_nodes", "src/uvm/base/uvm_domain.py"]}
{"id": "C50", "title": "FIFO registers", "statement": "A FIFO register model never holds more than its capacity, returns values in the order they were written, ignores writes to a full FIFO with an error and reads of an empty one.", "quantifier": "every history of set, update, predicted writes and reads, every capacity", "why_tests_cant": "All histories.", "anchors": ["src/uvm/reg/uvm_reg_fifo.py: UVMRegFIFO.set/get/do_predict/pre_write/pre_read/update"]}
{"id": "C51", "title": "Register block enumeration", "statement": "get_registers, get_memories and get_blocks with hierarchy return every register, memory or block in the subtree exactly once; reset, needs_update and mirror of a block act on exactly those; locking a model locks every block, register and memory below and later additions are refused.", "quantifier": "every tree of blocks", "why_tests_cant": "All trees.", "anchors": ["src/uvm/reg/uvm_reg_block.py: UVMRegBlock.get_registers/get_memories/get_blocks/lock_model/reset/needs_update/add_reg"]}
{"id": "C52", "title": "Comparing integers looks at the declared width only", "statement": "Comparing two integer fields of a declared size reports a match exactly when their low size bits agree, and increments the miscompare count by one otherwise.", "quantifier": "all integers and all sizes up to 64", "why_tests_cant": "All integers and sizes.", "anchors": ["src/uvm/base/uvm_comparer.py: UVMComparer.compare_field_int/compare_field/print_msg"]}
{"id": "C53", "title": "Memory allocation regions do not overlap", "statement": "Regions reserved from a memory allocation manager lie inside the configured range and never overlap while reserved.", "quantifier": "every history of reservations", "why_tests_cant": "All histories of region reservations.", "anchors": ["src/uvm/reg/uvm_mem_mam.py: UVMMemMam.reserve_region"]}
{"id": "C54", "title": "Glob patterns match whole names", "statement": "A scope glob pattern matches a path exactly when the whole path can be obtained from the pattern by replacing each '*' with any text and each '?' with one character, other characters standing for themselves.", "quantifier": "all patterns and all strings", "why_tests_cant": "All patterns and strings.", "anchors": ["src/uvm/base/sv.py: uvm_glob_to_re/uvm_re_match", "src/uvm/base/uvm_globals.py: uvm_is_match"]}
{"id": "C55", "title": "Events", "statement": "is_on holds exactly after a trigger that was not followed by a reset; the trigger data is that of the last trigger; wait_on returns at once when the event is on and otherwise exactly after a trigger; wait_off returns at once when it is off and otherwise exactly after a reset; callbacks are kept once each in the order requested.", "quantifier": "every history of trigger, reset, cancel and wait calls", "why_tests_cant": "All histories and schedules.", "anchors": ["src/uvm/base/uvm_event.py: UVMEvent.trigger/wait_trigger/wait_on/reset/cancel"]}
{"id": "C56", "title": "String to severity and action parsing", "statement": "uvm_string_to_action returns the union of the flags named in a '|'-separated list; uvm_string_to_severity succeeds exactly on the four severity names and returns the severity named.", "quantifier": "all strings", "why_tests_cant": "All strings.", "anchors": ["src/uvm/base/uvm_globals.py: uvm_string_to_action/uvm_string_to_severity"]}
{"id": "C57", "title": "Analysis port broadcast", "statement": "Every write to an analysis port is delivered to every connected subscriber exactly once, in connection order, through any depth of port-to-export chains.", "quantifier": "every connection graph that is a tree and every sequence of writes", "why_tests_cant": "All connection trees and write sequences.", "anchors": ["src/uvm/tlm1/uvm_analysis_port.py: UVMAnalysisPort.write", "src/uvm/base/uvm_port_base.py: UVMPortBase.connect/resolve_bindings/size"]}
{"id": "C58", "title": "A checked read of a register flags exactly the differing compared bits", "statement": "Checking a value read from a register against its mirror passes if and only if the read value and the mirrored value agree on every bit that does not belong to a field whose comparison is disabled; bits outside every field are compared as zero.", "quantifier": "every reachable register layout, every mirrored state, every read value and every access map", "why_tests_cant": "The comparison mask is assembled from all fields; a test samples a few layouts and values, while a wrong mask bit only shows for one field position, policy and value at a time.", "anchors": ["src/uvm/reg/uvm_reg.py: UVMReg.do_check, UVMReg.mirror", "src/uvm/reg/uvm_reg_field.py: get_compare, get_access"]}
{"id": "C59", "title": "Memory words have disjoint address blocks and bursts round-trip", "statement": "A memory of N words mapped in a map gives word i its own block of addresses, at the memory's base plus i strides, a stride being the addressing units of one word; a burst written anywhere in the memory is read back unchanged and leaves every other address of the device alone.", "quantifier": "every memory size, word width, bus width, endianness, offset, burst position and length, value list and transaction order policy", "why_tests_cant": "All combinations of size, width, position, length and access order.", "anchors": ["src/uvm/reg/uvm_reg_map.py: UVMRegMap.Xinit_address_mapX (memory part), do_bus_write, do_bus_read"]}
{"id": "C60", "title": "Moving a register in the address map", "statement": "After set_offset on a locked model a look-up by address finds the register at its new addresses and no longer at its old ones, and the look-ups of all other registers are unchanged.", "quantifier": "every address table, register, old and new offset", "why_tests_cant": "The table is shared by all registers of the map; which entries must be removed or kept depends on the whole history of conflicts.", "anchors": ["src/uvm/reg/uvm_reg_map.py: UVMRegMap.m_set_reg_offset, get_reg_by_offset", "src/uvm/reg/uvm_reg.py: UVMReg.set_offset"]}
{"id": "C61", "title": "Sorting resources by precedence", "statement": "sort_by_precedence returns the same resources, highest precedence first, and keeps the order of resources of equal precedence.", "quantifier": "every queue of resources with any precedences", "why_tests_cant": "A sort is right only if it is right for every order and multiplicity of the precedences.", "anchors": ["src/uvm/base/uvm_resource.py: UVMResourcePool.sort_by_precedence"]}
{"id": "C62", "title": "Resource database by name", "statement": "After any history of UVMResourceDb.set calls, read_by_name gives the value of the first set of that name whose scope matches, and fails if there is none; write_by_name succeeds exactly if such a resource exists, the value is then read back in the same scope, and other names are not affected.", "quantifier": "every history of sets, every scope, name and value", "why_tests_cant": "Which of many overlapping scopes is found depends on the whole history.", "anchors": ["src/uvm/base/uvm_resource_db.py: UVMResourceDb.set, read_by_name, write_by_name", "src/uvm/base/uvm_resource.py: UVMResourcePool.set, get_by_name"]}
{"id": "C63", "title": "Resource access records", "statement": "With auditing on, the access record of an accessor counts exactly its reads and those of its writes that changed the value; with auditing off nothing is recorded.", "quantifier": "every history of reads, writes and write-protection changes", "why_tests_cant": "The counts must be right after every interleaving of accessors.", "anchors": ["src/uvm/base/uvm_resource.py: UVMResource.record_read_access, record_write_access, read, write"]}
{"id": "C64", "title": "Drain times", "statement": "set_drain_time(obj, t) makes every later drain of obj wait t before the drop is passed on, and changes the drain time of no other object; without an object it applies to the root.", "quantifier": "every object and time, every table of earlier drain times", "why_tests_cant": "The setting must not disturb any other object's setting, whatever was set before.", "anchors": ["src/uvm/base/uvm_objection.py: UVMObjection.set_drain_time, m_forked_drain"]}
{"id": "C65", "title": "Clearing an objection", "statement": "clear() sets all counts of the objection to zero and cancels all its pending drains, in every state, without touching other objections.", "quantifier": "every state of the objection, of its drains and of the shared list", "why_tests_cant": "The drains can be in any stage and the list is shared by all objections.", "anchors": ["src/uvm/base/uvm_objection.py: UVMObjection.clear"]}
{"id": "C66", "title": "stop_sequences leaves a usable sequencer", "statement": "After stop_sequences no request is outstanding and later calls of the driver and of sequences behave as on a fresh sequencer.", "quantifier": "every state in which stop_sequences is called and every later history", "why_tests_cant": "The flags left behind only matter for later calls.", "anchors": ["src/uvm/seq/uvm_sequencer.py: UVMSequencer.stop_sequences/get_next_item"]}
{"id": "C67", "title": "Responses reach the sequence that sent the request", "statement": "put_response with the sequence id of an item sent earlier goes to the sequence that sent it as long as that sequence has not exited, and never to another sequence, however sequences are started, restarted and exit; an unassigned id is dropped, id -1 is fatal.", "quantifier": "every history of sequencer calls, every sent item", "why_tests_cant": "All histories of starts, restarts and exits.", "anchors": ["src/uvm/seq/uvm_sequencer_param_base.py: put_response", "src/uvm/seq/uvm_sequencer_base.py: m_register_sequence/m_unregister_sequence/m_sequence_exiting"]}
{"id": "C68", "title": "Grants are not lost", "statement": "Whenever arbitration has selected a request whose coroutine is still waiting in wait_for_grant, that coroutine has been woken and obtains the grant when it runs next.", "quantifier": "every history and interleaving of sequences and driver", "why_tests_cant": "A lost wake-up shows only under particular interleavings.", "anchors": ["src/uvm/seq/uvm_sequencer_base.py: wait_for_grant/m_wait_for_arbitration_completed/m_update_lists"]}
{"id": "C69", "title": "Event waiter count", "statement": "get_num_waiters of an event is the number of processes currently suspended in one of its wait calls.", "quantifier": "every history of trigger, reset, cancel and wait calls and every schedule of the waiting processes", "why_tests_cant": "All histories and schedules.", "anchors": ["src/uvm/base/uvm_event.py: UVMEventBase.get_num_waiters/wait_trigger/wait_off/reset, UVMEvent.trigger"]}
{"id": "C70", "title": "Argument lists", "statement": "get_args returns the non-empty command line arguments in order.", "quantifier": "every command line", "why_tests_cant": "Tests use a handful of arguments; the claim is about every argument list and every spelling.", "anchors": ["src/uvm/base/uvm_cmdline_processor.py:UVMCmdlineProcessor.extract_args", "src/uvm/base/uvm_cmdline_processor.py:UVMCmdlineProcessor.get_plusargs", "src/uvm/base/uvm_cmdline_processor.py:UVMCmdlineProcessor.get_uvm_args"]}
{"id": "C71", "title": "Report settings from the command line", "statement": "Every well-formed +uvm_set_action=, +uvm_set_severity= and +uvm_set_verbosity= setting takes effect, in order, on exactly the components its pattern matches and for exactly the severities and ids it names; a malformed setting is reported and has no effect.", "quantifier": "every list of settings, well-formed or not, every component", "why_tests_cant": "There are unboundedly many settings and their combinations; a malformed one may affect those after it.", "anchors": ["src/uvm/base/uvm_component.py:UVMComponent.m_set_cl_action", "src/uvm/base/uvm_component.py:UVMComponent.m_set_cl_sev", "src/uvm/base/uvm_component.py:UVMComponent.m_set_cl_verb"]}
{"id": "C72", "title": "Strings as bit vectors", "statement": "uvm_string_to_bits(s) is the number whose base-256 digits, most significant first, are the characters of s.", "quantifier": "every string", "why_tests_cant": "Strings are unbounded; short ones behave differently from long ones.", "anchors": ["src/uvm/base/uvm_globals.py:uvm_string_to_bits"]}
{"id": "C73", "title": "copy and clone make deep copies of the registered fields", "statement": "dst.copy(src) gives every field registered for copying the source's value, sub-objects being copied into new objects; it changes nothing else in dst and no other object, and leaves no state behind that affects the next copy; src.clone() does this into a new object.", "quantifier": "every object graph, every set of registered fields and masks, every history of earlier copies", "why_tests_cant": "The object graphs and the state left by earlier copies are unbounded; aliasing only shows for particular shapes.", "anchors": ["src/uvm/base/uvm_object.py: UVMObject.copy, UVMObject.clone", "src/uvm/macros/uvm_object_defines.py: _m_uvm_field_automation (UVM_COPY)"]}
{"id": "C74", "title": "compare decides structural equality of the registered fields", "statement": "lhs.compare(rhs) returns True exactly when all fields registered for comparison are structurally equal, in either direction, and never raises; an object compares equal to itself.", "quantifier": "every pair of object graphs, every set of registered fields, every history of earlier comparisons", "why_tests_cant": "Graph shapes and histories are unbounded.", "anchors": ["src/uvm/base/uvm_object.py: UVMObject.compare", "src/uvm/base/uvm_comparer.py: UVMComparer.compare_object", "src/uvm/macros/uvm_object_defines.py: _m_uvm_field_automation (UVM_COMPARE)"]}
{"id": "C75", "title": "A clone compares equal to its original", "statement": "orig.compare(orig.clone()) and orig.clone().compare(orig) return True.", "quantifier": "every object graph whose fields are registered both for copying and comparing", "why_tests_cant": "Object graphs are unbounded; sharing of sub-objects matters.", "anchors": ["src/uvm/base/uvm_object.py: UVMObject.clone, UVMObject.compare"]}
{"id": "C76", "title": "Registered fields of a class are its own and its base classes'", "statement": "An automated operation on an object processes exactly the fields registered for its class and its base classes, each once, base class fields first, with the flags given at registration; registering fields for one class never changes another.", "quantifier": "every class hierarchy and every order of registration calls", "why_tests_cant": "Hierarchies and registration orders are unbounded.", "anchors": ["src/uvm/macros/uvm_object_defines.py: uvm_field_utils_start, uvm_field_val, uvm_object_utils_begin"]}
{"id": "C77", "title": "find_all returns every matching component once", "statement": "uvm_top.find_all(pattern, comps, comp) appends exactly the components at or below comp whose full name matches, each once, and changes nothing in the hierarchy.", "quantifier": "every component tree, every starting component and every pattern", "why_tests_cant": "All trees.", "anchors": ["src/uvm/base/uvm_root.py: UVMRoot.find_all, m_find_all_recurse", "src/uvm/base/uvm_component.py: get_first_child, get_next_child, has_next_child"]}
{"id": "C78", "title": "Accesses to one register never overlap", "statement": "When several coroutines write, read or mirror the same register, an access starts on the bus only after every access that started earlier has ended; when no access is in progress, whoever asks (or has been waiting) gets in, in the order they asked; the end of an access always frees the register.", "quantifier": "every schedule of any number of coroutines, including refused, nested and cancelled accesses and resets", "why_tests_cant": "The interleavings are unbounded and an overlap shows only in a few of them.", "anchors": ["src/uvm/reg/uvm_reg.py: UVMReg.XatomicX, write, read, mirror, reset, do_write", "src/uvm/base/uvm_mailbox.py: UVMMailbox"]}
{"id": "C79", "title": "Register write, read, update and mirror do what is documented", "statement": "reg.write(v) writes the device once with v cut to the register's width and reports the device's status; reg.read() reads it once and returns its data and status; with automatic prediction the mirror afterwards is what the documented policies say, without it the mirror is untouched; without a map nothing is accessed. update() writes exactly if some field needs it, and after a set of the whole register the mirror is then the desired value.", "quantifier": "every register, value, device, map rights and prediction setting", "why_tests_cant": "All registers, values and device behaviours.", "anchors": ["src/uvm/reg/uvm_reg.py: UVMReg.write, read, update, mirror, do_write, do_read, Xcheck_accessX"]}
{"id": "C80", "title": "Access hooks and callbacks are each called once and may change or refuse the access", "statement": "During a register access the pre and post methods and callbacks of every field and of the register are each called exactly once, in the documented order; what the pre-write hooks leave in a field is what is written there; a hook that sets the status to not-OK stops the access before it reaches the device or the mirror; what post-read hooks leave is what the caller gets.", "quantifier": "every register, every number of fields and callbacks, every behaviour of the hooks", "why_tests_cant": "Numbers and behaviours of callbacks are unbounded.", "anchors": ["src/uvm/reg/uvm_reg.py: UVMReg.do_write, do_read", "src/uvm/reg/uvm_reg_field.py: do_predict", "src/uvm/reg/uvm_reg_cbs.py: UVMRegCbs"]}
{"id": "C81", "title": "The mirror tracks a device that follows the documented policies", "statement": "If all accesses go through a read/write map with automatic prediction and the device implements the documented access policies, then after any history of set, write, read, update and mirror calls the mirrored value of every field is the device's, reads return the mirrored value and mirror checks find no mismatch.", "quantifier": "every register layout, every policy of every field, every history of calls", "why_tests_cant": "Histories are unbounded.", "anchors": ["src/uvm/reg/uvm_reg.py: UVMReg.write, read, update, mirror, set, do_predict", "src/uvm/reg/uvm_reg_field.py: UVMRegField.set, do_predict, XpredictX, XupdateX"]}
{"id": "C82", "title": "A started sequence calls its methods once, in the documented order, and holds its objection exactly while it runs", "statement": "seq.start() calls pre_start, pre_body, the parent's pre_do and mid_do, body, the parent's post_do, post_body and post_start in this order, each once, leaving out pre/post_body when call_pre_post is false and the parent's methods when there is no parent; the sequence state during each call is the documented one; if automatic phase objection is set, the objection on the starting phase is held during all of them and dropped exactly once afterwards, whatever the methods do to the settings. Afterwards the sequence is finished, known to no sequencer or parent, and can be started again; a running sequence cannot be started.", "quantifier": "every combination of parent, sequencer, priority and call_pre_post, every behaviour of the overridden methods that does not raise, every number of restarts", "why_tests_cant": "The overridden methods are arbitrary user code; their effects on settings during the run and the points where they raise cannot be enumerated.", "anchors": ["src/uvm/seq/uvm_sequence_base.py: UVMSequenceBase.start, start_process, set_automatic_phase_objection, get_automatic_phase_objection, set_starting_phase, get_starting_phase, m_safe_raise_starting_phase, m_safe_drop_starting_phase, wait_for_sequence_state", "src/uvm/dap/uvm_get_to_lock_dap.py: UVMGetToLockDAP"]}
{"id": "C83", "title": "Root, path, full name and sequencer of an item follow its chain of parent sequences", "statement": "For an item or sequence in a tree of sequences, get_full_name is the names from the root sequence down (unnamed ones as _item) behind the root's sequencer's name, get_sequence_path the names from the root down, get_root_sequence the root (None for a root itself); an item given no sequencer takes its parent's.", "quantifier": "every tree of sequences, every order of set_item_context and get_depth calls", "why_tests_cant": "Trees are of any depth and contexts may be set in any order; depths are cached.", "anchors": ["src/uvm/seq/uvm_sequence_item.py: set_item_context, get_depth, get_full_name, get_root_sequence, get_root_sequence_name, get_sequence_path, set_parent_sequence"]}
{"id": "C84", "title": "Phase execution: order, states and the end of the schedule", "statement": "When the phases of a schedule are executed, nothing happens to a phase (except being scheduled) before all its predecessors are DONE; each phase goes through the documented states in the documented order and is started at most once; the end of all phases is announced only when a last phase and everything before it is done.", "quantifier": "all schedules (graphs of phases with any shape), all interleavings of the phase tasks, and all histories of raised and dropped objections", "why_tests_cant": "The phase tasks wait for each other through events that are set and cleared by several waiters; a test sees one interleaving, while a lost wake-up or an objection raised at the wrong moment shows only in some of them.", "anchors": ["src/uvm/base/uvm_phase.py: UVMPhase.m_run_phases, execute_phase, wait_for_self_and_siblings_to_drop, wait_for_state, get_predecessors_for_successors, m_wait_for_pred, set_state"]}
{"id": "C85", "title": "Object string pools", "statement": "UVMObjectStringPool.get(k) creates an object for a new key and returns the same object for every later get(k); delete(k) removes the entry.", "quantifier": "every pool content and key", "why_tests_cant": "Holds for all histories and all key sets; a test inspects a handful of keys in one order.", "anchors": ["src/uvm/base/uvm_pool.py: UVMPool.add/get/delete/exists/num/first/next/last/prev"]}
{"id": "C86", "title": "Mailbox peek", "statement": "A completed peek of a mailbox returns the item that was the oldest stored item at some moment of the call, and removes nothing.", "quantifier": "every number of producer and consumer coroutines, every bound, every interleaving the cooperative scheduler can produce", "why_tests_cant": "The set of interleavings is unbounded; a test observes one schedule.", "anchors": ["src/uvm/base/uvm_mailbox.py: UVMMailbox.put/get/peek/try_put/try_get/try_peek/can_put/can_get"]}
{"id": "C87", "title": "Leaving a scope restores the path", "statement": "down or down_element, followed by a balanced history of scope calls and the matching up, restores what get() returned before, including the argument; set_arg_element(name, i) makes the argument name[i].", "quantifier": "every history of scope operations and every scope name", "why_tests_cant": "Depth and names are unbounded.", "anchors": ["src/uvm/base/uvm_scope_stack.py: UVMScopeStack.down/down_element/up/up_element/get/set_arg/unset_arg"]}
{"id": "C88", "title": "Spell checker suggestions", "statement": "check(table, word) returns True exactly when the word is in the table; otherwise it reports the table entries at the least edit distance as suggestions.", "quantifier": "every table and every word", "why_tests_cant": "Quantifies over all strings and all edit scripts; a test checks a few words.", "anchors": ["src/uvm/base/uvm_spell_chkr.py: UVMSpellChkr.levenshtein_distance/minimum/check"]}
{"id": "C89", "title": "Packing empty fields and too large values", "statement": "Packing a field of size 0 changes nothing and unpacking one returns 0; packing a value that does not fit its size packs its low size bits and leaves the neighbouring fields alone.", "quantifier": "every number of fields, every positive size, every value that fits, both bit orders, any previously packed content", "why_tests_cant": "Unbounded lists of arbitrary-width integers.", "anchors": ["src/uvm/base/uvm_packer.py: UVMPacker.pack_field/pack_field_int/unpack_field/unpack_field_int/get_packed_size/reset"]}
{"id": "C90", "title": "Restoring a packer from a stream", "statement": "put_bits/put_bytes/put_ints of a stream obtained from a packer restores its content; bytes or ints packed behind other fields are unpacked from there.", "quantifier": "every packed content of every size", "why_tests_cant": "All sizes, including those not a multiple of the element width.", "anchors": ["src/uvm/base/uvm_packer.py: UVMPacker.get_bytes/get_ints/put_bits/put_bytes/get_bit/unpack_bytes"]}
{"id": "C91", "title": "Predictions through write-only maps and with byte enables", "statement": "A front-door write through a map with write-only rights has the effect the policy documents; a field none of whose byte lanes is enabled is left alone.", "quantifier": "all policies, values and byte enables", "why_tests_cant": "The table is over all widths and values, not a sample.", "anchors": ["src/uvm/reg/uvm_reg_field.py: UVMRegField.XpredictX/do_predict/set_access"]}
{"id": "C92", "title": "Fields that do not fit into their register", "statement": "A field that reaches beyond the width of its register is reported and not accepted.", "quantifier": "every register width, field size and position", "why_tests_cant": "Unbounded number of fields and values.", "anchors": ["src/uvm/reg/uvm_reg.py: UVMReg.add_field/set/get/get_mirrored_value/do_predict"]}
{"id": "C93", "title": "Bus errors in a burst", "statement": "If one access of a memory burst fails, the status of the burst is not OK.", "quantifier": "every burst and every device", "why_tests_cant": "All width combinations and values.", "anchors": ["src/uvm/reg/uvm_reg_map.py: UVMRegMap.do_bus_write/do_bus_read"]}
{"id": "C94", "title": "Two write-only registers at one address", "statement": "When two write-only registers claim the same address the earlier one keeps it and a warning is given.", "quantifier": "every set of registers, rights and offsets in a map", "why_tests_cant": "All combinations of offsets and rights.", "anchors": ["src/uvm/reg/uvm_reg_map.py: UVMRegMap.Xinit_address_mapX/get_reg_by_offset/add_reg"]}
{"id": "C95", "title": "Typed configuration look-up", "statement": "A configuration look-up with a type returns the highest precedence matching entry whose value has that type.", "quantifier": "every configuration database, name, scope and type", "why_tests_cant": "All queues.", "anchors": ["src/uvm/base/uvm_resource.py: UVMResource.get_highest_precedence, UVMResourcePool.lookup_name/get_by_name"]}
{"id": "C96", "title": "Negative objection counts", "statement": "Raising or dropping a negative number of objections is rejected, so that no history makes a count negative.", "quantifier": "every history and every integer count", "why_tests_cant": "All histories.", "anchors": ["src/uvm/base/uvm_objection.py: UVMObjection.m_drop"]}
{"id": "C97", "title": "Priority arbitration modes", "statement": "In the strict modes the arbiter selects an eligible request of the highest priority (the oldest such, or a random one), in the weighted mode some eligible request, in the user mode the one chosen by the user function.", "quantifier": "every queue of requests, every set of locks, every relevance predicate", "why_tests_cant": "All queues and lock sets.", "anchors": ["src/uvm/seq/uvm_sequencer_base.py: UVMSequencerBase.m_choose_next_request/is_blocked/set_arbitration"]}
{"id": "C98", "title": "Lock requests are granted", "statement": "A lock request whose sequence is not blocked is granted when it reaches the head of the arbitration queue.", "quantifier": "every queue of requests and set of locks", "why_tests_cant": "All trees and lock sets.", "anchors": ["src/uvm/seq/uvm_sequencer_base.py: UVMSequencerBase.is_blocked/is_child/is_grabbed/has_lock"]}
{"id": "C99", "title": "Killing a sequence", "statement": "kill_sequence and stop_sequences end the sequence (and its descendants) and remove its requests and locks.", "quantifier": "every sequencer state and sequence", "why_tests_cant": "All queue contents.", "anchors": ["src/uvm/seq/uvm_sequencer_base.py: UVMSequencerBase.remove_sequence_from_queues"]}
{"id": "C100", "title": "Waiting for a response by transaction id", "statement": "A get_response waiting for a transaction id completes once a response with this id has been stored.", "quantifier": "every schedule of responses and waiting gets", "why_tests_cant": "All histories.", "anchors": ["src/uvm/seq/uvm_sequence_base.py: UVMSequenceBase.put_base_response/get_base_response/put_response/clear_response_queue"]}
{"id": "C101", "title": "Negative history limits", "statement": "A negative number of remembered requests is refused.", "quantifier": "every limit", "why_tests_cant": "All histories.", "anchors": ["src/uvm/seq/uvm_sequencer_param_base.py: UVMSequencerParamBase.send_request/m_last_req_push_front/set_num_last_reqs/get_num_reqs_sent"]}
{"id": "C102", "title": "Report file look-up precedence", "statement": "The file used for a (severity, id) pair is the last one set for the pair, else the last one set for the id, else the last one set for the severity, else the default file.", "quantifier": "every history of set calls, every severity and id", "why_tests_cant": "All histories.", "anchors": ["src/uvm/base/uvm_report_handler.py: UVMReportHandler.get_action/get_verbosity_level/get_file_handle/set_*"]}
{"id": "C103", "title": "Recording and showing reports", "statement": "Every report whose action includes recording is recorded, and composing a message with show_verbosity on gives a message; neither raises.", "quantifier": "every report message and server setting", "why_tests_cant": "All message sequences.", "anchors": ["src/uvm/base/uvm_report_server.py: UVMReportServer.process_report_message/execute_report_message/incr_severity_count/set_max_quit_count/is_quit_count_reached"]}
{"id": "C104", "title": "Observers of what is taken from a TLM FIFO", "statement": "The get_ap observers see every transaction taken exactly once in order and nothing else, whether it is taken by get, try_get or flush; a peek with a list gives the transaction once.", "quantifier": "every size and every history of blocking and non-blocking calls", "why_tests_cant": "All histories and schedules.", "anchors": ["src/uvm/tlm1/uvm_tlm_fifos.py: UVMTLMFIFO.put/get/try_put/try_get/peek/flush", "src/uvm/tlm1/uvm_analysis_port.py"]}
{"id": "C105", "title": "Conditional access to data access policies", "statement": "try_set and try_get of the data access policies perform the access if it is allowed and report otherwise whether it was.", "quantifier": "every history of calls", "why_tests_cant": "All histories.", "anchors": ["src/uvm/dap/uvm_get_to_lock_dap.py", "src/uvm/dap/uvm_simple_lock_dap.py", "src/uvm/dap/uvm_set_before_get_dap.py"]}
{"id": "C106", "title": "Regular expressions for command line arguments", "statement": "get_arg_matches with /re/ returns the arguments the expression re matches.", "quantifier": "every argument vector and every expression", "why_tests_cant": "All argument vectors.", "anchors": ["src/uvm/base/uvm_cmdline_processor.py: UVMCmdlineProcessor.get_arg_value/get_arg_values/get_arg_matches/extract_args"]}
{"id": "C107", "title": "Unknown action names are refused", "statement": "uvm_string_to_action succeeds only on '|'-separated lists of action names.", "quantifier": "all strings", "why_tests_cant": "All strings.", "anchors": ["src/uvm/base/uvm_globals.py: uvm_string_to_action/uvm_string_to_severity"]}
{"id": "C108", "title": "Writing to an unbound port", "statement": "A write to a port with a positive minimum of connections that was never bound is reported.", "quantifier": "every port and every write", "why_tests_cant": "All connection trees and write sequences.", "anchors": ["src/uvm/tlm1/uvm_analysis_port.py: UVMAnalysisPort.write", "src/uvm/base/uvm_port_base.py: UVMPortBase.connect/resolve_bindings/size"]}
{"id": "C109", "title": "Write-only fields are not compared", "statement": "A field that cannot be read back never causes a mismatch in a mirror check.", "quantifier": "every register layout, value and access map", "why_tests_cant": "The comparison mask is assembled from all fields; a test samples a few layouts and values, while a wrong mask bit only shows for one field position, policy and value at a time.", "anchors": ["src/uvm/reg/uvm_reg.py: UVMReg.do_check, UVMReg.mirror", "src/uvm/reg/uvm_reg_field.py: get_compare, get_access"]}
{"id": "C110", "title": "Memories of one word", "statement": "A memory of one word can be mapped, and its word is found at its base address.", "quantifier": "every word width, bus width and offset", "why_tests_cant": "All combinations of size, width, position, length and access order.", "anchors": ["src/uvm/reg/uvm_reg_map.py: UVMRegMap.Xinit_address_mapX (memory part), do_bus_write, do_bus_read"]}
{"id": "C111", "title": "The mirror follows through write-only maps", "statement": "If accesses go through a map with write-only rights and automatic prediction, the mirrored value of every writable field is still the value of a device that implements the documented policies.", "quantifier": "every register layout and history of writes", "why_tests_cant": "Histories are unbounded.", "anchors": ["src/uvm/reg/uvm_reg.py: UVMReg.write, read, update, mirror, set, do_predict", "src/uvm/reg/uvm_reg_field.py: UVMRegField.set, do_predict, XpredictX, XupdateX"]}
{"id": "C112", "title": "A sequence whose method raises", "statement": "When a method of a started sequence raises, the objection held for the sequence is dropped and the sequence is known to no sequencer or parent any more.", "quantifier": "every method, every sequence", "why_tests_cant": "The overridden methods are arbitrary user code; their effects on settings during the run and the points where they raise cannot be enumerated.", "anchors": ["src/uvm/seq/uvm_sequence_base.py: UVMSequenceBase.start, start_process, set_automatic_phase_objection, get_automatic_phase_objection, set_starting_phase, get_starting_phase, m_safe_raise_starting_phase, m_safe_drop_starting_phase, wait_for_sequence_state", "src/uvm/dap/uvm_get_to_lock_dap.py: UVMGetToLockDAP"]}
{"id": "C113", "title": "Waiting for the state of a sequence", "statement": "wait_for_sequence_state(mask) returns when the sequence is in one of the states of the mask.", "quantifier": "every sequence state, mask and schedule", "why_tests_cant": "The overridden methods are arbitrary user code; their effects on settings during the run and the points where they raise cannot be enumerated.", "anchors": ["src/uvm/seq/uvm_sequence_base.py: UVMSequenceBase.start, start_process, set_automatic_phase_objection, get_automatic_phase_objection, set_starting_phase, get_starting_phase, m_safe_raise_starting_phase, m_safe_drop_starting_phase, wait_for_sequence_state", "src/uvm/dap/uvm_get_to_lock_dap.py: UVMGetToLockDAP"]}
{"id": "C114", "title": "Objections keep a task phase from ending", "statement": "A task phase ends only while nobody objects to its end.", "quantifier": "all schedules (graphs of phases with any shape), all interleavings of the phase tasks, and all histories of raised and dropped objections", "why_tests_cant": "The phase tasks wait for each other through events that are set and cleared by several waiters; a test sees one interleaving, while a lost wake-up or an objection raised at the wrong moment shows only in some of them.", "anchors": ["src/uvm/base/uvm_phase.py: UVMPhase.m_run_phases, execute_phase, wait_for_self_and_siblings_to_drop, wait_for_state, get_predecessors_for_successors, m_wait_for_pred, set_state"]}
{"id": "C115", "title": "Phase execution does not get stuck", "statement": "The execution of a schedule only stops when all phases are done or while somebody objects to the end of a phase, and the end of the last phase is announced.", "quantifier": "all schedules (graphs of phases with any shape), all interleavings of the phase tasks, and all histories of raised and dropped objections", "why_tests_cant": "The phase tasks wait for each other through events that are set and cleared by several waiters; a test sees one interleaving, while a lost wake-up or an objection raised at the wrong moment shows only in some of them.", "anchors": ["src/uvm/base/uvm_phase.py: UVMPhase.m_run_phases, execute_phase, wait_for_self_and_siblings_to_drop, wait_for_state, get_predecessors_for_successors, m_wait_for_pred, set_state"]}
{"id": "C116", "title": "Refused accesses and updates of single fields", "statement": "An access the bus refuses leaves the mirror and the desired value alone and is not checked; after setting single fields, update() makes the mirror the desired value.", "quantifier": "every register, value, device and prediction setting", "why_tests_cant": "All registers, values and device behaviours.", "anchors": ["src/uvm/reg/uvm_reg.py: UVMReg.write, read, update, mirror, do_write, do_read, Xcheck_accessX"]}
{"id": "C117", "title": "Status, checked reads and back doors", "statement": "update() always reports a status; a read with check_on_read compares the value read with the mirror; an access through a user back door is performed.", "quantifier": "every register, value, device and back door", "why_tests_cant": "All registers, values and device behaviours.", "anchors": ["src/uvm/reg/uvm_reg.py: UVMReg.write, read, update, mirror, do_write, do_read, Xcheck_accessX"]}
{"id": "C118", "title": "Updating a block and refused additions", "statement": "update() of a block updates exactly the registers of the subtree that need it; a refused addition changes neither the block nor what was to be added.", "quantifier": "every tree of blocks", "why_tests_cant": "All trees.", "anchors": ["src/uvm/reg/uvm_reg_block.py: UVMRegBlock.get_registers/get_memories/get_blocks/lock_model/reset/needs_update/add_reg"]}
{"id": "C119", "title": "Override resolution by name", "statement": "Creating an object by type name gives what creating it by type gives.", "quantifier": "every set of type and instance overrides, every requested type and instance path", "why_tests_cant": "Override graphs are arbitrary; tests use two or three types.", "anchors": ["src/uvm/base/uvm_factory.py: UVMDefaultFactory.find_override_by_type/set_type_override_by_type/set_inst_override_by_type"]}
{"id": "C120", "title": "finish_item returns after item_done", "statement": "When the driver has called item_done for the item of a sequence, the finish_item of that sequence returns.", "quantifier": "every history of driver and sequence calls", "why_tests_cant": "All histories and interleavings.", "anchors": ["src/uvm/seq/uvm_sequencer.py: UVMSequencer.get_next_item/item_done/get/peek"]}
{"id": "C121", "title": "try_next_item after peek, and irrelevant sequences", "statement": "A driver may peek and then try for the next item; a sequence that is not relevant for now is waited for.", "quantifier": "every history of driver and sequence calls", "why_tests_cant": "All histories and interleavings.", "anchors": ["src/uvm/seq/uvm_sequencer.py: UVMSequencer.get_next_item/item_done/get/peek"]}
{"id": "C122", "title": "Waiting for a trigger", "statement": "wait_trigger returns only after, and always after, a trigger that happened after the wait began; wait_ptrigger also after one in the same time step; callbacks are called around each trigger.", "quantifier": "every history of trigger, reset, cancel and wait calls", "why_tests_cant": "All histories and schedules.", "anchors": ["src/uvm/base/uvm_event.py: UVMEvent.trigger/wait_trigger/wait_on/reset/cancel"]}
{"id": "C123", "title": "Depth of an item", "statement": "get_depth is the number of sequences from the root down to the item; setting no parent makes an item a root again.", "quantifier": "every tree of sequences, every order of set_item_context and get_depth calls", "why_tests_cant": "Trees are of any depth and contexts may be set in any order; depths are cached.", "anchors": ["src/uvm/seq/uvm_sequence_item.py: set_item_context, get_depth, get_full_name, get_root_sequence, get_root_sequence_name, get_sequence_path, set_parent_sequence"]}
{"id": "C124", "title": "Looking components up by name", "statement": "Looking a relative or absolute name up returns the component with that full name, and distinct components have distinct full names.", "quantifier": "every tree of components and every name", "why_tests_cant": "All trees.", "anchors": ["src/uvm/base/uvm_component.py: UVMComponent.__init__/m_add_child/m_set_full_name/lookup/get_depth/get_child"]}
{"id": "C125", "title": "Physical addresses of wide registers in nested maps", "statement": "An item of several words in a map nested in others has one address per word, consecutive in the narrowest map on the way and translated by the sum of the offsets; without an endianness the map is refused.", "quantifier": "every base, offset, width, endianness and depth of map nesting", "why_tests_cant": "All widths, offsets, nestings.", "anchors": ["src/uvm/reg/uvm_reg_map.py: UVMRegMap.get_physical_addresses/get_base_addr/get_root_map"]}
{"id": "C126", "title": "Type-wide and instance callbacks are merged", "statement": "The callbacks run for an object are the type-wide ones and its own, merged by the requested ordering, without those deleted; adding and deleting never raises.", "quantifier": "every history of add/delete for type-wide and instance callbacks", "why_tests_cant": "All histories.", "anchors": ["src/uvm/base/uvm_callback.py: UVMCallbacks.add/delete/get_first/get_next"]}
{"id": "C127", "title": "Plus arguments and UVM arguments", "statement": "get_plusargs returns the arguments starting with '+'; get_uvm_args those starting with '+' or '-' followed by UVM in any case.", "quantifier": "every command line", "why_tests_cant": "Tests use a handful of arguments; the claim is about every argument list and every spelling.", "anchors": ["src/uvm/base/uvm_cmdline_processor.py:UVMCmdlineProcessor.extract_args", "src/uvm/base/uvm_cmdline_processor.py:UVMCmdlineProcessor.get_plusargs", "src/uvm/base/uvm_cmdline_processor.py:UVMCmdlineProcessor.get_uvm_args"]}
{"id": "C128", "title": "The bit bash test accepts a correct device", "statement": "Run on a register whose mirror agrees with a device that follows the documented access policies, the bit bash test reports no error, and mirror and device agree afterwards.", "quantifier": "every register of at most 64 bits (layout, policies, compare flags, history), every device following the documentation, every list of read/write maps", "why_tests_cant": "All layouts, policies and device states.", "anchors": ["src/uvm/reg/sequences/uvm_reg_bit_bash_seq.py: UVMRegSingleBitBashSeq.body/bash_kth_bit"]}
{"id": "C129", "title": "The bit bash test finds stuck bits", "statement": "If some bit of a compared read/write field always reads the same through one of the maps, the bit bash test of the register reports an error, whatever else the device does.", "quantifier": "every register of at most 64 bits, every tested bit, every device on which that bit is stuck at 0 or 1, every list of read/write maps and position in it", "why_tests_cant": "All devices, including ones whose other bits behave arbitrarily.", "anchors": ["src/uvm/reg/sequences/uvm_reg_bit_bash_seq.py: UVMRegSingleBitBashSeq.body/bash_kth_bit"]}
{"id": "C130", "title": "The reset check of one register is exact", "statement": "After reset of the model, the reset test of a register reports no error exactly if the read succeeds and the device returns the reset value at every compared position.", "quantifier": "every register, history, device and returned value", "why_tests_cant": "All values.", "anchors": ["src/uvm/reg/sequences/uvm_reg_hw_reset_seq.py: UVMRegHWResetSeq.do_block", "src/uvm/reg/uvm_reg.py: UVMReg.mirror/reset/do_check"]}
{"id": "C131", "title": "The bit bash test reaches every register not excluded", "statement": "The bit bash test of a block ends and tests exactly the registers not excluded, of the block and of every block below it that is not excluded itself; an excluded top block is not tested at all.", "quantifier": "every tree of blocks, registers and exclusions", "why_tests_cant": "All trees.", "anchors": ["src/uvm/reg/sequences/uvm_reg_bit_bash_seq.py: UVMRegBitBashSeq.do_block", "src/uvm/reg/uvm_reg_block.py: UVMRegBlock.get_blocks"]}
{"id": "C132", "title": "The bit bash test tests each register once", "statement": "Each register that the bit bash test of a block covers is tested once.", "quantifier": "every tree of blocks, registers and exclusions", "why_tests_cant": "All trees.", "anchors": ["src/uvm/reg/sequences/uvm_reg_bit_bash_seq.py: UVMRegBitBashSeq.do_block", "src/uvm/reg/uvm_reg_block.py: UVMRegBlock.get_blocks"]}
{"id": "C133", "title": "The reset test reaches every register not excluded", "statement": "The reset test of a block checks every register not excluded, of the maps of the block and of the blocks below it.", "quantifier": "every tree of blocks, maps, registers and exclusions", "why_tests_cant": "All trees.", "anchors": ["src/uvm/reg/sequences/uvm_reg_hw_reset_seq.py: UVMRegHWResetSeq.do_block"]}
{"id": "C134", "title": "Explicit prediction follows observed transfers", "statement": "A predictor that observes one whole transfer of a register (each of its addresses once, in any order, mixed with transactions for other registers or none) predicts exactly once, with the value transferred, and leaves the register as a front-door access of that value with automatic prediction would; a read that differs in a compared bit is reported if checking on read is on. It never raises.", "quantifier": "every register, map, bus width, order of the bus transactions and interleaving with other transactions", "why_tests_cant": "All orders and interleavings.", "anchors": ["src/uvm/reg/uvm_reg_predictor.py: UVMRegPredictor.write"]}
{"id": "C135", "title": "Explicit prediction recovers what was written", "statement": "A series of whole transfers of a register yields exactly the values transferred, in order; and the bus operations of a front-door write of v are, in every transaction order, one whole transfer of value v.", "quantifier": "every value, register size, bus width, address list, order policy and number of transfers", "why_tests_cant": "All values and orders.", "anchors": ["src/uvm/reg/uvm_reg_predictor.py: UVMRegPredictor.write", "src/uvm/reg/uvm_reg_map.py: UVMRegMap.do_bus_write"]}
{"id": "C136", "title": "The predictor reports incomplete transfers at the end", "statement": "check_phase of the predictor names exactly the registers whose last transfer is incomplete, each once.", "quantifier": "every history of observed transactions made of whole transfers and a last, possibly empty part", "why_tests_cant": "All histories.", "anchors": ["src/uvm/reg/uvm_reg_predictor.py: UVMRegPredictor.check_phase", "src/uvm/reg/uvm_reg_predictor.py: UVMRegPredictor.write"]}
{"id": "C137", "title": "Explicit prediction copes with FIFO maps, byte enables, mixed kinds and restarted transfers", "statement": "Reads and writes of a register are never combined into one prediction; registers in FIFO maps are predicted; byte enables of the bus transactions are respected; a transfer that starts anew is predicted.", "quantifier": "every history of observed transactions", "why_tests_cant": "All histories.", "anchors": ["src/uvm/reg/uvm_reg_predictor.py: UVMRegPredictor.write"]}
{"id": "C138", "title": "A memory behaves as an array", "statement": "For every history of allowed front-door accesses to a memory (single writes, burst writes, reads, within its size and width, bursts not wider than the bus), every access reports OK and no error, every read returns the value written last to that word, and nothing outside of the memory is touched.", "quantifier": "every memory size and width, bus width, endianness, address, transaction order and history of accesses", "why_tests_cant": "All histories.", "anchors": ["src/uvm/reg/uvm_mem.py: UVMMem.write", "src/uvm/reg/uvm_mem.py: UVMMem.read", "src/uvm/reg/uvm_mem.py: UVMMem.burst_write", "src/uvm/reg/uvm_reg_map.py: UVMRegMap.do_bus_write"]}
{"id": "C139", "title": "Accesses outside of a memory are refused", "statement": "An access to a memory at an offset not within its size, a burst over its end, and a burst of words wider than the bus report an error and NOT_OK and do not touch the device.", "quantifier": "every offset, burst length, path, memory and bus", "why_tests_cant": "All offsets and lengths.", "anchors": ["src/uvm/reg/uvm_mem.py: UVMMem.Xcheck_accessX", "src/uvm/reg/uvm_mem.py: UVMMem.do_write"]}
{"id": "C140", "title": "A burst read returns the words of the memory", "statement": "burst_read returns the contents of the words asked for, as many as asked for.", "quantifier": "every memory, offset and burst length", "why_tests_cant": "All memories and lengths.", "anchors": ["src/uvm/reg/uvm_mem.py: UVMMem.burst_read"]}
{"id": "C141", "title": "Hooks around memory accesses", "statement": "A pre-write method or callback or a pre-read method that refuses a memory access keeps it from the device; what the pre-write hooks, called in order, make of offset and value is what is written, and what the post-write hooks make of the result is what the user gets.", "quantifier": "every hook, memory, path, offset and value", "why_tests_cant": "All user-defined hooks.", "anchors": ["src/uvm/reg/uvm_mem.py: UVMMem.do_write", "src/uvm/reg/uvm_mem.py: UVMMem.do_read"]}
{"id": "C142", "title": "Memory coverage samples the words accessed", "statement": "A successful front-door access samples exactly the words it accesses, a failed one none.", "quantifier": "every memory, offset and number of words", "why_tests_cant": "All offsets and lengths.", "anchors": ["src/uvm/reg/uvm_mem.py: UVMMem.do_write", "src/uvm/reg/uvm_mem.py: UVMMem.XsampleX"]}
{"id": "C143", "title": "Memory values are cut to the width of the memory", "statement": "A value written to a memory is read back cut to the number of bits of the memory.", "quantifier": "every memory and value", "why_tests_cant": "All values.", "anchors": ["src/uvm/reg/uvm_mem.py: UVMMem.write"]}
{"id": "C144", "title": "Pre-read callbacks of memories take effect", "statement": "A pre-read callback registered with a memory is run before the read and may refuse or change it.", "quantifier": "every callback", "why_tests_cant": "All user-defined callbacks.", "anchors": ["src/uvm/reg/uvm_mem.py: UVMMem.do_read"]}
{"id": "C145", "title": "HDL paths", "statement": "get_full_hdl_path of a block gives exactly the paths made of one of its own paths below one of the parent's, or its root path; that of a register or memory each of its concatenations below each path of its block; a block without a path for the abstraction is reported.", "quantifier": "every tree of blocks with any paths and roots", "why_tests_cant": "Trees, numbers of paths and roots are unbounded.", "anchors": ["src/uvm/reg/uvm_reg_block.py: UVMRegBlock.get_full_hdl_path", "src/uvm/reg/uvm_reg.py: UVMReg.get_full_hdl_path", "src/uvm/reg/uvm_mem.py: UVMMem.get_full_hdl_path"]}
{"id": "C146", "title": "HDL accesses reach the signal named", "statement": "A read or deposit through a path that names a signal reads or changes this signal and no other; a register visible in several places is read consistently or an error is reported, and is written in all places.", "quantifier": "every design hierarchy, path, value and number of places", "why_tests_cant": "All hierarchies and values.", "anchors": ["src/uvm/dpi/uvm_hdl.py: uvm_hdl.uvm_hdl_read/uvm_hdl_deposit", "src/uvm/reg/uvm_reg.py: UVMReg.backdoor_read_func/backdoor_write"]}
{"id": "C147", "title": "Back-door writes", "statement": "A back-door write gives every field of the device the value its policy documents for a front-door write over the device's value; mirror and desired value become what the device has; if the places of the register disagree nothing is changed and the status is not OK.", "quantifier": "every register, policy, device value, written value and number of places", "why_tests_cant": "All field layouts, policies and values.", "anchors": ["src/uvm/reg/uvm_reg.py: UVMReg.do_write"]}
{"id": "C148", "title": "Back-door reads", "statement": "A back-door read returns the device's value with write-only fields as 0, clears or sets in the device the fields whose policy says so, and predicts the value read; if the places of the register disagree nothing is changed and the status is not OK.", "quantifier": "every register, policy, device value and number of places", "why_tests_cant": "All field layouts, policies and values.", "anchors": ["src/uvm/reg/uvm_reg.py: UVMReg.do_read"]}
{"id": "C149", "title": "The mirror after a back-door read", "statement": "After a back-door read the mirrored value of every field is what the device has.", "quantifier": "every register, policy and device value", "why_tests_cant": "All field layouts, policies and values.", "anchors": ["src/uvm/reg/uvm_reg.py: UVMReg.do_read", "src/uvm/reg/uvm_reg_field.py: UVMRegField.do_predict"]}
{"id": "C150", "title": "Paths that name nothing are reported", "statement": "An HDL access through a path that does not name an object of the design is reported and touches nothing.", "quantifier": "every design and path", "why_tests_cant": "All hierarchies and paths.", "anchors": ["src/uvm/dpi/uvm_hdl.py: uvm_hdl.get_next_obj"]}
{"id": "C151", "title": "Memories that are rows of an array", "statement": "The words of a memory whose path ends with an index are distinct to peek and poke.", "quantifier": "every path, offset and value", "why_tests_cant": "All hierarchies and offsets.", "anchors": ["src/uvm/dpi/uvm_hdl.py: uvm_hdl.split_hdl_path", "src/uvm/reg/uvm_mem.py: UVMMem.backdoor_write"]}
{"id": "C152", "title": "Registers made of slices", "statement": "A register or memory made of several signals is read and written through the back door as the concatenation of its slices.", "quantifier": "every concatenation and value", "why_tests_cant": "All concatenations.", "anchors": ["src/uvm/reg/uvm_reg.py: UVMReg.backdoor_read_func", "src/uvm/reg/uvm_mem.py: UVMMem.backdoor_read_func"]}
{"id": "C153", "title": "A memory seen through the back door is an array", "statement": "After any history of pokes a peek returns the value last poked at its offset, cut to the width of the memory, or the initial content.", "quantifier": "every history of pokes, memory size and width", "why_tests_cant": "All histories.", "anchors": ["src/uvm/reg/uvm_mem.py: UVMMem.poke/peek/backdoor_write/backdoor_read_func"]}
{"id": "C154", "title": "Back-door accesses without a path", "statement": "A back-door access to a register that has no HDL path is reported as failed.", "quantifier": "every register and value", "why_tests_cant": "All registers and values.", "anchors": ["src/uvm/reg/uvm_reg.py: UVMReg.backdoor_write/backdoor_read_func", "src/uvm/reg/uvm_reg_block.py: UVMRegBlock.get_full_hdl_path"]}
{"id": "C155", "title": "A request/response channel delivers requests and responses in order, without cross-talk", "statement": "Whatever puts, gets, peeks and non-blocking calls are made through the end points of a UVMTLMReqRspChannel, in every interleaving: the requests taken so far followed by those stored are exactly the requests put, in order, and likewise for responses; nothing put on one side appears on the other; request_ap and response_ap show exactly the requests and responses put; each side respects its own size; no getter waits while its side holds something; and if the slave answers the requests in the order it took them, the k-th response the master gets is the answer to the k-th request put.", "quantifier": "all channel sizes, all histories of calls, resumptions and cancellations through all end points", "why_tests_cant": "the interleavings of masters, slaves and pollers on two blocking FIFOs are unbounded; tests exercise a few schedules", "anchors": ["src/uvm/tlm1/uvm_tlm_req_rsp.py:UVMTLMReqRspChannel", "src/uvm/tlm1/uvm_imps.py:UVMMasterImp", "src/uvm/tlm1/uvm_imps.py:UVMSlaveImp"]}
{"id": "C156", "title": "A blocking get or peek through a port returns the transaction", "statement": "Awaiting get or peek through a port, export or implementation evaluates to the transaction taken or shown, as it does when the FIFO itself is called.", "quantifier": "all ports, all transactions, all histories", "why_tests_cant": "the value is lost in a generic wrapper shared by every port class; each test reads the list argument of the ports it happens to use", "anchors": ["src/uvm/tlm1/uvm_tlm_imps.py:UVM_BLOCKING_GET_IMP", "src/uvm/tlm1/uvm_tlm_imps.py:UVM_BLOCKING_PEEK_IMP", "src/uvm/tlm1/uvm_tlm_fifos.py:UVMTLMFIFO.get"]}
{"id": "C157", "title": "An access to a register through a map is served by a map that reaches the register", "statement": "When an access names a map, the map used is that map if the register is in it, otherwise the first of its maps that lies below the named one at any depth; if there is none the access is refused with a warning, and is_in_map says the same. When no map is named, a register in one map uses it, and a register in several uses the one through which the default map of a parent block reaches it, and its first map if no default map does.", "quantifier": "all map trees, all registers in any number of maps, all maps asked for", "why_tests_cant": "the trees of maps and the positions of an element in them are unbounded", "anchors": ["src/uvm/reg/uvm_reg.py:UVMReg.get_local_map", "src/uvm/reg/uvm_reg.py:UVMReg.get_default_map", "src/uvm/reg/uvm_reg.py:UVMReg.is_in_map"]}
{"id": "C158", "title": "Choosing the default map of a memory gives no warning", "statement": "For a memory in at least one map, asking for its default map gives no warning, as for registers.", "quantifier": "all memories in maps, all default maps of parent blocks", "why_tests_cant": "it depends on the position of the default map of the parent in the tree of maps", "anchors": ["src/uvm/reg/uvm_mem.py:UVMMem.get_default_map"]}
{"id": "C159", "title": "The access of a memory in a map", "statement": "get_access of a memory in a map is the memory's access restricted by the rights it has in that map.", "quantifier": "all memories, all maps and rights", "why_tests_cant": "the combinations of accesses, rights and map trees; tests use memories in one map", "anchors": ["src/uvm/reg/uvm_mem.py:UVMMem.get_access", "src/uvm/reg/uvm_mem.py:UVMMem.get_rights", "src/uvm/reg/uvm_reg.py:UVMReg.get_rights"]}
{"id": "C160", "title": "The memory walk test does what it documents and has no false alarms", "statement": "The memory walk test performs exactly the accesses its documentation lists (for each address k write ~k, then read k-1 expecting ~(k-1) and write k-1 there, at the last address read it), in each map in which the memory is RW, and reports exactly the reads that differ. On a memory that keeps what is written it reports nothing; if cells spoil what is stored in them it reports exactly the words that do not keep ~k.", "quantifier": "all memory sizes and widths, all devices, all contents, all numbers of maps", "why_tests_cant": "sizes, widths and faults are unbounded; tests run the sequence on one small good memory", "anchors": ["src/uvm/reg/sequences/uvm_mem_walk_seq.py:UVMMemSingleWalkSeq.body"]}
{"id": "C161", "title": "The memory walk test finds stuck bits", "statement": "If a bit of a word of the memory is stuck at 0 or 1, the walk test reports that word.", "quantifier": "all memories, words and bits", "why_tests_cant": "all stuck-at faults of all memories", "anchors": ["src/uvm/reg/sequences/uvm_mem_walk_seq.py:UVMMemSingleWalkSeq.body"]}
{"id": "C162", "title": "The memory walk test finds address faults", "statement": "If two words of the memory share a cell, the walk test reports an error.", "quantifier": "all memories and all address decoders", "why_tests_cant": "all address faults of all memories", "anchors": ["src/uvm/reg/sequences/uvm_mem_walk_seq.py:UVMMemSingleWalkSeq.body"]}
{"id": "C163", "title": "The memory access test finds exactly the words whose front and back doors differ", "statement": "On a memory of up to 32 bits the access test reports nothing exactly if front and back door of every word reach the same cell; for a write-only memory it reports exactly the words that do not read as 0.", "quantifier": "all memory sizes, all front and back doors, all random values, all contents", "why_tests_cant": "random values, sizes and the mappings of the doors are unbounded", "anchors": ["src/uvm/reg/sequences/uvm_mem_access_seq.py:UVMMemSingleAccessSeq.body"]}
{"id": "C164", "title": "The memory access test has no false alarms on wide memories", "statement": "On a good memory of any width the access test reports nothing.", "quantifier": "all widths, sizes and random values", "why_tests_cant": "it depends on the random values drawn and the width", "anchors": ["src/uvm/reg/sequences/uvm_mem_access_seq.py:UVMMemSingleAccessSeq.body"]}
{"id": "C165", "title": "The memory access test handles read-only memories", "statement": "The access test completes on a memory that is read-only in a map.", "quantifier": "all read-only memories", "why_tests_cant": "no test has a read-only memory; all sizes and devices", "anchors": ["src/uvm/reg/sequences/uvm_mem_access_seq.py:UVMMemSingleAccessSeq.body"]}
{"id": "C166", "title": "Memories and blocks can be excluded from the memory tests", "statement": "A memory or block for which NO_REG_TESTS, NO_MEM_TESTS or the resource of the test (NO_MEM_WALK_TEST, NO_MEM_ACCESS_TEST) is set is not tested by the memory tests of the whole model, and no other is left out.", "quantifier": "all trees of blocks, all resources", "why_tests_cant": "block trees and resource settings are unbounded", "anchors": ["src/uvm/reg/sequences/uvm_mem_walk_seq.py:UVMMemWalkSeq.do_block", "src/uvm/reg/sequences/uvm_mem_access_seq.py:UVMMemAccessSeq.do_block"]}
{"id": "C167", "title": "The transaction file is well-formed", "statement": "In the file of the text transaction database every recorder is opened once, before anything else is said about it; attributes come only while it is open or closed and not freed; it is closed before it is freed; nothing is written about it after it is freed; and while the database is open the last thing the file says about a recorder is the state the recorder is in.", "quantifier": "all histories of opening streams and recorders, recording, closing, freeing, asking for handles and closing the database", "why_tests_cant": "histories are unbounded and interleave any number of recorders", "anchors": ["src/uvm/base/uvm_recorder.py:UVMTextRecorder", "src/uvm/base/uvm_tr_stream.py:UVMTrStream.open_recorder", "src/uvm/base/uvm_tr_database.py:UVMTextTrDatabase"]}
{"id": "C168", "title": "Closing a closed recorder has no effect", "statement": "Closing a recorder that is closed or freed does nothing: nothing is written, its closing time stays.", "quantifier": "all recorders, all histories", "why_tests_cant": "depends on the history of the recorder", "anchors": ["src/uvm/base/uvm_recorder.py:UVMRecorder.close"]}
{"id": "C169", "title": "Handles find their recorders", "statement": "The handle of a recorder that was opened and not freed is not zero, differs from that of every other recorder, and looking it up gives the recorder.", "quantifier": "all histories, all recorders", "why_tests_cant": "histories are unbounded", "anchors": ["src/uvm/base/uvm_recorder.py:UVMRecorder.get_handle", "src/uvm/base/uvm_recorder.py:UVMRecorder.get_recorder_from_handle"]}
{"id": "C170", "title": "Freed recorders have no handle", "statement": "A recorder that was freed has handle 0 and is not found by its former handle.", "quantifier": "all histories after the recorder is freed", "why_tests_cant": "histories are unbounded", "anchors": ["src/uvm/base/uvm_recorder.py:UVMRecorder.free", "src/uvm/base/uvm_recorder.py:UVMRecorder.get_handle"]}
{"id": "C171", "title": "Databases can be closed and opened again", "statement": "Closing a database closes and frees its streams and recorders; it can be opened again and used.", "quantifier": "all states of the database, all later histories", "why_tests_cant": "histories are unbounded", "anchors": ["src/uvm/base/uvm_tr_database.py:UVMTrDatabase.open_db", "src/uvm/base/uvm_tr_database.py:UVMTrDatabase.close_db"]}
{"id": "C172", "title": "Components record the transactions they are told of", "statement": "A transaction begun and ended on a stream of a component with recording enabled gives one complete record on that stream: opened at the begin time, its label, its fields, closed at the end time, freed; the begin call returns its handle.", "quantifier": "all streams, transactions, times, numbers of transactions in progress", "why_tests_cant": "any number of transactions in any order on any streams", "anchors": ["src/uvm/base/uvm_component.py:UVMComponent.begin_tr", "src/uvm/base/uvm_component.py:UVMComponent.end_tr", "src/uvm/base/uvm_component.py:UVMComponent.m_begin_tr"]}
{"id": "C173", "title": "Relations between transactions are recorded", "statement": "A link between streams or recorders that is established, and in particular that of a child transaction to its parent and of a component's record to the transaction's own, is recorded.", "quantifier": "all links, all transactions", "why_tests_cant": "all pairs of streams and recorders", "anchors": ["src/uvm/base/uvm_tr_database.py:UVMTrDatabase.establish_link", "src/uvm/base/uvm_links.py", "src/uvm/base/uvm_component.py:UVMComponent.m_begin_tr"]}
{"id": "C174", "title": "Transactions keep their times and call their hooks in order", "statement": "Accepting, beginning and ending a transaction set the corresponding time to the one given or, for 0, the current time; the hook of each runs before its event; beginning a transaction that is being recorded ends the old record first (with its fields, closed at the new begin time, freed) and opens a new one.", "quantifier": "all transactions, times and states of the database", "why_tests_cant": "all times and recording states", "anchors": ["src/uvm/base/uvm_transaction.py:UVMTransaction"]}
{"id": "C175", "title": "A transaction is active between begin and end", "statement": "A transaction is active exactly after it was begun and before it is ended.", "quantifier": "all transactions and times", "why_tests_cant": "all histories of a transaction", "anchors": ["src/uvm/base/uvm_transaction.py:UVMTransaction.is_active"]}
{"id": "C176", "title": "Packing and unpacking an object restores its fields", "statement": "pack() of an object gives its integer fields and those of the objects it refers to, in order, 32 bits each, and their number; unpack() of those bits into an object of the same shape restores every value and changes nothing else.", "quantifier": "all objects made of integer and object fields, both byte orders, all values below 2^32", "why_tests_cant": "all object graphs and values", "anchors": ["src/uvm/base/uvm_object.py:UVMObject.pack", "src/uvm/base/uvm_object.py:UVMObject.unpack", "src/uvm/macros/uvm_object_defines.py", "src/uvm/base/uvm_packer.py:UVMPacker.pack_object"]}
{"id": "C177", "title": "Packing ends on every object graph", "statement": "pack() and unpack() of an object end, also when objects refer to each other in cycles; the depth of the recursion is at most the number of objects.", "quantifier": "all finite object graphs, cyclic ones included, all bit streams", "why_tests_cant": "all graphs", "anchors": ["src/uvm/base/uvm_packer.py:UVMPacker.pack_object", "src/uvm/base/uvm_packer.py:UVMPacker.unpack_object"]}
{"id": "C178", "title": "Objects can be packed into and unpacked from lists of integers", "statement": "pack_ints() of an object gives its integers in order, and unpack_ints() restores them.", "quantifier": "all objects made of integer and object fields, both byte orders", "why_tests_cant": "all object graphs and values", "anchors": ["src/uvm/base/uvm_object.py:UVMObject.pack_ints", "src/uvm/base/uvm_object.py:UVMObject.unpack_ints", "src/uvm/base/uvm_packer.py:UVMPacker.get_ints"]}
{"id": "C179", "title": "Unpacking from too few bits is reported", "statement": "When the stream has fewer bits than the object needs, unpacking reports it: an error per missing field and the warning that the unpack operation was unsuccessful.", "quantifier": "all objects and bit streams", "why_tests_cant": "all streams", "anchors": ["src/uvm/base/uvm_object.py:UVMObject.m_unpack_post", "src/uvm/base/uvm_packer.py:UVMPacker.enough_bits"]}
{"id": "C180", "title": "Printing shows every printable field once, in order and at its depth", "statement": "sprint() of an object makes one row for it, followed one level deeper by the rows of its child components (those with print_enabled), of its registered fields with printing on, in order of registration, and of what do_print prints; objects are printed recursively unless by reference, below the depth of the knobs, or being printed already; the row has the name, or the dotted path with full_name.", "quantifier": "all object graphs (cyclic ones included) with ordinary names, all knobs, table and tree printer", "why_tests_cant": "all graphs and knobs", "anchors": ["src/uvm/base/uvm_printer.py:UVMPrinter.print_object", "src/uvm/base/uvm_object.py:UVMObject.sprint", "src/uvm/macros/uvm_object_defines.py", "src/uvm/base/uvm_scope_stack.py"]}
{"id": "C181", "title": "Printing ends and leaves the printer as it was", "statement": "sprint() ends on every finite object graph, cycles included, and printing another object before does not change what is printed.", "quantifier": "all object graphs, all pairs of objects printed in turn", "why_tests_cant": "all graphs and orders", "anchors": ["src/uvm/base/uvm_printer.py:UVMPrinter.print_object", "src/uvm/base/uvm_printer.py:UVMTablePrinter.emit"]}
{"id": "C182", "title": "The columns of the printed table are aligned", "statement": "The table has dashes, a heading, dashes, a line per row, dashes; in every line the columns begin where those of the heading begin and are separated by at least one space.", "quantifier": "all lists of rows and knobs", "why_tests_cant": "all rows", "anchors": ["src/uvm/base/uvm_printer.py:UVMTablePrinter.emit", "src/uvm/base/uvm_printer.py:UVMTablePrinter.calculate_max_widths"]}
{"id": "C183", "title": "The blocks of the printed tree are balanced", "statement": "In the output of the tree printer a block is opened after exactly the rows followed by deeper ones, none is closed that is not open, and all are closed at the end.", "quantifier": "all object graphs and knobs", "why_tests_cant": "all graphs", "anchors": ["src/uvm/base/uvm_printer.py:UVMTreePrinter.emit"]}
{"id": "C184", "title": "Numbers are printed in the radix asked for", "statement": "A field is printed in its radix (or the default of the knobs): the digits after the prefix denote the value reduced to the size of the field.", "quantifier": "all values, sizes and radices", "why_tests_cant": "all values", "anchors": ["src/uvm/base/uvm_misc.py:uvm_bitstream_to_string", "src/uvm/base/uvm_misc.py:num_with_radix", "src/uvm/base/uvm_printer.py:UVMPrinter.print_field"]}
{"id": "C185", "title": "Elements of arrays can be printed as objects", "statement": "print_object() restores the scope for every name, also for index names in brackets.", "quantifier": "all names and scopes", "why_tests_cant": "all nestings", "anchors": ["src/uvm/base/uvm_printer.py:UVMPrinter.print_object", "src/uvm/base/uvm_scope_stack.py:UVMScopeStack.up"]}
{"id": "C186", "title": "A semaphore never gives out more tokens than it has, first come first", "statement": "With get() and put() of single tokens, a semaphore with n tokens has at most n tokens out at any time, its count is what is left, and tasks that have to wait obtain tokens in the order of their calls.", "quantifier": "all n, all numbers of tasks, all schedules of get, put and the later continuation of a woken get", "why_tests_cant": "a test runs one schedule; the window between being woken and continuing is only met by some", "anchors": ["src/uvm/base/sv.py:semaphore"]}
{"id": "C187", "title": "No task waits for a free token", "statement": "If a token is free, the first waiting task has been woken.", "quantifier": "all n, all schedules", "why_tests_cant": "the lost wake-up needs two puts before the first woken task continues", "anchors": ["src/uvm/base/sv.py:semaphore.put", "src/uvm/base/sv.py:semaphore.get"]}
{"id": "C188", "title": "Several tokens and try_get", "statement": "get(k) and try_get(k) take k tokens only when k tokens are left, in any mixture of calls.", "quantifier": "all k, all schedules of get, try_get and put", "why_tests_cant": "needs all mixtures of calls", "anchors": ["src/uvm/base/sv.py:semaphore"]}
{"id": "C189", "title": "Random stability of objects without random sub-objects", "statement": "The values that randomize() gives to an object without random sub-objects depend only on the object, its seed and how often it was randomized before, whatever else draws random numbers.", "quantifier": "all generators, all objects, all histories of creation, randomization and draws by others", "why_tests_cant": "all interleavings with other users of the generator", "anchors": ["src/uvm/base/sv.py:sv_obj.randomize"]}
{"id": "C190", "title": "Random stability of all objects and calls", "statement": "The values of any object under randomize() and randomize_with() depend only on the object, its seed and its own history; every registration of sub-objects with rand() can be randomized.", "quantifier": "all objects with sub-objects, all histories", "why_tests_cant": "all interleavings", "anchors": ["src/uvm/base/sv.py:sv_obj.randomize", "src/uvm/base/sv.py:sv_obj.randomize_with", "src/uvm/base/sv.py:sv_obj.rand"]}
{"id": "C191", "title": "Seeds of new objects", "statement": "The seed of a new object depends on the state before and the order of creation, not on which objects were randomized, and is unrelated to the values of other objects.", "quantifier": "all histories", "why_tests_cant": "all interleavings", "anchors": ["src/uvm/base/sv.py:sv_obj.__init__"]}
{"id": "C192", "title": "Registered fields get the setting that wins", "statement": "At build a registered field of a component gets the value that UVMConfigDb.get would find: of the settings that match, the one with the highest precedence, of these the latest.", "quantifier": "all fields, all settings in the data base", "why_tests_cant": "all histories of settings", "anchors": ["src/uvm/base/uvm_component.py:UVMComponent.apply_config_settings", "src/uvm/base/uvm_resource.py:UVMResourcePool.sort_by_precedence"]}
{"id": "C193", "title": "Configuration changes registered, writable fields only", "statement": "apply_config_settings changes no attribute that is not registered as a field, and no field with UVM_READONLY.", "quantifier": "all fields, all settings of any name and value", "why_tests_cant": "all settings", "anchors": ["src/uvm/base/uvm_component.py:UVMComponent.apply_config_settings", "src/uvm/macros/uvm_object_defines.py:uvm_field_utils_start"]}
{"id": "C194", "title": "A setting changes the field it names only", "statement": "A setting for one field changes no other field.", "quantifier": "all sets of field names, all settings", "why_tests_cant": "depends on all pairs of field names", "anchors": ["src/uvm/macros/uvm_object_defines.py:uvm_field_utils_start", "src/uvm/base/uvm_globals.py:uvm_is_match"]}
{"id": "C195", "title": "A setting fits the type of its field", "statement": "A field gets only values of its type; settings of types that are not supported are ignored.", "quantifier": "all fields and values", "why_tests_cant": "all combinations", "anchors": ["src/uvm/base/uvm_component.py:UVMComponent.apply_config_settings"]}
{"id": "C196", "title": "Settings for elements and for fields of sub-objects", "statement": "A setting named f[i] or f.x is applied to the element or handed to the sub-object, whatever other settings and fields there are.", "quantifier": "all fields, all orders of settings", "why_tests_cant": "all orders of settings", "anchors": ["src/uvm/base/uvm_component.py:UVMComponent.apply_config_settings", "src/uvm/macros/uvm_object_defines.py:uvm_field_utils_start"]}
{"id": "C197", "title": "Clones of register items are independent copies", "statement": "A clone of a register item has the contents of the item, and changing the clone does not change the item, however often it is cloned.", "quantifier": "all items, all histories of copies", "why_tests_cant": "depends on what was copied before in the whole simulation", "anchors": ["src/uvm/reg/uvm_reg_item.py:UVMRegItem.do_copy", "src/uvm/base/uvm_object.py:UVMObject.copy"]}
{"id": "C198", "title": "Indirect registers", "statement": "An access to register i of an indirect table writes i to the index register and then makes the access, with its value, to the data register.", "quantifier": "all indices, values and devices", "why_tests_cant": "all values and devices", "anchors": ["src/uvm/reg/uvm_reg_indirect.py:uvm_reg_indirect_ftdr_seq.body"]}
{"id": "C199", "title": "Indirect accesses leave the registers usable and report errors", "statement": "After an indirect access the index and data registers are free, and the access has the status of what failed or of the data access; predictions go to the register the index points to.", "quantifier": "all devices, all accesses", "why_tests_cant": "needs a device that refuses the index, and later accesses", "anchors": ["src/uvm/reg/uvm_reg_indirect.py:uvm_reg_indirect_ftdr_seq.body", "src/uvm/reg/uvm_reg.py:UVMReg.XatomicX"]}
{"id": "C200", "title": "sscanf reads what is written", "statement": "sscanf returns, in order, the values of the fields its format asks for when the text has these fields separated by one character each; text behind the last field does not matter, and an empty list is returned when fields are missing.", "quantifier": "all texts with fields of the supported kinds, all formats", "why_tests_cant": "all texts and formats", "anchors": ["src/uvm/base/sv.py:sv.sscanf", "src/uvm/base/sv.py:get_regex_list"]}
{"id": "C201", "title": "sscanf and signs, blanks, underscores", "statement": "sscanf reads negative numbers with their sign, skips blanks between fields, and does not raise.", "quantifier": "all texts", "why_tests_cant": "all texts", "anchors": ["src/uvm/base/sv.py:sv.sscanf", "src/uvm/base/sv.py:RE_FORMATS"]}
{"id": "C202", "title": "sformatf shows its arguments in order", "statement": "sformatf returns the message with the arguments in place of its specifiers, in order; it raises exactly when there are too few arguments or one for a hexadecimal specifier is not an integer.", "quantifier": "all messages without braces, all arguments", "why_tests_cant": "the specifiers are replaced kind after kind; all combinations matter", "anchors": ["src/uvm/base/sv.py:sv.sformatf"]}
{"id": "C203", "title": "sformatf uses the radix asked for", "statement": "%h and %x show a number in hexadecimal, %b in binary, %d in decimal.", "quantifier": "all numbers", "why_tests_cant": "all numbers", "anchors": ["src/uvm/base/sv.py:sv.sformatf"]}
{"id": "C204", "title": "Any text can be formatted", "statement": "sformatf returns text outside the specifiers as it is, braces included.", "quantifier": "all messages", "why_tests_cant": "all messages", "anchors": ["src/uvm/base/sv.py:sv.sformatf"]}
{"id": "C205", "title": "Configuration settings of the command line", "statement": "Every well-formed +uvm_set_config_int= and +uvm_set_config_string= argument sets the named field of the named components to the number, in any of the supported bases, or the text given, in order; other arguments set nothing.", "quantifier": "all command lines whose settings are well formed, all numbers and bases", "why_tests_cant": "all command lines and numbers", "anchors": ["src/uvm/base/uvm_root.py:UVMRoot.m_do_config_settings", "src/uvm/base/uvm_root.py:UVMRoot.m_process_config"]}
{"id": "C206", "title": "Malformed configuration settings", "statement": "A malformed configuration setting is reported, sets nothing, and does not affect the other settings; arguments with other names are not settings.", "quantifier": "all command lines", "why_tests_cant": "a malformed setting may affect any of the others", "anchors": ["src/uvm/base/uvm_root.py:UVMRoot.m_do_config_settings", "src/uvm/base/uvm_root.py:UVMRoot.m_process_config"]}
{"id": "C207", "title": "Maximum quit count of the command line", "statement": "The first +UVM_MAX_QUIT_COUNT=n[,YES|NO] sets the maximum quit count to n; with NO nothing changes it afterwards; malformed settings are reported.", "quantifier": "all command lines, all later calls", "why_tests_cant": "all later histories of calls", "anchors": ["src/uvm/base/uvm_root.py:UVMRoot.m_do_max_quit_settings", "src/uvm/base/uvm_report_server.py:UVMReportServer.set_max_quit_count"]}
{"id": "C208", "title": "set_timeout", "statement": "The timeout is that of the first set_timeout call that forbids overriding, else that of the last call.", "quantifier": "all histories of calls", "why_tests_cant": "all histories", "anchors": ["src/uvm/base/uvm_root.py:UVMRoot.set_timeout"]}
{"id": "C209", "title": "Timeout of the command line", "statement": "The first +UVM_TIMEOUT=n[,YES|NO] sets the timeout to n; with NO nothing changes it afterwards.", "quantifier": "all command lines", "why_tests_cant": "all numbers", "anchors": ["src/uvm/base/uvm_root.py:UVMRoot.m_do_timeout_settings"]}
{"id": "C210", "title": "Verbosity of the command line", "statement": "The first +UVM_VERBOSITY argument, a name or a number other than 0, decides the verbosity of the root, UVM_MEDIUM if there is none; every component starts with the verbosity its parent has then, so all components have the one of the command line unless somebody sets another.", "quantifier": "all command lines, all hierarchies", "why_tests_cant": "all numbers and hierarchies", "anchors": ["src/uvm/base/uvm_root.py:UVMRoot.m_check_verbosity", "src/uvm/base/uvm_component.py:UVMComponent.__init__"]}
{"id": "C211", "title": "Hierarchical report settings", "statement": "A set_report_..._hier call makes the setting once for the component and everything below it and for no other component.", "quantifier": "all histories of creations and settings, all components and settings", "why_tests_cant": "all hierarchies", "anchors": ["src/uvm/base/uvm_component.py:UVMComponent.set_report_verbosity_level_hier", "src/uvm/base/uvm_component.py:UVMComponent.set_report_severity_id_action_hier"]}
{"id": "C212", "title": "Verbosity settings for a time", "statement": "A +uvm_set_verbosity setting for time t takes effect at time t.", "quantifier": "all lists of settings", "why_tests_cant": "all combinations of times", "anchors": ["src/uvm/base/uvm_component.py:UVMComponent.m_fork_time_settings", "src/uvm/base/uvm_component.py:UVMComponent.m_set_comp_settings"]}
{"id": "C213", "title": "Verbosity settings for a phase", "statement": "A +uvm_set_verbosity setting for a phase takes effect on the components it matches when the phase starts.", "quantifier": "all settings, components and phases", "why_tests_cant": "all settings and phases", "anchors": ["src/uvm/base/uvm_component.py:UVMComponent.m_apply_verbosity_settings", "src/uvm/base/uvm_component.py:UVMComponent.m_set_cl_verb"]}
{"id": "C214", "title": "Malformed verbosity settings are reported", "statement": "The root warns about exactly the malformed verbosity settings of the command line and never raises.", "quantifier": "all command lines", "why_tests_cant": "all combinations of settings", "anchors": ["src/uvm/base/uvm_root.py:UVMRoot.m_do_verbosity_settings", "src/uvm/base/uvm_root.py:UVMRoot.m_check_verbosity"]}
{"id": "C215", "title": "Overrides of the command line", "statement": "+uvm_set_inst_override= and +uvm_set_type_override= arguments make the overrides they describe, in order; malformed ones are reported.", "quantifier": "all command lines", "why_tests_cant": "all command lines", "anchors": ["src/uvm/base/uvm_root.py:UVMRoot.m_do_factory_settings", "src/uvm/base/uvm_root.py:UVMRoot.m_process_inst_override"]}
{"id": "C216", "title": "Time resolutions do not show", "statement": "A UVMTLMTime reads, in every unit and through get_realtime or get_abstime, as the sum in seconds of what was done to it; its resolution, the default resolution, later changes of the default and operations on other times do not show, and exactly the operations that cannot be carried out are reported.", "quantifier": "all histories of resolution changes, constructions and operations", "why_tests_cant": "all histories and all numbers", "anchors": ["src/uvm/tlm2/uvm_tlm2_time.py:UVMTLMTime"]}
{"id": "C217", "title": "Laws of times", "statement": "What set_abstime sets, get_abstime reads in any unit; incr followed by decr of the same duration gives the time back; a reset time that is incremented reads as the increment.", "quantifier": "all times, durations and units", "why_tests_cant": "all numbers", "anchors": ["src/uvm/tlm2/uvm_tlm2_time.py:UVMTLMTime.set_abstime", "src/uvm/tlm2/uvm_tlm2_time.py:UVMTLMTime.incr", "src/uvm/tlm2/uvm_tlm2_time.py:UVMTLMTime.decr"]}
{"id": "C218", "title": "Times are never negative", "statement": "A UVMTLMTime is never negative; attempts to make it negative are reported.", "quantifier": "all histories", "why_tests_cant": "all histories and all numbers", "anchors": ["src/uvm/tlm2/uvm_tlm2_time.py:UVMTLMTime.decr", "src/uvm/tlm2/uvm_tlm2_time.py:UVMTLMTime.set_abstime"]}
{"id": "C219", "title": "The register access test accepts correct devices", "statement": "On a device that follows the documented access policies, on every map and in its signals, the register access test reports no error and leaves the mirror in agreement with the device.", "quantifier": "all registers, maps and devices that follow the documentation", "why_tests_cant": "all devices", "anchors": ["src/uvm/reg/sequences/uvm_reg_access_seq.py:UVMRegSingleAccessSeq.body", "src/uvm/reg/uvm_reg.py:UVMReg.do_check"]}
{"id": "C220", "title": "The register access test finds disconnected registers", "statement": "If the register access test runs without an error, then through every map and for every compared read/write bit a front-door write of a value was seen in the signal, and the opposite value deposited in the signal was read through the front door; in particular a map whose writes do not reach the signal is reported.", "quantifier": "all registers, maps and devices", "why_tests_cant": "all devices, correct or not", "anchors": ["src/uvm/reg/sequences/uvm_reg_access_seq.py:UVMRegSingleAccessSeq.body"]}
{"id": "C221", "title": "The register access test tests all maps", "statement": "A register with a back door that is not excluded is tested through every map that gives access to it.", "quantifier": "all registers and maps", "why_tests_cant": "all combinations of rights and policies", "anchors": ["src/uvm/reg/sequences/uvm_reg_access_seq.py:UVMRegSingleAccessSeq.body"]}
{"id": "C222", "title": "The register access test of a block", "statement": "The access test of a block tests the registers with a back door that the bit bash test of the same block tests, in the same order, and warns about the others.", "quantifier": "all block hierarchies", "why_tests_cant": "all hierarchies", "anchors": ["src/uvm/reg/sequences/uvm_reg_access_seq.py:UVMRegAccessSeq.do_block"]}
{"id": "C223", "title": "Sequence macros", "statement": "Items sent by the sequence macros (uvm_do*, uvm_send*), in bodies of sequences that start other sequences to any depth, are sent in program order, each by the sequence that was granted access, to the sequencer that granted it, once per grant and at the priority given or inherited; random values are drawn after the grant, between pre_do and mid_do; post_do follows.", "quantifier": "all bodies, nestings and priorities", "why_tests_cant": "all programs", "anchors": ["src/uvm/macros/uvm_sequence_defines.py:uvm_do_on_pri_with", "src/uvm/seq/uvm_sequence_base.py:UVMSequenceBase.start_item", "src/uvm/seq/uvm_sequence_base.py:UVMSequenceBase.finish_item"]}
{"id": "C224", "title": "Sequence macros use the sequencer they are given", "statement": "uvm_do_on, uvm_do_on_with and uvm_do_on_pri_with send the item to, or start the sequence on, the sequencer they are given.", "quantifier": "all sequences, items and sequencers", "why_tests_cant": "all combinations of sequencers", "anchors": ["src/uvm/macros/uvm_sequence_defines.py:uvm_do_on_pri_with"]}
{"id": "C225", "title": "Sequence macros use the factory", "statement": "The object sent by a uvm_do macro has the type the factory makes for the type it is given.", "quantifier": "all overrides", "why_tests_cant": "all overrides", "anchors": ["src/uvm/macros/uvm_sequence_defines.py:uvm_do_on_pri_with", "src/uvm/macros/uvm_sequence_defines.py:uvm_create_on"]}
{"id": "C226", "title": "Waiting for a resource to change", "statement": "wait_modified returns only for a change of the value, using up one change; while a change has not been used up no waiting task is asleep, and the first that runs returns.", "quantifier": "all histories and schedules", "why_tests_cant": "all schedules", "anchors": ["src/uvm/base/uvm_resource.py:UVMResourceBase.wait_modified", "src/uvm/base/uvm_resource.py:UVMResource.write", "src/uvm/base/sv.py:wait"]}
{"id": "C227", "title": "A change releases all tasks that wait for it", "statement": "A write that changes the value releases any processes blocked on wait_modified.", "quantifier": "all numbers of tasks and schedules", "why_tests_cant": "all schedules", "anchors": ["src/uvm/base/uvm_resource.py:UVMResourceBase.wait_modified"]}
{"id": "C228", "title": "Default sequences of phases", "statement": "A sequence set as default_sequence for a phase of a sequencer is started when the phase starts.", "quantifier": "all settings", "why_tests_cant": "all settings", "anchors": ["src/uvm/seq/uvm_sequencer_base.py:UVMSequencerBase.start_phase_sequence"]}
{"id": "C229", "title": "Coverage control reaches everything within", "statement": "set_coverage on a block, register or memory turns on, in it and in everything within it, exactly the named models that are present there, and all others off; has_coverage and get_coverage answer accordingly after any history.", "quantifier": "all register models and histories of construction, add_coverage and set_coverage calls", "why_tests_cant": "all trees and histories", "anchors": ["src/uvm/reg/uvm_reg_block.py:UVMRegBlock.set_coverage", "src/uvm/reg/uvm_reg.py:UVMReg.set_coverage", "src/uvm/reg/uvm_mem.py:UVMMem.set_coverage"]}
{"id": "C230", "title": "set_coverage returns what was on before", "statement": "set_coverage returns the sum of the coverage models whose measurement was previously on.", "quantifier": "all states and arguments", "why_tests_cant": "all states", "anchors": ["src/uvm/reg/uvm_reg_block.py:UVMRegBlock.set_coverage", "src/uvm/reg/uvm_reg.py:UVMReg.set_coverage"]}
{"id": "C231", "title": "sample_values samples all registers and blocks within", "statement": "sample_values of a block calls sample_values of every register and block within it exactly once.", "quantifier": "all register models", "why_tests_cant": "all trees", "anchors": ["src/uvm/reg/uvm_reg_block.py:UVMRegBlock.sample_values"]}
{"id": "C232", "title": "A block is sampled for accesses within its maps", "statement": "Whenever an address within one of a block's address maps is successfully accessed, the block's sample method is called.", "quantifier": "all register models and accesses", "why_tests_cant": "all trees", "anchors": ["src/uvm/reg/uvm_reg_block.py:UVMRegBlock.XsampleX", "src/uvm/reg/uvm_reg.py:UVMReg.do_write"]}
{"id": "C233", "title": "build_coverage tells what include_coverage included", "statement": "build_coverage returns which of the given models were included for the object, none if none were.", "quantifier": "all settings", "why_tests_cant": "all settings", "anchors": ["src/uvm/reg/uvm_reg.py:UVMReg.build_coverage", "src/uvm/reg/uvm_reg.py:UVMReg.include_coverage"]}
{"id": "C234", "title": "The standard schedule", "statement": "However and whenever the common domain, the uvm domain and the uvm schedule are asked for, the same objects are returned, and in every execution of the phases so built each documented common and run-time phase is there once and starts only after all phases documented to come before it are done; the run phase and the run-time phases are not ordered.", "quantifier": "all sequences of calls, all schedules of the phase processes, all objections", "why_tests_cant": "every interleaving of the phase processes", "anchors": ["src/uvm/base/uvm_domain.py:UVMDomain.get_common_domain", "src/uvm/base/uvm_domain.py:UVMDomain.get_uvm_domain", "src/uvm/base/uvm_domain.py:UVMDomain.add_uvm_phases"]}
{"id": "C235", "title": "Domains are registered by name", "statement": "get_domains has for every name the domain made last with that name, each name once; making a domain with a name in use is reported, and only that.", "quantifier": "all sequences of domains", "why_tests_cant": "all histories", "anchors": ["src/uvm/base/uvm_domain.py:UVMDomain.__init__", "src/uvm/base/uvm_domain.py:UVMDomain.get_domains"]}
{"id": "C236", "title": "A translated register item keeps its parent", "statement": "While do_reg_item translates an item its bus transactions are children of the translation sequence (or of the item's own parent if so selected), and afterwards the item has the parent it had before.", "quantifier": "all items, all interleavings of tasks calling do_reg_item", "why_tests_cant": "all interleavings", "anchors": ["src/uvm/reg/uvm_reg_sequence.py:UVMRegSequence.do_reg_item"]}
{"id": "C237", "title": "A translation sequence translates in order", "statement": "The body of a translation sequence translates the items of its upstream sequencer in the order they come, each exactly once, and does not stop while one is left.", "quantifier": "all arrivals and all interleavings", "why_tests_cant": "all schedules, unbounded runs", "anchors": ["src/uvm/reg/uvm_reg_sequence.py:UVMRegSequence.body"]}
{"id": "C238", "title": "Read-only and write-only callbacks refuse accesses", "statement": "After UVMRegReadOnlyCbs.add(reg) every write of the register is refused before it reaches the device, and after UVMRegWriteOnlyCbs.add(reg) every read.", "quantifier": "all registers, devices, values", "why_tests_cant": "all registers and values", "anchors": ["src/uvm/reg/uvm_reg_cbs.py:UVMRegReadOnlyCbs.add", "src/uvm/reg/uvm_reg_cbs.py:UVMRegWriteOnlyCbs.add"]}
{"id": "C239", "title": "Fields of a virtual register are kept in order and overlaps are reported", "statement": "Whatever fields are configured in a virtual register, in whatever order, the register lists exactly these ordered by position, and an error is reported if and only if two of them overlap or their sizes exceed the width.", "quantifier": "all widths and all lists of fields in any order", "why_tests_cant": "unbounded lists and all orders", "anchors": ["src/uvm/reg/uvm_vreg.py:UVMVReg.add_field", "src/uvm/reg/uvm_vreg_field.py:UVMVRegField.configure"]}
{"id": "C240", "title": "A field outside its virtual register is reported", "statement": "Configuring a field that lies beyond the width of its virtual register is reported as an error.", "quantifier": "all widths, positions and sizes", "why_tests_cant": "all positions", "anchors": ["src/uvm/reg/uvm_vreg.py:UVMVReg.add_field"]}
{"id": "C241", "title": "A virtual register array goes where it fits", "statement": "implement(n, mem, offset, incr) succeeds if and only if the memory is in the block of the register, the increment has room for one register and all n registers are inside the memory and free, and reserves exactly their locations.", "quantifier": "all sizes, offsets, increments and memories", "why_tests_cant": "unbounded arithmetic", "anchors": ["src/uvm/reg/uvm_vreg.py:UVMVReg.implement"]}
{"id": "C242", "title": "A virtual register can be moved unless it is static", "statement": "A dynamically implemented virtual register can be implemented again elsewhere, releasing its old region; a static one cannot be.", "quantifier": "all histories of implement", "why_tests_cant": "unbounded histories", "anchors": ["src/uvm/reg/uvm_vreg.py:UVMVReg.implement", "src/uvm/reg/uvm_vreg.py:UVMVReg.configure"]}
{"id": "C243", "title": "Connections across the hierarchy are warned about", "statement": "connect reports a connection warning if and only if the connection is made and has none of the documented forms: child port to parent port, port to an export or imp at the same level, parent export to child export or imp; connections of analysis ports are never warned about, and a warning does not change the connection.", "quantifier": "all ports at all places of all hierarchies", "why_tests_cant": "unbounded hierarchies", "anchors": ["src/uvm/base/uvm_port_base.py:UVMPortBase.m_check_relationship", "src/uvm/base/uvm_port_base.py:UVMPortBase.connect"]}
{"id": "C244", "title": "The copy of a report message says the same", "statement": "Copying a report message gives a message with the same settings and elements, of which the same text is composed.", "quantifier": "all messages with all elements", "why_tests_cant": "unbounded element lists and texts", "anchors": ["src/uvm/base/uvm_report_message.py:UVMReportMessage.do_copy", "src/uvm/base/uvm_report_message.py:UVMReportMessageElementContainer.do_copy"]}
{"id": "C245", "title": "Elements of a report message are printed", "statement": "The text composed of a message shows the name and value of every element added to it.", "quantifier": "all messages with all elements", "why_tests_cant": "unbounded element lists", "anchors": ["src/uvm/base/uvm_report_message.py:UVMReportMessageElementContainer.do_print", "src/uvm/base/uvm_report_server.py:UVMReportServer.compose_report_message"]}
{"id": "C246", "title": "The composed text shows everything", "statement": "Two messages whose composed texts are the same have the same severity, file and line, time, reporter, context, id and text (names without the separators of the format).", "quantifier": "all pairs of messages", "why_tests_cant": "all pairs of unbounded texts", "anchors": ["src/uvm/base/uvm_report_server.py:UVMReportServer.compose_report_message"]}
{"id": "C247", "title": "The server lists all ids and severities", "statement": "get_id_set gives every id reported so far, each once, in the order of first use; get_severity_set the four severities; whenever they are called.", "quantifier": "all histories of reports and calls", "why_tests_cant": "unbounded histories", "anchors": ["src/uvm/base/uvm_report_server.py:UVMReportServer.get_id_set", "src/uvm/base/uvm_report_server.py:UVMReportServer.get_severity_set"]}
{"id": "C248", "title": "The report summary counts exactly", "statement": "The summary has one line for each severity and each reported id with the exact number of its messages, no other such lines, and says that the quit count was reached if and only if it was.", "quantifier": "all histories of reports", "why_tests_cant": "unbounded histories", "anchors": ["src/uvm/base/uvm_report_server.py:UVMReportServer.get_summary_string"]}
{"id": "C249", "title": "Adjacent phases", "statement": "get_adjacent_successor_nodes of a phase gives exactly the phases that come next after it, looking through schedules, domains and their ends, each once.", "quantifier": "all acyclic phase graphs and all phases", "why_tests_cant": "all graphs", "anchors": ["src/uvm/base/uvm_phase.py:UVMPhase.get_adjacent_successor_nodes"]}
{"id": "C250", "title": "Phases are found by name", "statement": "find_by_name gives a phase of that name if and only if there is one before or after the phase asked, on a way within the scope.", "quantifier": "all acyclic phase graphs, names, scopes", "why_tests_cant": "all graphs", "anchors": ["src/uvm/base/uvm_phase.py:UVMPhase.find_by_name", "src/uvm/base/uvm_phase.py:UVMPhase.m_find_predecessor_by_name", "src/uvm/base/uvm_phase.py:UVMPhase.m_find_successor_by_name"]}
{"id": "C251", "title": "Waiting for the state of a phase", "statement": "wait_for_state returns as soon as the phase is in a state asked for, for each task that waits, and not before.", "quantifier": "all histories of state changes and all tasks and schedules", "why_tests_cant": "depends on the interleaving of tasks", "anchors": ["src/uvm/base/uvm_phase.py:UVMPhase.wait_for_state", "src/uvm/base/uvm_phase.py:UVMPhase.set_state"]}
{"id": "C252", "title": "The test asked for runs", "statement": "run_test makes exactly one uvm_test_top, of the type the factory resolves the first +UVM_TESTNAME (else its argument) to, and runs the phases and the summary; it runs no phase if the name is unknown, if there is a test already or if there is no component; further names are warned about; over any calls there is at most one test.", "quantifier": "all command lines, arguments, factories and histories of calls", "why_tests_cant": "all command lines and histories", "anchors": ["src/uvm/base/uvm_root.py:UVMRoot.run_test"]}
{"id": "C253", "title": "find gives the first match", "statement": "find gives the component that matches, the first one with a warning if there are several, and None with a warning if there is none.", "quantifier": "all component trees and patterns", "why_tests_cant": "all trees", "anchors": ["src/uvm/base/uvm_root.py:UVMRoot.find"]}
{"id": "C254", "title": "Submaps form a forest", "statement": "However address maps are created, added to each other and moved, each map is a submap of at most one map, get_root_map ends at a map without parent above it, get_submaps lists each map below exactly once, and sequencer, adapter and endianness come from the root map; add_submap accepts a map iff it has no parent map and its block is below.", "quantifier": "all histories of create_map, add_submap, set_submap_offset, set_sequencer", "why_tests_cant": "all histories and shapes", "anchors": ["src/uvm/reg/uvm_reg_map.py:UVMRegMap.add_submap", "src/uvm/reg/uvm_reg_map.py:UVMRegMap.set_submap_offset", "src/uvm/reg/uvm_reg_map.py:UVMRegMap.get_root_map", "src/uvm/reg/uvm_reg_map.py:UVMRegMap.get_submaps"]}
{"id": "C255", "title": "Wrong submaps are refused", "statement": "add_submap and set_submap_offset report an error and change nothing when given None, a map that is already in another one, a map whose block is not below, or a map that is not a submap.", "quantifier": "all states and arguments", "why_tests_cant": "all states", "anchors": ["src/uvm/reg/uvm_reg_map.py:UVMRegMap.add_submap", "src/uvm/reg/uvm_reg_map.py:UVMRegMap.set_submap_offset"]}
{"id": "C256", "title": "The default map of a block", "statement": "The default map of a block is the first map made for it until another is set, and then that one until the next is set; setting a map of another block is warned about.", "quantifier": "all histories", "why_tests_cant": "all histories", "anchors": ["src/uvm/reg/uvm_reg_block.py:UVMRegBlock.create_map", "src/uvm/reg/uvm_reg_block.py:UVMRegBlock.set_default_map"]}
{"id": "C257", "title": "Maps are found by name", "statement": "get_map_by_name finds a map iff the block has a map, or a map below one of its maps, of that name; own maps come first.", "quantifier": "all reachable map structures and names", "why_tests_cant": "all structures", "anchors": ["src/uvm/reg/uvm_reg_block.py:UVMRegBlock.get_map_by_name"]}
{"id": "C258", "title": "Registers are written by name", "statement": "write_reg_by_name writes the named register and gives its status.", "quantifier": "all blocks and names", "why_tests_cant": "all blocks", "anchors": ["src/uvm/reg/uvm_reg_block.py:UVMRegBlock.write_reg_by_name"]}
{"id": "C259", "title": "Overlaps of memories are warned about", "statement": "When the addresses of a model are computed, each register at an address of a memory and each pair of overlapping memories is warned about, and the computation goes on.", "quantifier": "all sets of registers and memories and their addresses", "why_tests_cant": "all address layouts", "anchors": ["src/uvm/reg/uvm_reg_map.py:UVMRegMap.Xinit_address_mapX"]}
{"id": "C260", "title": "Access policies by name", "statement": "define_access() answers True exactly if the name, in any case of letters, is neither built in nor defined before. configure() gives a field the named policy in capitals if it is known at that time and RW otherwise; set_access() answers the policy before, changes to a known policy and changes nothing for an unknown one; nothing else changes the policy of a field, so at all times a field has a known policy.", "quantifier": "all histories of defining policies and making, configuring and changing fields, all names", "why_tests_cant": "The table of names is shared by all fields and grows; the claim is about every interleaving of definitions and uses.", "anchors": ["src/uvm/reg/uvm_reg_field.py: UVMRegField.define_access, m_predefine_policies, configure, set_access"]}
{"id": "C261", "title": "is_known_access tells built-in policies from others", "statement": "is_known_access() is true through the back door or a map with full rights exactly for built-in policies, through a map with read-only rights exactly for built-in policies of fields that can be read, and through other maps never.", "quantifier": "all policies a field can have after any history, all rights", "why_tests_cant": "All user-defined names and rights.", "anchors": ["src/uvm/reg/uvm_reg_field.py: UVMRegField.is_known_access, get_access"]}
{"id": "C262", "title": "Fields that cannot be written are not randomized", "statement": "A field configured with is_rand False, or with a built-in policy under which it cannot be written as it is, keeps its value under randomize().", "quantifier": "all histories, sizes, policies and values of is_rand", "why_tests_cant": "All configurations of fields.", "anchors": ["src/uvm/reg/uvm_reg_field.py: UVMRegField.configure"]}
{"id": "C263", "title": "The text of report actions names the actions set", "statement": "format_action() gives UVM_NO_ACTION for no action and otherwise the names of the actions set, in a fixed order; different sets of actions have different texts.", "quantifier": "all action values", "why_tests_cant": "All numbers, including ones with bits beyond the seven actions.", "anchors": ["src/uvm/base/uvm_report_handler.py: UVMReportHandler.format_action"]}
{"id": "C264", "title": "The text of report actions can be read back", "statement": "uvm_string_to_action() of the text that format_action() gives is the action.", "quantifier": "all action values", "why_tests_cant": "All actions.", "anchors": ["src/uvm/base/uvm_report_handler.py: UVMReportHandler.format_action", "src/uvm/base/uvm_globals.py: uvm_string_to_action"]}
{"id": "C265", "title": "Integers and texts are set in exactly the matching fields", "statement": "After any history of settings that did not raise, set_int_local() and set_string_local() do not raise and set exactly the fields of the object that are not read-only and whose name matches the pattern; no other attribute of any object changes.", "quantifier": "all objects and registered fields, all histories of settings (integers, texts, objects) that did not raise, all patterns and any matching", "why_tests_cant": "The scope used for matching is shared by all objects, so the claim depends on everything that was set before.", "anchors": ["src/uvm/base/uvm_object.py: UVMObject.set_int_local, set_string_local", "src/uvm/macros/uvm_object_defines.py: uvm_field_utils_start", "src/uvm/base/uvm_misc.py: UVMStatusContainer"]}
{"id": "C266", "title": "Objects are set in exactly the fields the path names", "statement": "set_object_local() with a plain name sets exactly the matching fields of the object itself. With a path or wildcard, on a tree of objects, it sets exactly the fields at any depth whose dotted path matches and whose owner is reached through fields that are not read-only and not matched themselves. It ends also when objects refer to each other in circles, and leaves the shared scope as it was.", "quantifier": "all objects, references (trees of any depth; for the end of the call also circles), histories of settings that did not raise, patterns and values", "why_tests_cant": "Unbounded depth and all shapes of references.", "anchors": ["src/uvm/base/uvm_object.py: UVMObject.set_object_local", "src/uvm/macros/uvm_object_defines.py: uvm_field_utils_start", "src/uvm/base/uvm_misc.py: UVMStatusContainer.m_do_cycle_check", "src/uvm/base/uvm_scope_stack.py: UVMScopeStack"]}
{"id": "C267", "title": "A setting that raised does not change what later settings do", "statement": "Whatever settings were made before, and whether or not they raised, set_int_local() changes only the matching fields of its object.", "quantifier": "all histories of settings, all objects and patterns", "why_tests_cant": "All histories with exceptions.", "anchors": ["src/uvm/macros/uvm_object_defines.py: uvm_field_utils_start", "src/uvm/base/uvm_scope_stack.py: UVMScopeStack", "src/uvm/base/uvm_object.py: UVMObject.set_object_local"]}
{"id": "C268", "title": "Components are in the domain they were put into", "statement": "set_domain(d, hier) puts the domain into the component and, with hier, into every component below it at any depth, and into no other component; it does not fail. A new component is in the domain of its parent, and creating components or domains changes the domain of nobody else.", "quantifier": "all histories of creating domains and components and of set_domain, all trees of components of any size and depth", "why_tests_cant": "Tests set the domain of one small tree; the claim is about trees of any depth, after any history of earlier calls.", "anchors": ["src/uvm/base/uvm_component.py: UVMComponent.set_domain, define_domain, __init__", "src/uvm/base/uvm_root.py: UVMRoot"]}
{"id": "C269", "title": "Every domain of a component has the documented run-time phases, in order, next to the run phase", "statement": "Whatever domains are created and given to components, in whatever order and how often, each domain that a component is in has each of the twelve run-time phases exactly once and no others; in every execution the phases of the domain and the common phases follow the documented order (all run-time phases after start_of_simulation and before extract), and run-time phases of different domains, or the run phase and run-time phases, do not wait for each other.", "quantifier": "all histories of creating domains (not called uvm_sched) and components and of set_domain with domains other than the common one; all executions of the resulting schedule", "why_tests_cant": "The schedule is built by relinking dictionaries that phases share; a test sees one or two domains and one execution order.", "anchors": ["src/uvm/base/uvm_component.py: UVMComponent.define_domain", "src/uvm/base/uvm_phase.py: UVMPhase.add, find, find_by_name", "src/uvm/base/uvm_domain.py: UVMDomain.add_uvm_phases"]}
{"id": "C270", "title": "Any domain can be given to a component", "statement": "Whatever the name of the domain, and also for the common domain, a component that is put into it has the run-time phases, before extract.", "quantifier": "all domains and names", "why_tests_cant": "Tests use ordinary names and domains made for the purpose.", "anchors": ["src/uvm/base/uvm_component.py: UVMComponent.define_domain", "src/uvm/base/uvm_phase.py: UVMPhase.find_by_name"]}
{"id": "C271", "title": "A component takes part in one phase of each name", "statement": "For each documented phase name a component takes part in exactly one of the phases of that name that exist: for a common phase that of the common domain, for a run-time phase that of its own domain. There are no phases of other names.", "quantifier": "all components after all histories as in C269", "why_tests_cant": "With several domains there are many phases of the same name; the claim is about all of them and all components.", "anchors": ["src/uvm/base/uvm_topdown_phase.py: UVMTopdownPhase.traverse", "src/uvm/base/uvm_phase.py: UVMPhase.get_domain"]}
{"id": "C272", "title": "The full name of a phase is the path to it", "statement": "get_full_name() of a phase node or schedule is the name of its domain, the names of all schedules around it from the outermost to the innermost, and its own name, joined by dots; \"unknown\" stands for the domain of a phase that is in none; a domain and an IMP phase give their own name. This holds after any sequence of constructor and add() calls in which every name is non-empty, phases are added to schedules and domains, and no schedule is added to itself or to one within it.", "quantifier": "all such histories of phase constructions and add() calls, all nesting depths, all phases", "why_tests_cant": "the path can be of any depth and is assembled by three loops over the parents; a test shows a few shapes only", "anchors": ["src/uvm/base/uvm_phase.py:UVMPhase.get_full_name", "src/uvm/base/uvm_phase.py:UVMPhase.get_schedule_name", "src/uvm/base/uvm_phase.py:UVMPhase.get_domain_name"]}
{"id": "C273", "title": "Names follow additions", "statement": "After self.add(phase) with an IMP phase the new node's full name is the full name of self, a dot and the name of the phase. After adding a schedule, the full names of the schedule and of everything within it start with the full name of self. All other phases keep their full names.", "quantifier": "all histories as in C272, all placements (with, after, before) that succeed", "why_tests_cant": "moving a schedule renames an unbounded number of phases", "anchors": ["src/uvm/base/uvm_phase.py:UVMPhase.add", "src/uvm/base/uvm_phase.py:UVMPhase.get_full_name"]}
{"id": "C274", "title": "The schedule of a phase", "statement": "get_schedule() gives a node the schedule it was added to and a schedule itself; get_schedule(hier=True) gives the outermost schedule around; get_schedule_name gives the path from the outermost schedule to that schedule; a node directly in a domain has no schedule and an empty schedule name.", "quantifier": "all histories as in C272, all phases, both values of hier", "why_tests_cant": "any nesting depth", "anchors": ["src/uvm/base/uvm_phase.py:UVMPhase.get_schedule", "src/uvm/base/uvm_phase.py:UVMPhase.get_schedule_name"]}
{"id": "C275", "title": "The ends of schedules are named by their path", "statement": "get_full_name() of the end of a schedule or domain is the path to it.", "quantifier": "all histories as in C272, all end phases", "why_tests_cant": "any nesting depth", "anchors": ["src/uvm/base/uvm_phase.py:UVMPhase.get_full_name", "src/uvm/base/uvm_phase.py:UVMPhase.get_schedule"]}
{"id": "C276", "title": "Asking a phase for its name ends", "statement": "get_full_name, get_domain and get_schedule return for every phase after every sequence of add() calls that succeeded.", "quantifier": "all histories of phase constructions and add() calls, all phases", "why_tests_cant": "termination for every graph of parents", "anchors": ["src/uvm/base/uvm_phase.py:UVMPhase.get_domain", "src/uvm/base/uvm_phase.py:UVMPhase.get_schedule", "src/uvm/base/uvm_phase.py:UVMPhase.add"]}
{"id": "C277", "title": "A block, register or memory gives the nearest back door", "statement": "get_backdoor() of a block gives the block's own back door, else that of the nearest enclosing block that has one, else None; get_backdoor(False) gives its own only. A register or memory that has not been asked before gives the back door set for it last, else the nearest one of its enclosing blocks.", "quantifier": "all hierarchies of blocks, all histories of settings and of calls on other elements", "why_tests_cant": "all depths and all histories", "anchors": ["src/uvm/reg/uvm_reg_block.py:UVMRegBlock.get_backdoor", "src/uvm/reg/uvm_reg.py:UVMReg.get_backdoor", "src/uvm/reg/uvm_mem.py:UVMMem.get_backdoor", "src/uvm/reg/uvm_mem.py:UVMMem.set_backdoor"]}
{"id": "C278", "title": "Changes of a block's back door are seen by its registers and memories", "statement": "After the back door of a block is replaced or removed, get_backdoor() of the registers and memories in it, without back doors of their own, gives the new one.", "quantifier": "all histories of settings and calls", "why_tests_cant": "depends on whether the element was ever asked before", "anchors": ["src/uvm/reg/uvm_reg.py:UVMReg.get_backdoor", "src/uvm/reg/uvm_mem.py:UVMMem.get_backdoor"]}
{"id": "C279", "title": "Data written through encoding back-door callbacks reads back", "statement": "When the callbacks of a user back door have encode and decode functions that are inverse, a value written through the back door and then read through it is the value written, and what is stored is the value encoded by the callbacks in order.", "quantifier": "all lists of callbacks, all data", "why_tests_cant": "all callback functions and data", "anchors": ["src/uvm/reg/uvm_reg_backdoor.py:UVMRegBackdoor.do_pre_write", "src/uvm/reg/uvm_reg_backdoor.py:UVMRegBackdoor.do_post_read", "src/uvm/reg/uvm_reg_cbs.py:UVMRegCbs.encode"]}
{"id": "C280", "title": "The hooks of a user back door run", "statement": "do_pre_write, do_post_write, do_pre_read and do_post_read run the corresponding methods of the back door and of its enabled callbacks, in the order documented; disabled callbacks have no effect.", "quantifier": "all back doors, callbacks and items", "why_tests_cant": "all callback functions and lists", "anchors": ["src/uvm/reg/uvm_reg_backdoor.py:UVMRegBackdoor.do_pre_read", "src/uvm/reg/uvm_reg_backdoor.py:UVMRegBackdoor.do_post_read", "src/uvm/reg/uvm_reg_backdoor.py:UVMRegBackdoor.do_pre_write", "src/uvm/reg/uvm_reg_backdoor.py:UVMRegBackdoor.do_post_write"]}
{"id": "C281", "title": "Memory poke and peek work through user back doors", "statement": "poke() of a memory with a user back door writes the value through it and peek() reads the value through it, reporting the status of the access; with neither back door nor HDL path the calls are refused with UVM_NOT_OK.", "quantifier": "all back doors, memory contents and values", "why_tests_cant": "all back doors and values", "anchors": ["src/uvm/reg/uvm_mem.py:UVMMem.poke", "src/uvm/reg/uvm_mem.py:UVMMem.peek"]}
{"id": "C282", "title": "TLM interfaces have the methods their names promise, and providers that offer them are accepted", "statement": "Every TLM port, export and imp class has exactly the blocking and non-blocking methods its name promises; connect() accepts every provider that offers all methods of the port (masters and slaves: one of the same side), and masters and slaves are connected to their like only.", "quantifier": "all pairs of interface classes, all methods", "why_tests_cant": "all pairs of 23 classes and 20 methods", "anchors": ["src/uvm/macros/uvm_tlm_defines.py:UVM_TLM_PUT_MASK", "src/uvm/tlm1/uvm_ports.py", "src/uvm/tlm1/uvm_exports.py", "src/uvm/tlm1/uvm_imps.py", "src/uvm/tlm1/uvm_tlm_imps.py"]}
{"id": "C283", "title": "A provider accepted by connect() offers every method of the port", "statement": "If connect() passes the interface check, every interface method of the port is a method of the provider.", "quantifier": "all pairs of interface classes", "why_tests_cant": "all pairs of classes", "anchors": ["src/uvm/base/uvm_port_base.py:UVMPortBase.connect", "src/uvm/macros/uvm_tlm_defines.py:UVM_TLM_BLOCKING_TRANSPORT_MASK"]}
{"id": "C284", "title": "Calls on ports reach the implementation", "statement": "After connecting and binding in any order, each interface method called on a port or export that leads to an implementation calls that method once on the component behind the first implementation in connection order (for master and slave imps: the request component for one direction, the response component for the other), write on all of them, and results of functions come back to the caller.", "quantifier": "all acyclic networks of ports of all classes, all orders of binding, all methods", "why_tests_cant": "all networks and depths", "anchors": ["src/uvm/tlm1/uvm_tlm_imps.py", "src/uvm/tlm1/uvm_imps.py", "src/uvm/base/uvm_port_base.py:UVMPortBase.resolve_bindings"]}
{"id": "C285", "title": "The default implementation of a port can be chosen", "statement": "set_default_index(i) makes the interface methods of the port go to its i-th implementation; so does set_if(i), and neither affects other ports.", "quantifier": "all bound networks, ports and indices", "why_tests_cant": "all networks and indices", "anchors": ["src/uvm/base/uvm_port_base.py:UVMPortBase.set_default_index", "src/uvm/base/uvm_port_base.py:UVMPortBase.set_if"]}
{"id": "C286", "title": "TLM2 forward calls reach the target", "statement": "After binding, a transport call on an initiator or pass-through socket reaches the component of the first target socket its connections lead to, of the same (blocking or non-blocking) flavour, through any number of pass-through sockets; if the connections lead to no target the call raises. A call with a null delay is refused with an error and calls nobody.", "quantifier": "every set of sockets, every history of connect calls without cycles, every socket, every order of binding", "why_tests_cant": "The topology of pass-through sockets and the order of the connect calls are unbounded.", "anchors": ["src/uvm/tlm2/uvm_tlm2_sockets.py:connect", "src/uvm/tlm2/uvm_tlm2_sockets_base.py", "src/uvm/tlm2/uvm_tlm2_imps.py:UVM_TLM_B_TRANSPORT_IMP, UVM_TLM_NB_TRANSPORT_FW_IMP"]}
{"id": "C287", "title": "TLM2 backward calls reach the initiator", "statement": "After binding, nb_transport_bw on a target or pass-through socket reaches the component of the initiator that was connected to it, directly or through pass-through sockets.", "quantifier": "every set of sockets, every history of connect calls without cycles, every socket", "why_tests_cant": "The topology of pass-through sockets and the order of the connect calls are unbounded.", "anchors": ["src/uvm/tlm2/uvm_tlm2_sockets.py:UVMTLMNbInitiatorSocket.connect, UVMTLMNbPassthroughInitiatorSocket.connect, UVMTLMNbPassthroughTargetSocket.connect", "src/uvm/tlm2/uvm_tlm2_imps.py:UVM_TLM_NB_TRANSPORT_BW_IMP"]}
{"id": "C288", "title": "Sockets report a missing implementation", "statement": "The constructor of a socket that needs an implementing component takes the given one, else the parent, and reports an error exactly when there is neither.", "quantifier": "every parent and implementation argument, every kind of socket", "why_tests_cant": "It is a statement about all combinations of the arguments; only one class of them is usual.", "anchors": ["src/uvm/tlm2/uvm_tlm2_sockets.py:UVMTLMNbInitiatorSocket.__init__, UVMTLMBTargetSocket.__init__, UVMTLMNbTargetSocket.__init__"]}
{"id": "C289", "title": "Invalid socket connections are reported and not made", "statement": "connect of a socket reports an error exactly when the provider is not one of the documented kinds of sockets for it, of the same flavour, and then the connection is not made.", "quantifier": "every pair of sockets, every state of their connections", "why_tests_cant": "All pairs of socket kinds in all states of connection are meant.", "anchors": ["src/uvm/tlm2/uvm_tlm2_sockets.py:connect of all eight classes"]}
{"id": "C290", "title": "Copies of queues are independent", "statement": "A queue copied or cloned from another holds the elements of the other at that time, and from then on what is done to one does not show in the other. Queues that were not copied never interfere.", "quantifier": "every history of constructions, method calls, copies and clones of any number of queues", "why_tests_cant": "Interference between objects shows only in some histories of calls on both.", "anchors": ["src/uvm/base/uvm_queue.py:UVMQueue.do_copy, UVMQueue.create, UVMQueue.delete", "src/uvm/base/uvm_object.py:copy, clone"]}
{"id": "C291", "title": "Copies of pools hold the same entries", "statement": "A pool copied or cloned from another holds the entries of the other.", "quantifier": "every pool, every key", "why_tests_cant": "It is about all contents.", "anchors": ["src/uvm/base/uvm_pool.py:UVMPool.create", "src/uvm/base/uvm_object.py:copy, clone, do_copy"]}
{"id": "C292", "title": "Printing a pool shows every entry and changes nothing", "statement": "Printing a pool shows every key once, in order of insertion, whatever was done to the pool before, and does not disturb its contents or a walk through it that is under way.", "quantifier": "every history of calls on a pool, printing included", "why_tests_cant": "The result depends on the walks and printouts before.", "anchors": ["src/uvm/base/uvm_pool.py:UVMPool.do_print, UVMObjectStringPool.do_print, next, first"]}
{"id": "C293", "title": "Address queries of a register", "statement": "get_offset, get_addresses and get_address of a register answer for the map that serves the given one: the map itself if the register is in it, otherwise its first map below; they give the offset there, the addresses assigned when the model was locked (added to the caller's list) and the effective bus width, without a warning. A register not in the map, or unmapped in it, gives -1, no addresses and one warning. Before locking, every such query is a fatal error.", "quantifier": "every register in any number of maps of any depth, every map asked about, every list passed in", "why_tests_cant": "Map hierarchies and the maps a register is in are unbounded.", "anchors": ["src/uvm/reg/uvm_reg.py: get_offset, get_addresses, get_address", "src/uvm/reg/uvm_reg_map.py: get_reg_map_info"]}
{"id": "C294", "title": "A register is found at the addresses it gives", "statement": "In a locked model, every address get_addresses gives for a register, and the one get_address gives, is an address at which get_reg_by_offset of the root map finds that register, for reads and for writes, as long as no other register has an address in common with it; a mapped register gives at least one address.", "quantifier": "every set of registers at any offsets, sizes, bus widths, byte orders and depths of maps", "why_tests_cant": "All address layouts are covered, not a sample.", "anchors": ["src/uvm/reg/uvm_reg.py: get_addresses, get_address", "src/uvm/reg/uvm_reg_map.py: Xinit_address_mapX, get_reg_by_offset"]}
{"id": "C295", "title": "The address of a register is its base address", "statement": "get_address of a register gives the lowest of its addresses, base address plus offset.", "quantifier": "every root map, offset, register size, bus width and byte order", "why_tests_cant": "Holds or fails depending on size, width and byte order together.", "anchors": ["src/uvm/reg/uvm_reg.py: get_address", "src/uvm/reg/uvm_reg_map.py: get_physical_addresses"]}
{"id": "C296", "title": "Effective bus width of a map", "statement": "get_n_bytes() of a map gives the width of the narrowest bus from the map to the root map; get_n_bytes(UVM_NO_HIER) gives the width of the map itself.", "quantifier": "every chain of maps and widths, every set of registers and memories in the map", "why_tests_cant": "Depth and contents of maps are unbounded.", "anchors": ["src/uvm/reg/uvm_reg_map.py: get_n_bytes, Xinit_address_mapX"]}
{"id": "C297", "title": "Tracing objections only adds messages", "statement": "With trace_mode(1) (or +UVM_OBJECTION_TRACE) raising, dropping and draining objections change the counts, call the hooks and end phases exactly as without, with messages added; trace_mode returns the previous mode and sets it for 0 and 1 only.", "quantifier": "every component tree, every state of the objection, every object and amount", "why_tests_cant": "It compares two programs on all histories.", "anchors": ["src/uvm/base/uvm_objection.py: trace_mode, m_report, m_raise, m_drop, m_forked_drain"]}
{"id": "C298", "title": "Display of objections", "statement": "display_objections(obj) shows the total of obj and one line for obj and each object below it that has objections, with its source count, total count, its name and an indentation by its depth; without objections only the total 0.", "quantifier": "every set of objects, names and counts, in every order of raising", "why_tests_cant": "The order of raising decides what is shown; all orders are covered.", "anchors": ["src/uvm/base/uvm_objection.py: m_display_objections, get_name_depth, get_leaf_name"]}
{"id": "C299", "title": "Waiting for an objection event", "statement": "wait_for(event, obj) returns once the event has happened for obj after the call, and not before; no event is missed by a task that waits for it.", "quantifier": "every number of tasks, every interleaving of calls, events, scheduling and killed tasks", "why_tests_cant": "Interleavings are unbounded.", "anchors": ["src/uvm/base/uvm_objection.py: wait_for, raised, dropped, all_dropped"]}
{"id": "C300", "title": "debug_create tells what is created", "statement": "debug_create_by_type and debug_create_by_name of a request end with the type that creating with the same request makes, and list the overrides that match at each step, marking exactly those that are ignored.", "quantifier": "all overrides, types, names and paths", "why_tests_cant": "The debugging pass is a second implementation of the resolution; agreement is needed for every combination of overrides.", "anchors": ["src/uvm/base/uvm_factory.py: UVMDefaultFactory.debug_create_by_type, debug_create_by_name, m_debug_create, m_debug_display"]}
{"id": "C301", "title": "debug_create changes nothing", "statement": "After debug_create_by_type or debug_create_by_name every request is answered as it would have been without it.", "quantifier": "all factories, queries and later requests", "why_tests_cant": "Needs every later request after every query.", "anchors": ["src/uvm/base/uvm_factory.py: UVMDefaultFactory.m_debug_create"]}
{"id": "C302", "title": "print_factory shows the overrides and types", "statement": "The printout of the factory lists every instance override, every type override with the type that replaces it, and every registered type name once.", "quantifier": "all histories of registrations and overrides", "why_tests_cant": "The lists are collected from dictionaries filled by any history.", "anchors": ["src/uvm/base/uvm_factory.py: UVMDefaultFactory.convert2string, print_factory"]}
{"id": "C303", "title": "Errors and events are recorded completely", "statement": "record_error_tr and record_event_tr write one complete record: a recorder opened and closed at the given time (now by default) with label, description and the data of the object, freed unless it is to be kept; the handle of a kept one finds it, otherwise 0 is returned; other records are untouched.", "quantifier": "all components, streams, labels, objects, times and states of an open database", "why_tests_cant": "Ranges over every earlier history of the database and every object.", "anchors": ["src/uvm/base/uvm_component.py: UVMComponent.record_error_tr, record_event_tr"]}
{"id": "C304", "title": "Events and transactions share streams", "statement": "A stream name of a component always leads to the same stream, for events and transactions, and recording on a stream does not keep later events or transactions on it from being recorded.", "quantifier": "all sequences of events and transactions on a component", "why_tests_cant": "Depends on the history of the component's streams.", "anchors": ["src/uvm/base/uvm_component.py: UVMComponent.record_error_tr, record_event_tr, m_begin_tr, get_tr_stream"]}
{"id": "C305", "title": "Do-not-modify keeps messages as issued", "statement": "While report catchers are debugged with the do-not-modify flag, whatever they do to a message without elements, each enabled one up to the first that catches it is given the message as issued, the message is afterwards as issued, and whether it is caught depends only on the catchers and the do-not-catch flag.", "quantifier": "all chains of catchers with arbitrary code, all messages and flags", "why_tests_cant": "The catchers' code is arbitrary and the chain unbounded.", "anchors": ["src/uvm/base/uvm_report_catcher.py: UVMReportCatcher.debug_report_catcher, process_all_report_catchers, process_report_catcher"]}
{"id": "C306", "title": "Do-not-modify works for messages with elements", "statement": "Processing a message with elements while the do-not-modify flag is set keeps it as issued, and does not disturb later reports.", "quantifier": "all chains of catchers, all messages and later reports", "why_tests_cant": "Any message, chain and later history.", "anchors": ["src/uvm/base/uvm_report_catcher.py: UVMReportCatcher.process_all_report_catchers", "src/uvm/base/uvm_report_message.py: UVMReportMessageElementBase.do_clone"]}
{"id": "C307", "title": "Catchers are found by name and printed", "statement": "get_report_catcher returns the catcher of the given name if one was added, and print_catcher lists every catcher added with its mode.", "quantifier": "all histories of additions", "why_tests_cant": "Depends on every history of additions.", "anchors": ["src/uvm/base/uvm_report_catcher.py: UVMReportCatcher.get_report_catcher, print_catcher"]}
{"id": "C308", "title": "Callback iterators walk the run", "statement": "A callback iterator for an object and a class walks over the callbacks that are run for them: any calls of first, last, next and prev that have not gone past an end return the callback at the position they lead to, the call that goes past an end returns nothing, and first and last restart from anywhere.", "quantifier": "all histories of additions and mode changes, all sequences of iterator calls", "why_tests_cant": "All histories and all walks.", "anchors": ["src/uvm/base/uvm_callback.py: UVMCallbackIter.first, last, next, prev, get_cb"]}
{"id": "C309", "title": "Iterators come back from past the end", "statement": "When next has gone past the last callback, prev returns the last callback.", "quantifier": "all histories of additions and mode changes", "why_tests_cant": "All histories.", "anchors": ["src/uvm/base/uvm_callback.py: UVMCallbackIter.next, prev, UVMCallbacks.get_next"]}
{"id": "C310", "title": "Packing part of a list", "statement": "pack_bytes and pack_ints called with a size pack that many bits of the list, unpack_bytes and unpack_ints fill that many bits of the list and leave the rest of it; a size larger than the list is refused with an error and changes nothing.", "quantifier": "all lists, sizes and packers", "why_tests_cant": "unbounded lists and sizes", "anchors": ["src/uvm/base/uvm_packer.py: UVMPacker.pack_bytes, pack_ints, unpack_bytes, unpack_ints"]}
{"id": "C311", "title": "An agent is active or passive as configured", "statement": "After build_phase, is_active of an agent is the value UVMConfigDb.get gives for the field is_active of the agent, and UVM_ACTIVE if there is none.", "quantifier": "all histories of configuration settings from any contexts, in the build phase or not, and all agents", "why_tests_cant": "the value depends on the number, the order and the precedence of all settings that match", "anchors": ["src/uvm/comps/uvm_agent.py: UVMAgent.build_phase", "src/uvm/base/uvm_resource.py: UVMResourcePool.sort_by_precedence"]}
{"id": "C312", "title": "The configuration of a component can be printed", "statement": "print_config prints for a component (with recurse for everything below it, too) one entry for each resource visible to it, which shows the name and the value of the resource; with audit it shows the accesses as well.", "quantifier": "all resource databases, component trees and arguments", "why_tests_cant": "all databases and trees", "anchors": ["src/uvm/base/uvm_component.py: UVMComponent.print_config", "src/uvm/base/uvm_resource.py: UVMResourcePool.print_resources"]}
{"id": "C313", "title": "An access to a memory through a map is served by a map that reaches the memory", "statement": "When an access to a memory names a map, the map used is that map if the memory is in it, otherwise the first of its maps that lies below the named one at any depth; if there is none the access is refused with a warning. When no map is named, a memory in several maps uses the one through which the default map of a parent block reaches it.", "quantifier": "all map trees, all memories in any number of maps, all maps asked for", "why_tests_cant": "the trees of maps and the positions of a memory in them are unbounded", "anchors": ["src/uvm/reg/uvm_mem.py:UVMMem.get_local_map", "src/uvm/reg/uvm_mem.py:UVMMem.get_default_map"]}
{"id": "C314", "title": "A loop over a pool visits its keys", "statement": "A loop for k in pool visits every key of a UVMPool once, in the order in which the keys were added.", "quantifier": "all pools with any keys", "why_tests_cant": "all keys of any kind", "anchors": ["src/uvm/base/uvm_pool.py: UVMPool.__getitem__"]}
{"id": "C315", "title": "The dump of the resource pool shows the resources", "statement": "dump() of the resource pool prints every resource of the pool.", "quantifier": "all pools", "why_tests_cant": "all pools", "anchors": ["src/uvm/base/uvm_resource.py: UVMResourcePool.dump"]}
{"id": "C316", "title": "The registers behind an indirect register have front doors", "statement": "Every register of the table of an indirect data register has a front door in each map the data register is in, whether the maps are added before or after configure.", "quantifier": "all tables, all sets of maps, both orders", "why_tests_cant": "all tables and maps", "anchors": ["src/uvm/reg/uvm_reg_indirect.py: UVMRegIndirectData.configure", "src/uvm/reg/uvm_reg_indirect.py: UVMRegIndirectData.add_map"]}
{"id": "C317", "title": "Full names of registers in register files", "statement": "The full name of a register, register file or block is the names of the blocks and register files around it and its own, joined by dots; if no name contains a dot, it tells the whole path.", "quantifier": "all nestings of blocks and of register files, all names", "why_tests_cant": "nesting and names are unbounded", "anchors": ["src/uvm/reg/uvm_reg_file.py: UVMRegFile.get_full_name", "src/uvm/reg/uvm_reg.py: UVMReg.get_full_name", "src/uvm/reg/uvm_reg_block.py: UVMRegBlock.get_full_name"]}
{"id": "C318", "title": "HDL paths of registers in blocks and register files", "statement": "A register has an HDL path of a kind (by default the kind of its parent) exactly if one was added, and get_full_hdl_path gives its own paths below each of the full paths of its parent, whether the parent is a block or a register file.", "quantifier": "all registers, parents, kinds and paths", "why_tests_cant": "all combinations of kinds, paths and parents", "anchors": ["src/uvm/reg/uvm_reg.py: UVMReg.has_hdl_path, get_full_hdl_path", "src/uvm/reg/uvm_reg_file.py: UVMRegFile"]}
{"id": "C319", "title": "Command and address of a generic payload", "statement": "get_command and get_address return the last command and address given by any of the setters, at first the ignore command and 0; is_read and is_write tell the command and are never both true.", "quantifier": "all histories of setter calls", "why_tests_cant": "histories are unbounded", "anchors": ["src/uvm/tlm2/uvm_tlm2_generic_payload.py: UVMTLMGenericPayload"]}
{"id": "C320", "title": "Creation by type id and reset of the core service", "statement": "create of a type id gives an instance of the class defined last under its name, whatever factories are set, and raises KeyError exactly if no class of that name was defined since the last UVMCoreService.reset.", "quantifier": "all histories of class definitions, creations, set_factory and reset", "why_tests_cant": "histories are unbounded", "anchors": ["src/uvm/base/uvm_coreservice.py: UVMCoreService", "src/uvm/base/uvm_registry.py: UVMObjectRegistry, UVMComponentRegistry"]}
{"id": "C321", "title": "Creation by name with any factory", "statement": "Creation by name from the factory of the core service gives an instance of the class defined last under the name, whatever factory is set, and reports an unknown type if there is none.", "quantifier": "all histories of class definitions, creations, set_factory and reset", "why_tests_cant": "histories are unbounded", "anchors": ["src/uvm/base/uvm_coreservice.py: UVMCoreService.set_factory, reset", "src/uvm/base/uvm_factory.py: create_object_by_name", "src/uvm/base/uvm_registry.py: get"]}
{"id": "C322", "title": "Comparisons do not depend on earlier ones", "statement": "The result of compare depends on the two objects only, not on what was compared before, also if an earlier comparison raised an exception.", "quantifier": "all histories of comparisons, some of which raise, at any depth of sub-objects", "why_tests_cant": "histories are unbounded", "anchors": ["src/uvm/base/uvm_object.py: UVMObject.compare", "src/uvm/base/uvm_comparer.py: UVMComparer.compare_object"]}
{"id": "C323", "title": "Registers on a bus behave as independent variables", "statement": "When the words of the registers of a map have distinct addresses in a memory-like device, any history of set, write, read, update and mirror on these registers shows the callers exactly what they would see if each register were one variable: bus width, splitting into words, endianness and transaction order do not show; the operations on one register see the same if all operations on other registers are left out; no other address changes.", "quantifier": "all numbers of registers, field layouts and policies, hooks, map settings, bus widths, address assignments without sharing, reorderings, initial memories and histories", "why_tests_cant": "the numbers of registers, widths, values and histories are unbounded", "anchors": ["src/uvm/reg/uvm_reg.py: UVMReg.write, read, update, mirror", "src/uvm/reg/uvm_reg_map.py: UVMRegMap.do_write, do_read, do_bus_write, do_bus_read, Xget_bus_infoX"]}
{"id": "C324", "title": "Registers of a block return what was last written and mirrors follow the device", "statement": "Registers accessed through the front door of a map with a memory-like device: every access reports OK, a read returns the value last written to that register (or the initial contents), whatever was done with other registers in between, and with read/write fields and automatic prediction the mirror of every register is what its words hold and a mirror with check reports no mismatch if the fields fill the register.", "quantifier": "all numbers of registers, widths, values, reorderings and histories of set, write, read, update and mirror", "why_tests_cant": "the numbers of registers, widths, values and histories are unbounded", "anchors": ["src/uvm/reg/uvm_reg.py: UVMReg.write, read, update, mirror, do_predict", "src/uvm/reg/uvm_reg_map.py: UVMRegMap.do_bus_write, do_bus_read"]}
{"id": "C325", "title": "Concurrent accesses to different registers do not mix", "statement": "When processes write and read different registers of a map at the same time, and the words of their accesses are mixed on the bus in any order, each access returns what it would have returned had the accesses to its register been made alone one after the other; the same is left in the device behind its addresses, and addresses of no register are untouched. On a memory a register once written reads back what was last written to it. Every schedule that lets a register go on often enough completes its accesses.", "quantifier": "every number of registers, widths, word orders, lists of accesses, devices whose addresses do not influence one another (including failing ones) and schedules", "why_tests_cant": "The words may interleave in exponentially many orders; a test runs one of them.", "anchors": ["src/uvm/reg/uvm_reg_map.py: UVMRegMap.do_bus_write, UVMRegMap.do_bus_read", "src/uvm/reg/uvm_reg.py: UVMReg.XatomicX"]}
{"id": "C326", "title": "Low search priority of a resource", "statement": "After set_priority_name(resource, PRI_LOW) a look-up by name that matches the resource returns it only if its precedence is above that of every other match; the other resources keep their order, look-ups of other names and all values stay as they were; a resource the pool does not have is reported and nothing changes.", "quantifier": "every history of config_db sets, resource_db sets and priority changes, every resource, scope and name", "why_tests_cant": "The order of the queue depends on the whole history of calls.", "anchors": ["src/uvm/base/uvm_resource.py: UVMResourcePool.set_priority_name, set_priority_queue, get_by_name, lookup_name"]}
{"id": "C327", "title": "High search priority of a resource", "statement": "After set_priority_name(resource, PRI_HIGH) a look-up by name that matches the resource returns it unless another match has a higher precedence.", "quantifier": "every history of config_db sets, resource_db sets and priority changes, every resource, scope and name", "why_tests_cant": "The order of the queue depends on the whole history of calls.", "anchors": ["src/uvm/base/uvm_resource.py: UVMResourcePool.set_priority_name, set_priority_queue"]}
{"id": "C328", "title": "Texts of registers and fields", "statement": "convert2string of a field shows its access, the name of its register, its bit range and its desired value, so that texts of two idle fields of the same shape are equal exactly when their desired values are; a running read or write is shown with the place it was started from. convert2string of a register shows its full name, size and value, one line for every map on the way from each of its maps to the root, and the text of each field in order.", "quantifier": "all names, access texts, widths, positions and values, all lists of fields and all chains of maps", "why_tests_cant": "The text is built by two formatting steps, one with a template that is itself built from the width; only a proof covers every width, name and chain of maps.", "anchors": ["src/uvm/reg/uvm_reg_field.py: UVMRegField.convert2string", "src/uvm/reg/uvm_reg.py: UVMReg.convert2string", "src/uvm/base/sv.py: sformatf"]}
{"id": "C329", "title": "Texts of fields show mirrored values", "statement": "convert2string of a field shows the value in hexadecimal with its width, and shows the mirrored value whenever it differs from the desired one.", "quantifier": "all fields and values", "why_tests_cant": "Whether a value that is computed ever reaches the text must hold for every pair of desired and mirrored values.", "anchors": ["src/uvm/reg/uvm_reg_field.py: UVMRegField.convert2string", "src/uvm/reg/uvm_reg.py: UVMReg.convert2string"]}
{"id": "C330", "title": "Registers of a block in a chip that follows the documented policies", "statement": "Put any number of registers, with fields of any documented access policies, on a bus whose words have distinct addresses, in a chip where every bit has the effects documented for the policy of its field and reserved bits read as 0. With automatic prediction, whatever is set, written, read, updated and mirrored in any order: nothing raises, every status is OK, the mirror of every field is bit by bit what the chip has, addresses of no register are untouched, a read returns what the mirror had, and a mirror with check never reports a mismatch when all fields can be read.", "quantifier": "all numbers, layouts and policies of registers, bus widths, addresses, transaction orders, contents of the chip and histories of operations", "why_tests_cant": "Prediction, splitting into words, and the effects of partial words on bits with side effects interact; tests try a few widths, policies and sequences.", "anchors": ["src/uvm/reg/uvm_reg_map.py: UVMRegMap.do_bus_write, do_bus_read, Xget_bus_infoX", "src/uvm/reg/uvm_reg.py: UVMReg.do_write, do_read, update, mirror, do_check, do_predict", "src/uvm/reg/uvm_reg_field.py: UVMRegField.do_predict, XpredictX, set_access"]}
{"id": "C331", "title": "Check-on-read through the hierarchy of maps", "statement": "set_check_on_read of an address map always ends and sets the switch of that map and of every map below it at that time, and of no other. So after any history of creating maps, putting them into each other, moving them and setting switches, get_check_on_read of a map is what it was last set to, on itself or through a map it was in at that time, and True if that never happened; a successful read through a map is checked exactly if the root map predicts automatically and the map's own switch is on.", "quantifier": "all trees of blocks, all histories of operations on maps, all maps", "why_tests_cant": "Depth, number and order of the operations are unbounded, and what a setting reaches depends on the tree at that time.", "anchors": ["src/uvm/reg/uvm_reg_map.py: UVMRegMap.set_check_on_read, get_check_on_read, add_submap", "src/uvm/reg/uvm_reg.py: UVMReg.do_read"]}
{"id": "C332", "title": "Auto-prediction of a map", "statement": "set_auto_predict of a map decides whether reads and writes via that map update the mirror.", "quantifier": "all trees of maps, every map and setting", "why_tests_cant": "It must hold for maps at every depth of every tree.", "anchors": ["src/uvm/reg/uvm_reg_map.py: UVMRegMap.set_auto_predict, get_auto_predict, get_root_map", "src/uvm/reg/uvm_reg.py: UVMReg.do_read, do_write"]}
{"id": "C333", "title": "Deviations of the chip are reported", "statement": "Registers of a block, all readable, are in a chip that follows the documented policies but whose bits may also be changed by something else at any time. After any history a mirror with check reports a mismatch exactly if some bit of a compared field of that register is not what its mirror says, whatever happened to other registers; a read returns the bits the chip has; both leave the mirror equal to the chip, and it stays equal under any further operations on any registers until its own words are changed again.", "quantifier": "all sets of registers with any documented readable policies, all bus widths, addresses and transaction orders, all histories of operations and changes of the chip", "why_tests_cant": "a test changes one bit of one register once; a missed or spurious report depends on the policy, the word the bit is in and everything that was done before", "anchors": ["src/uvm/reg/uvm_reg.py: UVMReg.mirror, UVMReg.do_check, UVMReg.read", "src/uvm/reg/uvm_reg_map.py: UVMRegMap.do_bus_read", "src/uvm/reg/uvm_reg_field.py: UVMRegField.do_predict"]}
{"id": "C334", "title": "Instance overrides relative to a component", "statement": "set_inst_override of a type id, given a path pattern and a parent, makes the override apply to exactly the objects and components created below the parent (by create with a parent or context) whose path relative to it matches the pattern; all other creations are as without it.", "quantifier": "all factories with any earlier overrides, all patterns, parents, creation paths and types", "why_tests_cant": "which other instances an override catches depends on all paths in the hierarchy and on how patterns are matched", "anchors": ["src/uvm/base/uvm_registry.py: UVMComponentRegistry.set_inst_override, UVMComponentRegistry.create, UVMObjectRegistry.set_inst_override, UVMObjectRegistry.create", "src/uvm/base/uvm_factory.py: UVMDefaultFactory.find_override_by_type", "src/uvm/base/uvm_globals.py: uvm_is_match"]}
{"id": "C335", "title": "Explicit prediction follows every bus master", "statement": "With automatic prediction off and a predictor that is fed by a bus monitor, in a chip that follows the documented access policies: after any history of operations through the register model and bus operations of other masters, the mirror of every register that the other masters transfer as a whole is what the chip has, the predictor waits for nothing and no exception is raised; if all fields can be read, reads through the model return what the mirror had and neither the predictor nor mirror() with check reports a mismatch.", "quantifier": "every number of registers, every layout of fields with documented policies, bus width, address order and transaction order policy; every history of sets, writes, reads, updates and mirrors through the model mixed with whole transfers by other masters, the words of different registers interleaved in any way", "why_tests_cant": "The interleavings of several masters' bus operations with the accesses of the model, and the field layouts, cannot be enumerated.", "anchors": ["src/uvm/reg/uvm_reg_predictor.py: UVMRegPredictor.write", "src/uvm/reg/uvm_reg.py: UVMReg.write, read, update, mirror, do_predict", "src/uvm/reg/uvm_reg_map.py: do_bus_write, do_bus_read"]}
{"id": "C336", "title": "Registers and memories on one bus do not disturb each other", "statement": "In a chip with registers that follow the documented access policies and with memories, all reached over one bus: in every history of register operations and allowed front-door memory accesses no operation raises and every one reports OK, the mirrors of the registers are what the chip has, mirror() with check reports no mismatch if all fields can be read, and a memory read returns the value written last to that word of that memory. The registers behave as if there were no memories, and each memory as if it were alone.", "quantifier": "every number of registers and memories, every layout of fields with documented policies, width of bus and words, endianness, transaction order policy and address assignment without overlap; every history of sets, writes, reads, updates and mirrors mixed with single and burst memory accesses", "why_tests_cant": "Interleavings of register and memory accesses over arbitrary address layouts cannot be enumerated.", "anchors": ["src/uvm/reg/uvm_mem.py: UVMMem.write, read, burst_write, do_write, do_read", "src/uvm/reg/uvm_reg.py: UVMReg.write, read, update, mirror", "src/uvm/reg/uvm_reg_map.py: do_bus_write, do_bus_read, Xget_bus_infoX"]}
{"id": "C337", "title": "Processes may access different registers at the same time", "statement": "When several processes write, read, update and mirror the registers of a block at the same time and the words of their accesses mix on the bus in any way, then whenever no operation on a register is under way that register, what is behind its addresses and all the values returned are what they would be had the operations on it been made one after the other with nothing else on the bus. An operation raises only if it would raise so too, addresses of no register are untouched, and every schedule that lets a register go on often enough completes its operations. In a chip that follows the documented access policies no operation raises, every one reports OK, mirror() with check reports no mismatch if all fields can be read, and the mirror of a register is what the chip has whenever none of its operations is under way.", "quantifier": "every number of registers at disjoint addresses, every layout of fields with documented policies, bus width, address order and transaction order policy; every history of sets, writes, reads, updates and mirrors asked for at any time, and every schedule of the bus operations", "why_tests_cant": "The interleavings of the bus words of concurrent accesses are exponentially many and a simulator shows one of them.", "anchors": ["src/uvm/reg/uvm_reg.py: UVMReg.write, read, update, mirror, do_write, do_read, XatomicX", "src/uvm/reg/uvm_reg_map.py: do_bus_write, do_bus_read"]}
{"id": "C338", "title": "Accesses through adapter, sequencer and driver are the accesses on the bus", "statement": "With an adapter that makes an item of every bus operation and copies data and status back, and a driver that executes the items, a front-door access of a register or memory has the effect, the values and the success or failure of its bus operations made on the bus itself, and does not raise. The driver is given one item per bus operation, in order, up to the first that fails; the parent sequence's pre_do, mid_do and post_do are called around each item; mid_do is called once with the register item, before the first item is sent, and post_do once, after the last one, unless the access failed before.", "quantifier": "every adapter and driver, every bus, width, number of words, values, byte enables, stride and transaction order policy, every state of the bus side", "why_tests_cant": "Adapters and drivers are user code; a test shows one of them with a few values.", "anchors": ["src/uvm/reg/uvm_reg_map.py: do_bus_write, do_bus_read", "src/uvm/reg/uvm_reg_adapter.py: UVMRegAdapter", "src/uvm/seq/uvm_sequence_base.py: start_item, finish_item"]}
{"id": "C339", "title": "Drivers that send responses", "statement": "With an adapter whose provides_responses is set, an access takes data and status from the response that the driver sends for each item.", "quantifier": "every adapter with provides_responses, every driver, and every access", "why_tests_cant": "It concerns every adapter and driver.", "anchors": ["src/uvm/reg/uvm_reg_map.py: do_bus_write, do_bus_read", "src/uvm/reg/uvm_reg_adapter.py: provides_responses", "src/uvm/seq/uvm_sequence_base.py: get_base_response"]}
{"id": "C340", "title": "Setting desired values never disturbs accesses under way", "statement": "With any number of processes accessing the registers of a block at the same time, and any process calling set on any register or field at any moment, also while that register is on the bus: in a chip that follows the documented access policies no access raises, every access reports OK, mirror with check reports no mismatch if all fields can be read, and whenever a register has no access under way its mirror is what the chip has. What an access already on the bus returns does not depend on values set meanwhile.", "quantifier": "all registers, access policies, address layouts, bus widths and byte orders, all interleavings of requests, bus words and calls of set", "why_tests_cant": "A test tries a few interleavings; the claim is over every interleaving of unlocked set calls with multi-word accesses.", "anchors": ["src/uvm/reg/uvm_reg.py: UVMReg.set, UVMReg.write, UVMReg.read, UVMReg.update, UVMReg.mirror, UVMReg.do_write, UVMReg.do_read, UVMReg.do_predict", "src/uvm/reg/uvm_reg_field.py: UVMRegField.set"]}
{"id": "C341", "title": "A value set while a write to the register is on the bus is kept for the next update", "statement": "If a process calls set on a register while a write to that register is on the bus, the value stays the desired value until an update writes it.", "quantifier": "all registers with automatic prediction, all states with a write on the bus, all values set, all later events", "why_tests_cant": "The loss depends on when the set falls between the words of a write; the claim is over all schedules.", "anchors": ["src/uvm/reg/uvm_reg.py: UVMReg.set, UVMReg.do_write, UVMReg.do_predict", "src/uvm/reg/uvm_reg_field.py: UVMRegField.do_predict"]}
{"id": "C342", "title": "The bit bash test of a block accepts every chip that follows the documented policies", "statement": "For a block with any tree of sub-blocks, whose registers sit at separate addresses of a chip that follows the documented access policies bit by bit, and whose mirrors agree with the chip: running the built-in bit bash sequence on the block ends, reports no error for any of the registers it tests (which those are: C131), leaves every mirror in agreement with the chip, and touches no address that belongs to no register.", "quantifier": "every number of registers, every field layout up to 64 bits and every documented policy, every word width, address assignment and transaction order, every block tree with exclusions", "why_tests_cant": "A test runs the sequence on one block; that the sequence never reports a false error is a statement about all layouts, policies and chip states.", "anchors": ["src/uvm/reg/sequences/uvm_reg_bit_bash_seq.py: UVMRegBitBashSeq.do_block", "src/uvm/reg/sequences/uvm_reg_bit_bash_seq.py: UVMRegSingleBitBashSeq.body", "src/uvm/reg/uvm_reg_map.py: UVMRegMap.do_bus_write"]}
{"id": "C343", "title": "The bit bash test of a block finds every stuck read/write bit", "statement": "Whatever hardware is behind the bus: if a bit of a compared read/write field of some listed, not excluded register always reads the same value through the map, the bit bash sequence of the block reports at least one error, however many other registers are tested before and after it.", "quantifier": "every bus and hardware behaviour, every block tree, every register and bit position", "why_tests_cant": "The hardware behaviour is arbitrary; tests can only try selected faults.", "anchors": ["src/uvm/reg/sequences/uvm_reg_bit_bash_seq.py: UVMRegBitBashSeq.do_block", "src/uvm/reg/sequences/uvm_reg_bit_bash_seq.py: UVMRegSingleBitBashSeq.bash_kth_bit"]}
{"id": "C344", "title": "The reset test of a block accepts a chip in its reset state", "statement": "If the chip holds, in every register, the values the register model has after a hard reset, and all fields can be read, the built-in hardware reset sequence of the block ends without an error, the mirrors agree with the chip afterwards and other addresses are untouched.", "quantifier": "every number of registers with readable fields of any policy (also policies with read side effects, and registers visited several times), every block tree whose blocks each have maps without sub-maps", "why_tests_cant": "No false errors is a claim over all layouts, policies and visiting orders.", "anchors": ["src/uvm/reg/sequences/uvm_reg_hw_reset_seq.py: UVMRegHWResetSeq.body", "src/uvm/reg/sequences/uvm_reg_hw_reset_seq.py: UVMRegHWResetSeq.do_block", "src/uvm/reg/uvm_reg.py: UVMReg.mirror"]}
{"id": "C345", "title": "The reset test of a block finds every wrong bit", "statement": "If one bit of a compared, readable field with a hard reset value, in a register the reset test covers, has in the chip another value than the reset value, the hardware reset sequence of the block reports at least one error, whatever the rest of the chip holds.", "quantifier": "every chip state, every number of registers, every field, bit, block tree (blocks with maps without sub-maps), word width and transaction order", "why_tests_cant": "The wrong bit may be anywhere and the rest of the chip in any state; earlier checks must not disturb the later ones.", "anchors": ["src/uvm/reg/sequences/uvm_reg_hw_reset_seq.py: UVMRegHWResetSeq.do_block", "src/uvm/reg/uvm_reg.py: UVMReg.do_check"]}
{"id": "C346", "title": "The reset test also accepts chips with write-only fields", "statement": "A chip in its reset state is accepted by the reset test also if some fields cannot be read: such fields are left out of the comparison.", "quantifier": "every block and chip as in C344, with fields of any policy", "why_tests_cant": "Only some policies and reset values show the defect.", "anchors": ["src/uvm/reg/uvm_reg.py: UVMReg.do_check", "src/uvm/reg/sequences/uvm_reg_hw_reset_seq.py: UVMRegHWResetSeq.do_block"]}
{"id": "C347", "title": "Phases and their objections together: order, and no end while a component objects", "statement": "With the objections of all components, their propagation and their drains, phases are still executed in order and go through their states as documented; a task phase without siblings ends only when no component objects to it and every drain below the root has been passed on.", "quantifier": "every schedule (graph of phases), every component tree, every history of raises and drops of the components, every interleaving of phase tasks, background process and drains", "why_tests_cant": "A drop far down in the hierarchy reaches the root through several coroutines that interleave with the tasks of all phases.", "anchors": ["src/uvm/base/uvm_phase.py: UVMPhase.execute_phase, _wait_for_all_dropped, wait_for_self_and_siblings_to_drop", "src/uvm/base/uvm_objection.py: UVMObjection.raise_objection, drop_objection, clear, m_execute_scheduled_forks, m_forked_drain, all_dropped"]}
{"id": "C348", "title": "A phase that has ended becomes DONE", "statement": "A task phase waits for the drain of the root, and once it has ended its clean-up succeeds and it becomes DONE.", "quantifier": "every schedule (graph of phases), every component tree, every history of raises and drops of the components, every interleaving of phase tasks, background process and drains", "why_tests_cant": "The clean-up fails only if it meets a drain at one particular point of its life.", "anchors": ["src/uvm/base/uvm_phase.py: UVMPhase.execute_phase, _wait_for_all_dropped, wait_for_self_and_siblings_to_drop", "src/uvm/base/uvm_objection.py: UVMObjection.raise_objection, drop_objection, clear, m_execute_scheduled_forks, m_forked_drain, all_dropped"]}
{"id": "C349", "title": "A phase ends when all objections to it are dropped", "statement": "When no component objects to a phase any more and the drains are through, the phase ends.", "quantifier": "every schedule (graph of phases), every component tree, every history of raises and drops of the components, every interleaving of phase tasks, background process and drains", "why_tests_cant": "A wake-up lost in one interleaving lets the simulation hang; a test that passes has seen other interleavings.", "anchors": ["src/uvm/base/uvm_phase.py: UVMPhase.execute_phase, _wait_for_all_dropped, wait_for_self_and_siblings_to_drop", "src/uvm/base/uvm_objection.py: UVMObjection.raise_objection, drop_objection, clear, m_execute_scheduled_forks, m_forked_drain, all_dropped"]}
{"id": "C350", "title": "A phase does not end while a sequence with automatic phase objection to it runs", "statement": "When sequences are told to object to their starting phase (set_automatic_phase_objection, set_starting_phase) and started, then a task phase without sibling phases does not end while any sequence that objects to it is between its pre_start and the end of its post_start, however the sequences, the phases, other components and the drains of the objection interleave, whatever the methods of the sequences do with these settings; every method of a sequence is called in that time.", "quantifier": "all schedules of phases, object trees, methods of sequences (settings they read and write, exceptions), and interleavings of any number of sequences, phase tasks, raises and drops by others and coroutines of the objection", "why_tests_cant": "The claim couples three parts (sequence, objection with its drains, phase task) under every interleaving; a test runs one.", "anchors": ["src/uvm/seq/uvm_sequence_base.py: start, start_process, m_safe_raise_starting_phase, m_safe_drop_starting_phase, set_automatic_phase_objection, set_starting_phase", "src/uvm/base/uvm_objection.py: raise_objection, drop_objection, m_get_parent", "src/uvm/base/uvm_phase.py: execute_phase"]}
{"id": "C351", "title": "Sequences that are over do not keep a phase from ending", "statement": "Once all sequences that were told to object to a phase are over, nobody else objects and all drains have run, the phase ends. (Violated: the objection of a sequence whose method raised an exception stays, and the phase never ends.)", "quantifier": "all schedules, object trees, methods of sequences and interleavings as in C350", "why_tests_cant": "Absence of a left-over objection after every interleaving and every kind of end of a sequence.", "anchors": ["src/uvm/seq/uvm_sequence_base.py: start, start_process", "src/uvm/base/uvm_phase.py: execute_phase"]}
{"id": "C352", "title": "Every phase calls its method once on every component", "statement": "When a function or task phase of a simulation is done, its method has been called exactly once on every component of the component tree that takes part in the phase (is in its domain) and on nothing else: parents before children in a top-down phase, children before parents in any other.  The same holds for phase_ended, and for phase_started of every phase but the one that creates the components.  At no time has the method been called twice.  When the end of all phases is announced every component, including those created by other components while they were built, has had all its phase methods.  Once the components have been created no traversal goes on for ever.  Callbacks may iterate over children at or below their own component only, and only the build phase creates components.", "quantifier": "all schedules whose first function phase is the building one, all component trees and all ways they grow while being built, all sets of participating components, all interleavings of the tasks of the phases, their forked traversals and the user's objections", "why_tests_cant": "The tree grows while it is traversed and the tasks of phases interleave freely with objections; a test runs one tree under one interleaving.", "anchors": ["src/uvm/base/uvm_phase.py: UVMPhase.execute_phase", "src/uvm/base/uvm_topdown_phase.py: UVMTopdownPhase.traverse", "src/uvm/base/uvm_bottomup_phase.py: UVMBottomupPhase.traverse", "src/uvm/base/uvm_task_phase.py: UVMTaskPhase.m_traverse"]}
{"id": "C353", "title": "No component enters a phase before all components left the phases before it", "statement": "Whenever a phase calls anything on any component - phase_started, the method of the phase, phase_ready_to_end or phase_ended - every phase that comes before it in the schedule has already called its method and phase_ended on all components that take part in it, and makes no call afterwards.  So no component is connected before all are built, and none runs before all are connected.  Within one phase the calls on all components come in the order phase_started, method, phase_ready_to_end, phase_ended.", "quantifier": "all schedules, component trees, participating sets and interleavings as in C352, all pairs of calls", "why_tests_cant": "It is a statement on every pair of calls of every interleaving of concurrent phase tasks.", "anchors": ["src/uvm/base/uvm_phase.py: UVMPhase.execute_phase, m_wait_for_pred, m_run_phases", "src/uvm/base/uvm_task_phase.py: UVMTaskPhase.m_traverse"]}
{"id": "C354", "title": "Everything written to analysis ports reaches every subscriber, FIFO and comparator of the environment", "statement": "In a checking environment made of analysis ports, exports, subscribers, analysis FIFOs and in-order comparators, however they are connected (without cycles) and whatever the interleaving: a subscriber receives exactly the transactions written to the ports from which connections lead to it, each once even if several paths lead to it, in the order written; what was taken out of an analysis FIFO followed by what it still holds is exactly what was written to the ports that lead to it; a comparator publishes, in order, the pairs of the two streams written to the ports that lead to its sides.  When a comparator that was never flushed has nothing left to do it has compared every position both streams have, and it counts no mismatch exactly if the transactions compare equal at every one of them.", "quantifier": "all networks of named ports without cycles, all numbers of subscribers, FIFOs and comparators, all comparison functions, all interleavings of writes, blocking and non-blocking calls of consumers, flushes and resumptions", "why_tests_cant": "It couples every network with every interleaving of writes, consumers and comparators; a test fixes one testbench and one schedule.", "anchors": ["src/uvm/tlm1/uvm_analysis_port.py: UVMAnalysisPort.write", "src/uvm/base/uvm_port_base.py: UVMPortBase.connect, resolve_bindings", "src/uvm/tlm1/uvm_tlm_fifos.py: UVMTLMAnalysisFIFO", "src/uvm/comps/uvm_in_order_comparator.py: UVMInOrderComparator.connect_phase, run_phase", "src/uvm/comps/uvm_subscriber.py: UVMSubscriber"]}
{"id": "C355", "title": "A testbench checks every item that its sequences sent, against the right observation", "statement": "In a testbench whose driver takes items from a sequencer and writes what it did with each finished item to an analysis port that leads to one side of a comparator, while monitors feed the other side: whatever the arbitration mode, the sequences, and the interleaving of sequences, driver, monitors and comparator, the comparator compares the n-th item sent by the sequences with the n-th observation of the monitors.  Once settled, matches and mismatches together are the number of positions that both have, and no mismatch is counted exactly if every finished item compares equal to the observation at its position.", "quantifier": "all arbitration modes and user choices, all histories of sequences, locks, driver calls and responses without exceptions, all networks, monitors, comparison functions and interleavings", "why_tests_cant": "The claim is about the composition of the sequencer handshake, the port network and the comparator under every schedule; a test sees one.", "anchors": ["src/uvm/seq/uvm_sequencer.py: UVMSequencer.get_next_item, item_done", "src/uvm/seq/uvm_sequencer_param_base.py: UVMSequencerParamBase.send_request", "src/uvm/comps/uvm_driver.py: UVMDriver", "src/uvm/tlm1/uvm_analysis_port.py: UVMAnalysisPort.write", "src/uvm/comps/uvm_in_order_comparator.py: UVMInOrderComparator.run_phase"]}
{"id": "C356", "title": "value_plusargs finds exactly the plusarg that was asked for", "statement": "`sv.value_plusargs(\"NAME=...\", arr)` returns, and appends to arr, the value of the plusarg NAME if it was given on the command line, and returns None and appends nothing otherwise, whatever other plusargs there are: longer names that begin with NAME, prefixes of NAME, names that differ in one letter.  It never raises.", "quantifier": "all lists of plusargs, all names without '=', all texts after the '='", "why_tests_cant": "The look-up compares character by character and depends on all plusargs in their order; tests give a few.", "anchors": ["src/uvm/base/sv.py: sv.value_plusargs"]}
{"id": "C357", "title": "test_plusargs tells whether a plusarg was given", "statement": "`sv.test_plusargs(NAME)` is True if a plusarg that begins with NAME was given on the command line and False otherwise, as $test$plusargs in SystemVerilog.", "quantifier": "all lists of plusargs, all names", "why_tests_cant": "The answer depends on all plusargs; tests without plusargs only see False.", "anchors": ["src/uvm/base/sv.py: sv.test_plusargs", "src/uvm/base/sv.py: sv.value_plusargs"]}
{"id": "C358", "title": "A setting made in build_phase reaches everything built below it", "statement": "If a component calls `UVMConfigDb.set(self, inst, field, value)` in its build_phase, then every component below it in the hierarchy, at any depth and also if it is created only later in the same phase, gets this value from `UVMConfigDb.get(self, inst', field, ...)` in its own build_phase, provided that the setting matches the path asked for, is not replaced by a later setting for the same path, and all other matching settings of the field are made by deeper components.  So what a test sets wins over the defaults of the environments below.", "quantifier": "all component trees, also growing during the phase, all activity masks, all user code in build phases (any calls of set and get, also depending on the database), all names and patterns without colliding keys", "why_tests_cant": "The claim composes the traversal order, creation of components during the phase and the precedence rules of the resource pool for every tree and every user code.", "anchors": ["src/uvm/base/uvm_topdown_phase.py: UVMTopdownPhase.traverse", "src/uvm/base/uvm_config_db.py: UVMConfigDb.set, UVMConfigDb.get", "src/uvm/base/uvm_resource.py: UVMResourcePool"]}
{"id": "C359", "title": "A component sees in build_phase the settings of everything above it and of nothing below it", "statement": "The answer of `UVMConfigDb.get` in the build_phase of a component is a function of the settings made before.  Among these are all settings made by any component above it in the hierarchy, and none made by a component below it: what components further down set cannot influence how a component is built.", "quantifier": "all component trees, also growing during the phase, all activity masks, all user code in build phases", "why_tests_cant": "The order of all build phases of every tree is involved.", "anchors": ["src/uvm/base/uvm_topdown_phase.py: UVMTopdownPhase.traverse", "src/uvm/base/uvm_config_db.py: UVMConfigDb.set, UVMConfigDb.get"]}
{"id": "C360", "title": "A configuration setting of the command line wins over what components set", "statement": "`+uvm_set_config_int=comp,field,value` and `+uvm_set_config_string=comp,field,value` reach every component whose path the pattern comp matches: `UVMConfigDb.get` in its build_phase finds the value, whatever any component sets in its own build_phase, before or after.  Among the settings of the command line (integers first, then texts) and those made before run_test it wins if no later one matches as well, and either the same pattern was not used for the field before, or all that match have this pattern.", "quantifier": "all command lines with well-formed settings and any other arguments, all component trees (also growing during the phase), all user code in build phases, all settings before run_test, all names and patterns without colliding keys", "why_tests_cant": "Composes parsing of the command line, traversal order and precedence rules for every tree and user code.", "anchors": ["src/uvm/base/uvm_root.py: UVMRoot.build_phase, UVMRoot.m_do_config_settings, UVMRoot.m_process_config", "src/uvm/base/uvm_config_db.py: UVMConfigDb.set, UVMConfigDb.get", "src/uvm/base/uvm_topdown_phase.py: UVMTopdownPhase.traverse"]}
{"id": "C361", "title": "A configuration setting of the command line wins over settings made before run_test", "statement": "If a setting of the command line is the last matching one, `UVMConfigDb.get` in the build_phase of every component with a matching path finds its value, also if matching settings were made with context None before run_test.", "quantifier": "all command lines, all settings before run_test, all trees and user code", "why_tests_cant": "The outcome depends on the order and the patterns of all settings made before.", "anchors": ["src/uvm/base/uvm_root.py: UVMRoot.m_process_config", "src/uvm/base/uvm_config_db.py: UVMConfigDb.set", "src/uvm/base/uvm_resource.py: UVMResourcePool.set_priority_queue"]}
{"id": "C362", "title": "What a component creates in build_phase is decided by the overrides set before it, by everything above it", "statement": "When a component asks the factory in its build_phase for a type at a path, it gets the type reached by following the overrides set so far: at each step the first instance override whose pattern matches the path, else the type override (the last one set, not counting those with replace=False), up to a type that is not replaced.  All overrides set by components above it in the hierarchy have been set by then, and none by a component below it.", "quantifier": "all component trees, also growing during the phase, all activity masks, all user code in build phases (any registrations, overrides by type, instance overrides and creations, also depending on the factory), types with different names", "why_tests_cant": "Composes traversal order and override resolution for every tree, every history and every user code.", "anchors": ["src/uvm/base/uvm_topdown_phase.py: UVMTopdownPhase.traverse", "src/uvm/base/uvm_factory.py: UVMDefaultFactory.set_type_override_by_type, set_inst_override_by_type, find_override_by_type, create_component_by_type"]}
{"id": "C363", "title": "An instance override set above wins over those set below", "statement": "If a component sets in its build_phase an instance override of type A by type B for a pattern, then every component below it that creates an A in its build_phase at a path which the pattern matches gets a B, whatever instance or type overrides of A components in between or the creator itself set, unless a matching instance override of A was set even before, or B is itself overridden.", "quantifier": "all component trees, also growing during the phase, all user code in build phases, all types, patterns and paths", "why_tests_cant": "Composes traversal order, registration order and override resolution for every tree and user code.", "anchors": ["src/uvm/base/uvm_topdown_phase.py: UVMTopdownPhase.traverse", "src/uvm/base/uvm_factory.py: UVMDefaultFactory.set_inst_override_by_type, find_override_by_type", "src/uvm/base/uvm_component.py: UVMComponent.set_inst_override_by_type"]}
{"id": "C364", "title": "A sequence that is over can be set up and started again", "statement": "When start() of a sequence returns, whatever its methods and everybody else did before, the sequence has no starting phase and still has its automatic phase objection setting; set_automatic_phase_objection and set_starting_phase then take effect without an error, although they were locked while the sequence ran, and the sequence can be started again with the new settings and objects anew.", "quantifier": "all schedules of phases, object trees, methods of sequences and interleavings as in C350; all new settings", "why_tests_cant": "The locks must be open after every history of the sequence, including ones in which its own methods read or set the locked settings.", "anchors": ["src/uvm/seq/uvm_sequence_base.py: start, m_init_phase_daps, set_starting_phase, set_automatic_phase_objection"]}
{"id": "C365", "title": "A setting from above reaches the registered fields of what is built below", "statement": "If a component makes a configuration setting in its build_phase that matches the full name of a component built below it, at any depth and also one created later in the phase, and that names a writable registered field of it, and no other setting is for that component and a registered field whose name is contained in that name, then after super().build_phase(phase) of the component below the field has the value of the setting (its own value if the type of the value is not supported), whatever else is set for whomever.", "quantifier": "all component trees and what build phases create, all codes of build phases, all settings with ordinary names", "why_tests_cant": "All trees, all histories of settings; each must be seen in the right order of the traversal.", "anchors": ["src/uvm/base/uvm_component.py: build_phase, build, apply_config_settings", "src/uvm/base/uvm_resource.py: lookup_scope, sort_by_precedence", "src/uvm/base/uvm_config_db.py: set", "src/uvm/base/uvm_topdown_phase.py: traverse"]}
{"id": "C366", "title": "Fields nobody above configures keep their values in the build phase", "statement": "A field of a component for which nobody made a setting keeps the value its own code gave it when super().build_phase(phase) is called: settings for other components, for fields whose names are not contained in its name, and all settings made by components below it do not matter.", "quantifier": "as in C365", "why_tests_cant": "Absence of an effect of every other setting in every tree.", "anchors": ["src/uvm/base/uvm_component.py: build_phase, apply_config_settings", "src/uvm/base/uvm_resource.py: lookup_scope"]}
{"id": "C367", "title": "A phase does not end while an item of a sequence that objects to it is with the driver", "statement": "When sequences send items to a driver (start_item, finish_item in their body) and object to their starting phase, then at the moment a task phase without sibling phases ends the driver has finished (item_done or get) every item sent by a sequence that objects to this phase or does not run; if all running sequences object to it, the items finished are exactly the items sent, in order. A body that called finish_item does not return before the driver has finished its item, whatever other sequences and the driver do.", "quantifier": "all schedules of phases, object trees, arbitration modes, random choices, numbers of sequences and items, and interleavings of sequences, driver, phase tasks, objections and drains in which the sequencer raises no exception, no sequence is killed and stop_sequences is not called", "why_tests_cant": "Couples the sequencer handshake, the life of a sequence, the objection with its drains and the phase task under every interleaving; a premature wake-up or end needs one particular order.", "anchors": ["src/uvm/seq/uvm_sequence_base.py: start_process, start_item, finish_item", "src/uvm/seq/uvm_sequencer_base.py: wait_for_grant, wait_for_item_done", "src/uvm/seq/uvm_sequencer_param_base.py: send_request", "src/uvm/seq/uvm_sequencer.py: item_done, get, get_next_item", "src/uvm/base/uvm_phase.py: execute_phase", "src/uvm/base/uvm_objection.py: raise_objection, drop_objection"]}
{"id": "C368", "title": "The network of a port is displayed completely", "statement": "debug_connected_to displays the whole tree of connections of a port, max_level levels of it (all for -1): every connection once for each path to it, followed by what is below it, in the order of connection, and then every resolved implementation, numbered from 0. Without a limit the ports displayed are exactly those the connections lead to. debug_provided_to displays the same for the ports that lead to the port, and says that the port has not been bound exactly if nothing was connected to it.", "quantifier": "all networks without cycles, all ports and all max_level", "why_tests_cant": "The text is assembled by a recursion over shared class attributes; a lost or doubled branch shows only in some shape of network.", "anchors": ["src/uvm/base/uvm_port_base.py: UVMPortBase.debug_connected_to, debug_provided_to"]}
{"id": "C369", "title": "The display of a port network shows its structure", "statement": "The indentation of a port in the text of debug_connected_to is its depth in the network, and max_level means the same number of levels in debug_connected_to and debug_provided_to.", "quantifier": "all networks without cycles, all ports and all max_level", "why_tests_cant": "Indentation is kept in a class attribute across the recursion; chains, which tests use, look right.", "anchors": ["src/uvm/base/uvm_port_base.py: UVMPortBase.debug_connected_to, debug_provided_to"]}
{"id": "C370", "title": "Fields are found by name", "statement": "get_field_by_name of a register returns a field of that name, the one at the lowest bit position if there are several, without a warning; if the register has no field of that name it returns None and reports a warning.", "quantifier": "all lists of fields, orders of adding them, names and registers", "why_tests_cant": "The result depends on the order in which any number of fields was inserted.", "anchors": ["src/uvm/reg/uvm_reg.py: UVMReg.get_field_by_name, add_field"]}
{"id": "C371", "title": "The text of an HDL path tells the path", "statement": "uvm_hdl_concat2string gives different texts for different concatenations of slices (signal paths without commas, at signs and braces, each as a whole or with an offset and a size); a single whole signal is shown as its path.", "quantifier": "all lists of slices of all lengths, all paths, offsets and sizes", "why_tests_cant": "Injectivity relates every pair of concatenations.", "anchors": ["src/uvm/reg/uvm_reg_model.py: uvm_hdl_concat2string, uvm_hdl_path_concat"]}
{"id": "C372", "title": "The built-in test sequence runs the selected tests in order", "statement": "UVMRegMemBuiltInSeq runs, of the hardware reset, bit bash, register access, memory access and memory walk tests, exactly those whose bit is set in 'tests' and from which no NO_..._TEST(S) resource excludes the block; each once and in that order; errors add up, a raised exception ends the run, and without a block nothing is run and one error is reported.", "quantifier": "every value of 'tests', every set of resources for the block, every behaviour of the tests", "why_tests_cant": "The selection depends on six bits and eight resource names in all combinations and on what each test does.", "anchors": ["src/uvm/reg/sequences/uvm_reg_mem_built_in_seq.py: UVMRegMemBuiltInSeq.body", "src/uvm/reg/uvm_reg_model.py: UVM_DO_*"]}
{"id": "C373", "title": "The shared access test can be asked for", "statement": "UVMRegMemBuiltInSeq runs the shared access test when its bit is set in 'tests' (it is by default) and no resource excludes the block.", "quantifier": "every value of 'tests' and every set of resources", "why_tests_cant": "A missing test leaves no trace in a passing run.", "anchors": ["src/uvm/reg/sequences/uvm_reg_mem_built_in_seq.py: UVMRegMemBuiltInSeq.body"]}
{"id": "C374", "title": "The built-in test sequence accepts a correct chip that reset_blk resets", "statement": "On a chip that follows the documented access policies and that reset_blk brings into its reset state, UVMRegMemBuiltInSeq with the reset test, the bit bash test or both reports no error, and afterwards the mirrors agree with the chip.", "quantifier": "every block and block tree, number and layout of registers, access policies, address map, order of bus accesses, start state of chip and model, and selection among the two tests", "why_tests_cant": "The second test starts from what the first one left in chip and model, for all register layouts and policies.", "anchors": ["src/uvm/reg/sequences/uvm_reg_mem_built_in_seq.py: UVMRegMemBuiltInSeq.body", "src/uvm/reg/sequences/uvm_reg_hw_reset_seq.py: UVMRegHWResetSeq.body, reset_blk", "src/uvm/reg/sequences/uvm_reg_bit_bash_seq.py: UVMRegBitBashSeq.body, reset_blk"]}
{"id": "C375", "title": "The built-in test sequence accepts a correct chip without a user-defined reset_blk", "statement": "With the reset_blk of the library, on a chip that follows the documented access policies and is in its reset state at the start, UVMRegMemBuiltInSeq with the reset test, the bit bash test or both reports no error.", "quantifier": "every block and block tree, number and layout of registers, access policies and selection among the two tests", "why_tests_cant": "Whether one test disturbs the next depends on the access policies of all registers.", "anchors": ["src/uvm/reg/sequences/uvm_reg_hw_reset_seq.py: reset_blk", "src/uvm/reg/sequences/uvm_reg_bit_bash_seq.py: UVMRegBitBashSeq.body, reset_blk"]}
{"id": "C376", "title": "The built-in test sequence finds stuck bits", "statement": "If a compared bit of a plain read/write field always reads as the same value, UVMRegMemBuiltInSeq with the bit bash test (alone or after the reset test) reports at least one error, unless the block or register is excluded.", "quantifier": "every hardware behaviour and every reset_blk, every block and block tree, number and layout of registers, order of bus accesses, position of the bit", "why_tests_cant": "The hardware is arbitrary apart from the stuck bit.", "anchors": ["src/uvm/reg/sequences/uvm_reg_mem_built_in_seq.py: UVMRegMemBuiltInSeq.body", "src/uvm/reg/sequences/uvm_reg_bit_bash_seq.py: UVMRegBitBashSeq"]}
{"id": "C377", "title": "A barrier can be created", "statement": "UVMBarrier(name, threshold) creates a barrier, and a UVMBarrierPool gives one for a new key.", "quantifier": "every name and threshold", "why_tests_cant": "Must hold for every name.", "anchors": ["src/uvm/base/uvm_barrier.py: UVMBarrier.__init__", "src/uvm/base/uvm_event.py: UVMEventBase.__init__", "src/uvm/base/uvm_pool.py: UVMBarrierPool"]}
{"id": "C378", "title": "A barrier releases all waiting processes", "statement": "When the threshold is reached, when the barrier is reset with wake-up, or when the threshold is set to at most the number of waiting processes, every process inside wait_for passes once it is scheduled.", "quantifier": "every threshold, history of calls and schedule of the processes", "why_tests_cant": "Processes can arrive, be scheduled and be killed in any order.", "anchors": ["src/uvm/base/uvm_barrier.py: UVMBarrier.wait_for, m_trigger, reset, set_threshold"]}
{"id": "C379", "title": "A barrier with automatic reset blocks again after it opened", "statement": "With automatic reset (the default), after the threshold was reached, processes that call wait_for block until the threshold is reached again.", "quantifier": "every threshold, history and schedule", "why_tests_cant": "All numbers of arrivals and all schedules.", "anchors": ["src/uvm/base/uvm_barrier.py: UVMBarrier.wait_for, m_trigger, set_auto_reset"]}
{"id": "C380", "title": "Nobody passes a barrier early", "statement": "A process that calls wait_for passes only if, since the barrier was created or last reset, at least as many processes as the threshold says have called it, or the barrier is reset; the process that completes the number passes at once.", "quantifier": "every threshold, history of calls and schedule of the processes", "why_tests_cant": "All orders of arrivals, resets and changes of the threshold.", "anchors": ["src/uvm/base/uvm_barrier.py: UVMBarrier.wait_for, reset, set_threshold"]}
{"id": "C381", "title": "Automatic reset of a barrier", "statement": "After set_auto_reset(False), once as many processes have called wait_for as the threshold demands, every later call of wait_for returns without blocking, also after calls of cancel, until the barrier is reset or its threshold or automatic reset is set again. A new barrier resets automatically: when its threshold is raised above the number of arrivals, processes block again, also if the old threshold was reached.", "quantifier": "every threshold, every history of arrivals that reaches it, every later history without reset, set_threshold and set_auto_reset, every process; every history of arrivals and every raised threshold", "why_tests_cant": "The later history is unbounded and interleaves arrivals, cancellations and killed processes.", "anchors": ["/repo/src/uvm/base/uvm_barrier.py: UVMBarrier.wait_for, set_auto_reset, cancel, m_trigger"]}
{"id": "C382", "title": "The number of processes waiting at a barrier", "statement": "get_num_waiters is the number of processes currently waiting at the barrier; cancel lowers it by one and reset makes it zero.", "quantifier": "every threshold and every history of calls on the barrier", "why_tests_cant": "The count depends on the whole history of arrivals, releases and cancellations.", "anchors": ["/repo/src/uvm/base/uvm_barrier.py: UVMBarrier.get_num_waiters, wait_for, cancel, reset"]}
{"id": "C383", "title": "Callbacks may add callbacks at the end and switch callbacks off while they run", "statement": "When the methods of callbacks, while the callbacks of an object are run, add callbacks at the end of its queue, add callbacks to other objects or switch callbacks on and off, every callback is run at most once in that run and in queue order. If the callbacks they add come from a finite collection the run ends, and if they change no modes exactly the enabled callbacks of the class in the queue at its end have been run, so those added meanwhile are run too. A callback switched off by another one, and switched on by none, is not run after it.", "quantifier": "every history of callback calls that gave the object a callback of its own, every behaviour of the callback methods (depending on the callback and on how many were called before) made of such calls", "why_tests_cant": "All behaviours of user-defined callback methods, in every combination.", "anchors": ["src/uvm/macros/uvm_callback_defines.py: uvm_do_obj_callbacks, uvm_do_obj_callbacks_async", "src/uvm/base/uvm_callback.py: UVMCallbackIter.first, next, UVMCallbacks.add, get_first, get_next, UVMCallback.callback_mode"]}
{"id": "C384", "title": "Callbacks may add callbacks in front while they run", "statement": "When the method of a callback adds a callback in front of those of its object (UVM_PREPEND) while they are run, every callback is still run at most once in that run, and the run ends.", "quantifier": "every history of callback calls and every behaviour of the callback methods", "why_tests_cant": "All behaviours of user-defined callback methods.", "anchors": ["src/uvm/macros/uvm_callback_defines.py: uvm_do_obj_callbacks", "src/uvm/base/uvm_callback.py: UVMCallbacks.add, get_next"]}
{"id": "C385", "title": "Report methods and context macros obey the settings of their object", "statement": "A report made with the report methods of an object, or with uvm_info_context or uvm_error_context and that object, is passed on exactly if the verbosity set for its severity and id at that object admits its verbosity, and then with the severity, action, file and catchers of that object. Verbosity -1 stands for the verbosity of the severity.", "quantifier": "every history of settings, every queue of catchers, severity, id, text and verbosity", "why_tests_cant": "All histories of settings.", "anchors": ["src/uvm/base/uvm_report_object.py: UVMReportObject.uvm_report, uvm_report_enabled, get_verbosity", "src/uvm/macros/uvm_message_defines.py: uvm_info_context, uvm_error_context"]}
{"id": "C386", "title": "The message macros obey the settings of the component they are used in", "statement": "uvm_info, uvm_warning, uvm_error and uvm_fatal used in a method of a component pass the message on exactly if the verbosity set for its severity and id at that component admits its verbosity.", "quantifier": "every history of settings of the component and of the root, every severity, id, text and verbosity", "why_tests_cant": "All histories of settings of two objects.", "anchors": ["src/uvm/macros/uvm_message_defines.py: uvm_info, uvm_warning, uvm_error, uvm_fatal", "src/uvm/base/uvm_globals.py: uvm_report_enabled"]}
{"id": "C387", "title": "Messages from outside report objects go by the root", "statement": "The message macros used in a sequence, another object without report methods or a function, and the global report functions, report through the root component: the message is passed on exactly if the settings of the root admit its verbosity, with its severity, action, file and catchers.", "quantifier": "every history of settings of the root, every severity, id, text and verbosity", "why_tests_cant": "All histories of settings.", "anchors": ["src/uvm/macros/uvm_message_defines.py: uvm_info, uvm_warning, uvm_error, uvm_fatal", "src/uvm/base/uvm_globals.py: uvm_report_info, uvm_report_warning, uvm_report_error, uvm_report_fatal"]}
{"id": "C388", "title": "Lowering verbosities does not hide warnings and errors", "statement": "As long as the verbosities set at the root are not negative, uvm_warning, uvm_error and uvm_fatal pass their message on whatever verbosities are set at the component they are used in.", "quantifier": "every history of settings of the component and of the root, every id and text", "why_tests_cant": "All histories of settings of two objects.", "anchors": ["src/uvm/macros/uvm_message_defines.py: uvm_warning, uvm_error, uvm_fatal"]}
{"id": "C389", "title": "Suffixed analysis implementations route each stream to its own method", "statement": "A component may own several analysis implementations made by uvm_analysis_imp_decl with different suffixes (and a plain one). Each value written to an analysis port reaches, once and in order, exactly the method write+SUFFIX of every implementation the port's connections lead to; no other method of that or another component is called.", "quantifier": "every acyclic connection network, every assignment of components and suffixes to implementations, every sequence of writes", "why_tests_cant": "All networks, suffixes and write sequences; a late-binding mistake in the generated classes shows only with several declarations.", "anchors": ["src/uvm/macros/uvm_tlm_defines.py:uvm_analysis_imp_decl", "src/uvm/tlm1/uvm_tlm_imps.py:UVM_IMP_COMMON", "src/uvm/tlm1/uvm_analysis_port.py:UVMAnalysisPort.write"]}
{"id": "C390", "title": "A failing subscriber does not starve the others", "statement": "When the method of one subscriber of an analysis port is missing or raises, the other subscribers still receive the value.", "quantifier": "every acyclic connection network, every subscriber that fails, every sequence of writes", "why_tests_cant": "Depends on connection order and on which subscriber fails, for all networks.", "anchors": ["src/uvm/tlm1/uvm_analysis_port.py:UVMAnalysisPort.write", "src/uvm/macros/uvm_tlm_defines.py:uvm_analysis_imp_decl"]}
{"id": "C391", "title": "Sequences that use several sequencers get their own responses", "statement": "A sequence may send items through its own sequencer and through others (a virtual sequence, or one that passes another sequencer to start_item). While it is in use at a sequencer, a response put there with the id of one of its items is given to it; a response is never given to another sequence or at another sequencer than the one the item was sent through; items sent without waiting for a grant carry no id and a response to them is fatal.", "quantifier": "every number of sequences and sequencers and every history of starts, grants, sends, ends, kills and responses", "why_tests_cant": "The ids are shared by all sequencers of the testbench; all interleavings of their use.", "anchors": ["src/uvm/seq/uvm_sequencer_base.py:m_register_sequence, m_unregister_sequence, m_find_sequence", "src/uvm/seq/uvm_sequence_base.py:m_get_sqr_sequence_id, m_set_sqr_sequence_id, start", "src/uvm/seq/uvm_sequencer_param_base.py:send_request, put_response"]}
{"id": "C392", "title": "No responses for a sequence that has ended", "statement": "After a sequence has ended, a response to an item it sent is reported and given to nobody, whichever sequencer the item was sent through.", "quantifier": "every number of sequences and sequencers and every history", "why_tests_cant": "Any later moment, after any number of restarts.", "anchors": ["src/uvm/seq/uvm_sequence_base.py:start", "src/uvm/seq/uvm_sequencer_base.py:m_sequence_exiting, m_unregister_sequence", "src/uvm/seq/uvm_sequencer_param_base.py:put_response"]}
{"id": "C393", "title": "A response identifies its item, whatever sequencers a sequence uses", "statement": "If item objects are not sent twice, every response given to a sequence belongs to an item that this sequence sent through the sequencer where the response was put, and no other item the sequence ever sent, through any sequencer and in any run, has the response's transaction id. An item sent while the sequence is in use at the sequencer gets its answer with its own transaction id at any later time until the sequence ends there.", "quantifier": "every number of sequences, sequencers and items and every history of starts, grants, sends, answers, ends and kills", "why_tests_cant": "All interleavings of several sequences, sequencers and runs.", "anchors": ["src/uvm/seq/uvm_sequencer_param_base.py:send_request, put_response", "src/uvm/seq/uvm_sequence_item.py:set_id_info", "src/uvm/seq/uvm_sequence_base.py:start, m_get_sqr_sequence_id", "src/uvm/seq/uvm_sequencer_base.py:m_register_sequence, m_find_sequence"]}
{"id": "C394", "title": "Item objects that are sent again", "statement": "When an item object is sent again, by the same or another sequence, its response goes to the sequence that sent it last and carries a transaction id that no other item of that sequence has.", "quantifier": "every history in which items are sent again", "why_tests_cant": "Depends on the counters of two sequences after arbitrary histories.", "anchors": ["src/uvm/seq/uvm_sequencer_param_base.py:send_request"]}
{"id": "C395", "title": "get_response gives the answer to the item asked for, on several sequencers", "statement": "If no item object is sent twice, whenever a coroutine of a sequence gets a response from get_response, a driver put that response after the last start of the sequence, as the answer to an item the sequence had sent through that driver's sequencer. The response carries that item's transaction id, which is the requested id when one was requested, and no other item the sequence sent through any sequencer has the same transaction id.", "quantifier": "every interleaving of starts, registrations, exits, sends, driver answers, queue depth changes, and get_response calls, wake-ups and kills of any number of coroutines, over any number of sequences, sequencers and items", "why_tests_cant": "It relates a response to the whole history of sends, starts and answers on all sequencers and to the schedule of all waiting coroutines; tests run a few schedules.", "anchors": ["src/uvm/seq/uvm_sequence_base.py:get_base_response", "src/uvm/seq/uvm_sequence_base.py:put_base_response", "src/uvm/seq/uvm_sequence_base.py:start", "src/uvm/seq/uvm_sequencer_param_base.py:put_response", "src/uvm/seq/uvm_sequencer_base.py:m_find_sequence"]}
{"id": "C396", "title": "A stored response stays available and is given at most as often as it was put", "statement": "A coroutine of a sequence gets responses to an item at most as often as drivers answered that item. If no item object is sent twice, and a driver's answer was stored, then as long as the sequence is not started again and no coroutine of the sequence got a response to that item, a coroutine of the sequence that calls get_response for the first time with the item's transaction id gets the answer to that item at once.", "quantifier": "every interleaving of starts, registrations, exits, sends, driver answers, queue depth changes, and get_response calls, wake-ups and kills of any number of coroutines, over any number of sequences, sequencers and items", "why_tests_cant": "Loss or duplication of a response depends on the schedule of all coroutines and on all traffic between the answer and the get; tests run a few schedules.", "anchors": ["src/uvm/seq/uvm_sequence_base.py:get_base_response", "src/uvm/seq/uvm_sequence_base.py:put_base_response", "src/uvm/seq/uvm_sequence_base.py:clear_response_queue", "src/uvm/seq/uvm_sequencer_param_base.py:put_response"]}
