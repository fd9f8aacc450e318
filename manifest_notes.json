{
 "C02": {
  "note": "Full for UVMPool; object string pools are C85."
 },
 "C03": {
  "note": "Full for put/get/try_*; peek is C86."
 },
 "C05": {
  "note": "get() and all operations in full; restoring by up is C87."
 },
 "C06": {
  "note": "Distance in full; suggestions are C88."
 },
 "C07": {
  "note": "Full; size 0 and oversized values are C89."
 },
 "C08": {
  "note": "Full statement is StringRoundTrip; it fails in big-endian order and when the string is followed by something; what holds is in the _partial theorems."
 },
 "C10": {
  "note": "get_* and list round trips in full; put_* and positions are C90."
 },
 "C12": {
  "note": "Full for RW and RO rights, backdoor and direct prediction; write-only maps and byte enables are C91."
 },
 "C13": {
  "note": "Full for maps with RW rights; fails through write-only maps."
 },
 "C16": {
  "note": "Layout, get/set/predict bitwise laws proved for every reachable register; fields beyond the width are C92."
 },
 "C58": {
  "note": "Exact; write-only fields are C109."
 },
 "C17": {
  "note": "Round trip through a memory-like and a FIFO-like device proved for every order policy; errors in bursts are C93."
 },
 "C18": {
  "note": "Root maps, and single words in nested maps; wide items in nested maps are C125."
 },
 "C19": {
  "note": "Full; two write-only registers are C94."
 },
 "C59": {
  "note": "In full for root maps and sizes >= 2; one-word memories are C110."
 },
 "C60": {
  "note": "With default arguments the old address is not forgotten (identity test of 0 against False), and forgetting may remove another register."
 },
 "C20": {
  "note": "Resolution proved terminating and correct for all override graphs with distinct type names; _fails: IndexError on a loop with a prefix, unbounded recursion with equal names. By-name creation is C119."
 },
 "C21": {
  "note": "Refinement of the override table to the last-call-wins map for overrides by type with boolean replace, effect of overrides by name; _fails: replace=0 replaces, self override displaces, override by name redirects the name."
 },
 "C22": {
  "note": "First registration wins, over every history without overrides by name; _fails: override by name redirects the name, same-named classes."
 },
 "C23": {
  "note": "Selection over every queue, with and without type, and lookup by name in every pool state of the invariant; typed config_db look-ups are C95."
 },
 "C24": {
  "note": "C24_exact_partial gives what get returns for every history of sets (build or not) without colliding keys. Last matching set wins when it is the first of its key or no other key matched before. Code violations: a repeated set moves the resource to the end of the queue and loses against the other settings; equal values (True == 1) keep the old one; glued keys collide."
 },
 "C25": {
  "note": "Any order of build-phase sets; a set outside build counts as depth 0 and beats every set made in build by a component below the root."
 },
 "C26": {
  "note": "Read-only, equal and effective writes, over all histories."
 },
 "C61": {
  "note": "Permutation and stability proved. Code violation: groups come in order of first appearance, so the result is not sorted."
 },
 "C62": {
  "note": "First matching set wins; write_by_name round trip."
 },
 "C63": {
  "note": "Counts over every history."
 },
 "C27": {
  "note": "Invariant over all trees, histories and interleavings of the drain coroutines; exact accounting also with pending drains. A raise meeting a running drain is excluded there because the code is wrong in that case (C29)."
 },
 "C28": {
  "note": "Rejection in every state, non-negative counts after every history; negative arguments are C96."
 },
 "C29": {
  "note": "Exact effect of a re-raise before the drain runs. Code violation: a running drain is not stopped by a re-raise, its drop still propagates and the coroutine ends with an exception."
 },
 "C30": {
  "note": "Coroutines always come to rest; at rest nothing is pending provided the background process never finds two waiting drains; all_dropped only announced when true. Code violation: it takes one context per wake-up, so a second drain is lost."
 },
 "C64": {
  "note": "Code violation: the time is stored only when no object is given."
 },
 "C65": {
  "note": "Proved when no drain is forked or running. Code violation: otherwise clear raises an exception."
 },
 "C31": {
  "note": "Full for FIFO and RANDOM; other modes are C97."
 },
 "C32": {
  "note": "Blocking and grabbing decided exactly as specified; granting of locks is C98."
 },
 "C33": {
  "note": "m_unregister/remove_sequence_from_queues; kill_sequence itself is C99."
 },
 "C34": {
  "note": "Refinement to a bounded queue; waiting by id is C100."
 },
 "C35": {
  "note": "All histories without exception; negative limits are C101."
 },
 "C36": {
  "note": "Order, one outstanding item, deliveries and item_done proved for every interleaving without stop_sequences and without try_next_item after an unfinished peek (C121). The end of finish_item is C120."
 },
 "C66": {
  "note": "stop_sequences leaves flags get_next_item does not recognise (C66_stop_fails)."
 },
 "C67": {
  "note": "Every history, including exceptions."
 },
 "C68": {
  "note": "Every history, including exceptions."
 },
 "C37": {
  "note": "Every history; files are C102."
 },
 "C38": {
  "note": "Severities range over the four severity levels."
 },
 "C39": {
  "note": "Every history of server calls and reports with arbitrary handlers and catchers; recording and show_verbosity are C103."
 },
 "C40": {
  "note": "Proved for all queues of catchers that only modify the message, unless a catcher both sets the action and changes the severity (C40_set_action_fails). An exception in a catcher, or a callback of another class behind a catcher, disables all catchers (C40_raise_disables_fails, C40_foreign_callback_fails)."
 },
 "C41": {
  "note": "The exact rule for every history of additions; the merge with type-wide callbacks and delete are C126."
 },
 "C42": {
  "note": "Every schedule; get_ap and peek with a list are C104."
 },
 "C43": {
  "note": "is_empty and can_peek exact. used() is only 0/1, is_full and can_put are wrong for sizes above 1, can_get stays False after a cancelled get (the _fails theorems); partial theorems state the exact part that holds."
 },
 "C44": {
  "note": "Every history; try_ variants are C105."
 },
 "C45": {
  "note": "Proved for every interleaving, comparison function and flush placement on top of the FIFO and mailbox models; algorithmic comparator included."
 },
 "C57": {
  "note": "Any acyclic connection graph, any binding order; each reachable implementation is called exactly once, in connection order. Names assumed distinct. Unbound ports are C108."
 },
 "C55": {
  "note": "wait_on/wait_off, reset, trigger data for every history and schedule; trigger waits are C122."
 },
 "C69": {
  "note": "Holds for histories of trigger waits made while no trigger is pending, triggers and waking resets; fails otherwise (C69_num_waiters_fails)."
 },
 "C46": {
  "note": "Exact; the /regex/ form is C106."
 },
 "C54": {
  "note": "What the code decides is characterised exactly for plain patterns (C54_search): it looks for a part that matches. The property itself holds for patterns beginning and ending with *; the other cases are refuted."
 },
 "C56": {
  "note": "All strings; refusing unknown words is C107."
 },
 "C70": {
  "note": "get_args; the other queries are C127."
 },
 "C71": {
  "note": "Proved for well-formed settings, except severity UVM_INFO and action UVM_NO_ACTION which are refused; malformed settings raise or are applied (the _fails theorems). uvm_is_match is a parameter."
 },
 "C72": {
  "note": "Proved up to two bytes; refuted from three bytes on."
 },
 "C52": {
  "note": "Comparisons of values no wider than the declared width and at most 64 bits are exact. C52_width_fails: the declared width is ignored, so bits above it miscompare; C52_wide_fails: above 64 bits nothing is compared."
 },
 "C73": {
  "note": "Proved for acyclic sources of any size. C73_cycle_fails and C73_recursion_fails: cycles give uncopied references, a stale copy map or unbounded recursion."
 },
 "C74": {
  "note": "Proved when corresponding values have the same kind, differing values are ints or objects and the right-hand side is a tree; reflexivity holds always. Fails: differing strings raise; None or list on the left is ignored; shared sub-objects on the right; comparison after an exception; compare(None)."
 },
 "C75": {
  "note": "orig.compare(clone) for all acyclic originals, clone.compare(orig) for trees; C75_shared_fails shows the latter fails with a shared sub-object, C75_cycle_fails that both fail for an object that refers to itself (clone does not copy cycles, C73_cycle_fails)."
 },
 "C76": {
  "note": "Proved when no class registers after an ancestor; C76_inherit_fails: a subclass of a registered class adds its fields to the base class and processes all fields twice."
 },
 "C47": {
  "note": "All trees; look-ups by name are C124."
 },
 "C48": {
  "note": "Order proved for all trees and for all callbacks that touch only their own component and those below it (they may create children in top-down phases). C48_find_fails: find/find_all of the root inside a callback makes the phase skip components; C48_endless_fails: get_first_child of the parent makes it endless."
 },
 "C77": {
  "note": "The matching predicate is a parameter (glob matching is C54). find_all does move the iteration pointers used by running phase traversals: see C48_find_fails."
 },
 "C49": {
  "note": "Proved: histories that append, insert before or insert after one other phase (IMP phases and whole schedules) give exactly the described linear chains, all calls succeed, predecessor/successor mutual, is_before/is_after/find agree with the order; with_phase gives the same neighbours and keeps the relation mutual. Fails (proved): appending after a parallel pair raises KeyError because the pair shares one dictionary; after_phase+before_phase naming neighbours raises KeyError; find/is_before follow only the first successor, so parallel phases are missed."
 },
 "C50": {
  "note": "Proved for every history: capacity, word size, order for set, predictions and reads (refinement to a bounded queue), full and empty cases, randomise. write() never succeeds (C50_write_fails) and update() repeats values until the queue is full (C50_update_fails, holds in general); also IndexError of get on an empty FIFO, stale pending count, prediction through a read-only map. Callbacks and back doors are not modelled."
 },
 "C51": {
  "note": "Every legal history; update of a block and refused additions are C118. Coverage, maps and virtual registers are not modelled."
 },
 "C53": {
  "note": "Only reserve_region exists. In range and disjoint because at most one region can ever be reserved: the second reservation raises (C53_second_fails)."
 },
 "C78": {
  "note": "Exclusion proved for every schedule without reset(); progress proved when nobody is cancelled inside an access and no mirror is made without a map. Fails: reset during an access admits a second one; a mirror() that finds no map, or a coroutine cancelled inside an access, keeps the token for good; an access made from inside an access deadlocks; waiting coroutines can be overtaken for ever. The double release of a refused write is harmless (proved: both are made in one atomic segment)."
 },
 "C79": {
  "note": "Bit by bit for every device and register; refused accesses and single-field updates are C116, status, checks and back doors are C117."
 },
 "C80": {
  "note": "Exact call lists proved. Fails: register callbacks never called before writes and reads, the last field's called twice, field callbacks not run after writes, value changed by post-read hooks dropped, callbacks without post_predict raise."
 },
 "C81": {
  "note": "Every history and every device following the documentation (such a device is constructed for every layout). Write-only maps are C111."
 },
 "C82": {
  "note": "All scripts of the methods without exceptions; exceptions are C112, waiting for a state is C113."
 },
 "C83": {
  "note": "Every tree; the depth is C123."
 },
 "C84": {
  "note": "All schedules, interleavings and objection histories; objections are C114, progress is C115."
 },
 "C85": {
  "note": "get proved; delete recurses without end."
 },
 "C86": {
  "note": "Blocking peek may complete without an item (_fails); what holds is C86_peek_front_partial."
 },
 "C87": {
  "note": "Holds without an argument; down/up loses the argument, set_arg_element raises."
 },
 "C88": {
  "note": "Membership proved; check() never suggests anything (_fails); the loop itself is right (_partial)."
 },
 "C89": {
  "note": "Fails: size 0 raises in big-endian order, values that do not fit raise in big-endian order and spill into the next field in little-endian order. C89_empty_field_partial and C89_oversized_low_bits_partial: in little-endian order empty fields are right, and exactly the bits that do not fit are or-ed into the next field."
 },
 "C90": {
  "note": "put_bits without leading zeros proved; refuted otherwise: unpack_bytes/ints ignore the current position and put_bits drops leading zeros."
 },
 "C91": {
  "note": "Refuted: through a write-only map no write has an effect; a cleared byte enable raises."
 },
 "C92": {
  "note": "Fields that do not overlap and are in sum not wider than the register are accepted wherever they are placed; setting a register with any field reaching beyond its width gives a value that does not fit (_fails, for all such registers). Fields in sum too wide are reported (_partial)."
 },
 "C93": {
  "note": "The status of a burst of writes is exactly that of its last value (_partial); an error on an earlier value is lost (_fails)."
 },
 "C94": {
  "note": "Proved in general: with a read-only and a write-only register at the address another write-only register silently takes the writes (_fails); without the read-only one the first keeps the address and a warning is given (_partial)."
 },
 "C95": {
  "note": "A look-up with a type of which no resource is an instance finds nothing whatever was set, so the type of the value plays no part (_fails, for all databases, plus a witness)."
 },
 "C96": {
  "note": "Refuted in general: raising any number changes the count by that number in every tree and state, so negative numbers make counts negative (_fails)."
 },
 "C97": {
  "note": "Proved with at most one candidate; with two or more candidates the simulation ends with a fatal error, for every queue and set of locks (_fails)."
 },
 "C98": {
  "note": "Refuted: a lock request at the head of the queue raises instead of being granted."
 },
 "C99": {
  "note": "Refuted: kill_sequence raises."
 },
 "C100": {
  "note": "Proved for a single waiter; with several a getter by id can miss its response (_fails)."
 },
 "C101": {
  "note": "Refuted, in general."
 },
 "C102": {
  "note": "File 0 set for a pair or an id does not win over less specific settings (_fails); the exact rule (first setting that is not 0) and the documented precedence without such zeros are proved."
 },
 "C103": {
  "note": "Every report that gets through with an action asking for recording ends in a KeyError with nothing printed (_fails, for all settings, plus witnesses)."
 },
 "C104": {
  "note": "get_ap holds for blocking gets; fails for try_get with a non-empty list and for flush; peek with a list appends twice."
 },
 "C105": {
  "note": "Refuted: NotImplementedError."
 },
 "C106": {
  "note": "Refuted: the last character of the expression plays no part, for every expression and argument vector, and the match is anchored (_fails)."
 },
 "C107": {
  "note": "Refuted: the answer depends on the action names among the words alone, any other words are ignored (_fails, for all lists of words)."
 },
 "C108": {
  "note": "A write before the ports are bound reaches nobody silently, for every network (_fails); an index that is out of range is reported."
 },
 "C109": {
  "note": "Refuted: the policy of a field plays no part in the comparison, for every register (_fails)."
 },
 "C110": {
  "note": "Refuted: ZeroDivisionError."
 },
 "C111": {
  "note": "Refuted."
 },
 "C112": {
  "note": "The calls are a prefix (_partial), but the objection stays raised and the sequence stays registered and not restartable (_fails)."
 },
 "C113": {
  "note": "wait_for_sequence_state raises in every state but FINISHED."
 },
 "C114": {
  "note": "A task phase without siblings ends only while nobody objects; for phases with a sibling this fails."
 },
 "C115": {
  "note": "No deadlock is proved for schedules with at most two parallel task phases per join (the common UVM schedule is shown to be one) and objections that are not raised again late; it fails for three parallel task phases, for late objections and for a last phase not named final."
 },
 "C116": {
  "note": "Update after single-field sets without write-clears/write-sets fields proved; what a write makes of the register is the same whatever the device answers, and a read depends on the data alone, so refused accesses change the mirror, lose the desired value and are checked (_fails)."
 },
 "C117": {
  "note": "Refuted: update status missing when nothing is written, check_on_read compares with the desired value, user back doors are never awaited."
 },
 "C118": {
  "note": "Fails: update of a block with a sub-block raises, a refused block or register still names the parent, blocks configured twice are enumerated twice. Update proved for blocks without sub-blocks."
 },
 "C119": {
  "note": "Agreement proved without instance overrides on the way; refuted in general."
 },
 "C120": {
  "note": "Proved when nobody else waits; the notification can be missed (_fails)."
 },
 "C121": {
  "note": "Refuted: try_next_item after an unfinished peek is fatal; irrelevant sequences raise."
 },
 "C122": {
  "note": "Proved when no trigger is pending. Code violations: a pending trigger ends wait_trigger at once, wait_ptrigger within one time slice, trigger with a registered callback."
 },
 "C123": {
  "note": "Proved for all histories that set contexts from the outside in; a depth cached before a sequence got its parent stays stale (_fails). set_depth by the user is not modelled."
 },
 "C124": {
  "note": "Proved for names without dots. C124_dot_fails: dotted names are accepted and break look-up and uniqueness; C124_empty_part_fails: 'a..b' is looked up from the root."
 },
 "C125": {
  "note": "Proved unless a map two or more levels below the root splits an access."
 },
 "C126": {
  "note": "An object's own callbacks run once it has one, the type-wide ones otherwise (_partial); the documented merge fails. delete is not implemented; type-wide callbacks never run without an object, a class-less iteration returns disabled callbacks, and a type-wide addition can raise."
 },
 "C127": {
  "note": "get_plusargs returns only plus signs; get_uvm_args does not check the first character."
 },
 "C128": {
  "note": "Hooks and callbacks change nothing; maps are read/write with automatic prediction."
 },
 "C129": {
  "note": "Same assumptions on maps and hooks as C128; the device is arbitrary."
 },
 "C130": {
  "note": "The reset kind is HARD, the default."
 },
 "C131": {
  "note": "Exclusions are flags (the resource lookup is C23\u2013C26)."
 },
 "C132": {
  "note": "Fails: a register d+1 levels down is tested 2^d times. Holds when sub-blocks have no sub-blocks."
 },
 "C133": {
  "note": "Fails: a model whose first map has a sub-map, or without a map of its own, is not checked at all. Holds when every block has a map and no map has sub-maps."
 },
 "C134": {
  "note": "Stated without byte enables (be = -1, what adapters that do not set them report) and for registers whose addresses differ; FIFO maps and byte enables are C137."
 },
 "C135": {
  "note": "The operations of a front-door write are those of the bus model of C17, seen without byte enables."
 },
 "C136": {
  "note": "Histories without repeated addresses within a transfer; repeated ones are C137."
 },
 "C137": {
  "note": "All four parts fail: a read and a write of two halves are merged; a register of more than one word in a FIFO map is never predicted (general); byte enables of the last beat are taken for the whole register and raise; the transaction that reveals a collision is dropped. What holds: a collision is reported and the next whole transfer starts afresh."
 },
 "C138": {
  "note": "For a memory mapped in a root map (little or big endian) with the bus model of C17 on a device with one cell per address. The width is in whole bytes; C143 is about bits."
 },
 "C139": {
  "note": "Fails: the result 0 of the check is compared with `is False`, so no access is refused: through the front door an offset outside raises IndexError, on the default path without back door it reports OK and does nothing, and a burst over the end writes behind the memory. What holds: the error is reported exactly for such accesses."
 },
 "C140": {
  "note": "Fails for every memory: the list of values must be empty and gives the number of words to read, so nothing is read."
 },
 "C142": {
  "note": "Fails: one word too many is sampled by every successful access. Proved: every word written is sampled; failures sample nothing."
 },
 "C143": {
  "note": "Fails on a witness (12 bits on a 16-bit bus). Proved: values are cut to whole bus words."
 },
 "C144": {
  "note": "Fails for all callbacks: they are called without await."
 },
 "C145": {
  "note": "Paths are lists of components; the separator is the dot."
 },
 "C146": {
  "note": "Paths without indices on any simulator, with at most one index per component on Verilator. Deposits take effect at once."
 },
 "C147": {
  "note": "Registers that are one signal, possibly in several places, without user back door; bits of the device outside all fields are cleared (the last clause of C147_write). Hooks are covered by C80."
 },
 "C148": {
  "note": "As C147; check_on_read of the back-door map off."
 },
 "C149": {
  "note": "Fails: the device's read-to-clear field is cleared but the mirror keeps the value read (likewise set-on-read and write-only fields). Holds for registers without such fields."
 },
 "C150": {
  "note": "Fails for every design and path: a missing component is treated as if it were not there."
 },
 "C151": {
  "note": "Fails for every such path: only the first index of a component is used."
 },
 "C152": {
  "note": "Fails: every back-door read (and write, which reads first) of a sliced register or memory raises AttributeError. What holds: deposits give each signal its bits."
 },
 "C153": {
  "note": "On Verilator (on other simulators indices are not split off)."
 },
 "C154": {
  "note": "Fails: with an empty root path there are no paths, nothing is reported, the status is OK and the mirror is predicted."
 },
 "C155": {
  "note": "Order, analysis ports, capacity, roles of all end points, blocking behaviour and no lost wake-ups, for all histories; built on C42."
 },
 "C156": {
  "note": "Violated: the wrapper all ports share drops the value (C156_value_fails, C156_run_fails). Holds: the list argument receives it (C156_list_partial)."
 },
 "C157": {
  "note": "Any tree of maps; maps compared by identity (Named)."
 },
 "C158": {
  "note": "Since the loop over the maps ends at once (C314), no warning can come from it."
 },
 "C159": {
  "note": "Violated: get_access ends without return when rights are restricted (C159_restricted_access_fails). Holds elsewhere (C159_access_partial, C159_rights_reg)."
 },
 "C160": {
  "note": "C160_sound: any memory that keeps what is written; C160_mapped instantiates it with the memory model of C138."
 },
 "C161": {
  "note": "Violated: only the polarity of ~k is checked for word k (C161_stuck_at_one_fails); exactly which faults are found is C160_store_faults."
 },
 "C162": {
  "note": "Violated for words that are not neighbours (C162_distant_alias_fails); neighbours are always found (C162_neighbours_partial)."
 },
 "C163": {
  "note": "For all front and back doors and all random draws, words of 1 to 32 bits."
 },
 "C164": {
  "note": "Violated: the value written is not masked after the second draw (C164_wide_words_fails gives exactly when, C164_good_reported_fails a run)."
 },
 "C165": {
  "note": "Violated: peek is given a number as output argument, TypeError (C165_read_only_fails)."
 },
 "C166": {
  "note": "Violated for blocks in the walk test: uvm_mem_walk_seq.py 261 asks for NO_MEM_ACCESS_TEST (C166_block_excluded_fails). C166_exact_partial gives exactly which memories are tested, for models of any depth; it is the property for memories and for the access test. A block below an excluded block is tested, as get_blocks() is hierarchical."
 },
 "C167": {
  "note": "All histories of calls; the file as a list of lines, read by a small automaton. Closing twice is allowed by it (C168)."
 },
 "C168": {
  "note": "Fails: closing a closed recorder writes a second line and changes the time; closing a freed one raises. Proved for users who close only open recorders."
 },
 "C170": {
  "note": "Fails: asking a freed recorder for its handle gives a non-zero handle and makes it be found again. Proved until it is asked for."
 },
 "C171": {
  "note": "Fails: a closed database cannot be opened again and closing it leaves its recorders as they are."
 },
 "C172": {
  "note": "Fails on the main stream after its first transaction (nothing recorded, handle 0). Proved for named streams."
 },
 "C173": {
  "note": "Fails: no link is ever recorded; a transaction that records itself makes the component raise."
 },
 "C175": {
  "note": "Fails: a transaction that was never begun is active. Proved from begin on."
 },
 "C176": {
  "note": "The layout is proved in full. The round trip is characterised exactly: it succeeds iff the last value that is not zero is odd (big endian, default) or at least 2^31 (little endian), because put_bits takes the position of the highest set bit for the size. C176_even_value_fails: every even value in a single-field object is lost."
 },
 "C177": {
  "note": "Proved for every finite graph: a depth above the number of objects is never reached. (An object on a cycle through the object pack() is called on is packed twice, since that object is not entered in cycle_check; shown by an example.)"
 },
 "C178": {
  "note": "Packing is proved; unpack_bytes and unpack_ints always raise since the packer has no put_bytes and put_ints."
 },
 "C179": {
  "note": "Missing bits are always reported by an error; the warning BDUNPK compares two values that are always equal and is never given."
 },
 "C180": {
  "note": "Proved for every finite graph with names that are not empty, have no dot and do not begin with a bracket (see C185), and fields that are integers, strings, objects or None."
 },
 "C181": {
  "note": "Proved, with a depth above the number of objects."
 },
 "C182": {
  "note": "Every line of an indented row has its columns one place to the left of the heading (space[1:k] has k-1 characters): C182_indented_row_fails holds for every table. In tables with a column of 100 characters or more, one-character cells are misplaced too and the dashes are short. Exact positions are proved for all rows whose cells are in columns of at most 98 characters or have two characters."
 },
 "C183": {
  "note": "Proved for the rows of every object graph."
 },
 "C184": {
  "note": "Hexadecimal and binary: proved. Octal prints decimal digits. Decimal values with the sign bit or above are neither reduced nor prefixed. The radix given to a field is not used (what__ & UVM_RADIX instead of the mask)."
 },
 "C185": {
  "note": "print_object sets name to the empty string before choosing the closing separator, so a name in brackets closes the enclosing scope too."
 },
 "C187": {
  "note": "Proved for one token, and for any number of tokens when a woken task continues before the next put (C187_prompt_partial). With two or more it fails: put() releases the lock only when `locked` is set, which the woken task sets when it continues; a put in that window does not wake the next."
 },
 "C188": {
  "note": "Fails: get(k) with count <= k takes the lock without looking at the count; try_get() looks at the count, not at the lock. What single calls do is proved."
 },
 "C190": {
  "note": "Fails: after the sub-objects the object draws from the state the last of them left; randomize_with() neither restores nor keeps the state; rand(obj) makes hasattr(self, obj) raise."
 },
 "C191": {
  "note": "Fails: creation draws from the global state, which randomize() leaves equal to the saved state of the object randomized last. The chain of seeds without other draws is proved."
 },
 "C192": {
  "note": "Fails: the sorted list is walked from the highest precedence to the lowest, each setting replacing the one before, so the lowest precedence and the oldest setting stay. The exact result for ordinary names is proved."
 },
 "C194": {
  "note": "Fails: names are compared with uvm_is_match, which searches: `count` is applied to `max_count`. Fields that do not contain the name are left alone (proved)."
 },
 "C195": {
  "note": "Fails: the type of the field is not looked at. Values of unsupported types are ignored (proved)."
 },
 "C196": {
  "note": "Fails: the index of the search for [ or . is not set back between settings; elements are never assigned; a path setting raises if another field holds an integer. A path setting alone is handed on (proved)."
 },
 "C197": {
  "note": "Fails: do_copy takes the list of values over by reference, and calls copy() again, which sets depth to 0, so that the table of copied objects is not emptied: the next clone of the same item is blank."
 },
 "C198": {
  "note": "Fails for writes: the clone for the index shares the list of values, so the index replaces the value, and the second clone is blank (a read). Index first and reads are proved."
 },
 "C199": {
  "note": "Fails: `return` on a refused index without releasing the two registers and without a status. Successful accesses are proved."
 },
 "C200": {
  "note": "ASCII letters and digits; %f is outside the model."
 },
 "C201": {
  "note": "Fails: the sign is dropped, a hexadecimal field behind two separators is lost, a lone underscore raises. Proved: numbers that are not negative."
 },
 "C202": {
  "note": "str.format is modelled for the two forms the replacements produce; messages with braces are the subject of C204."
 },
 "C203": {
  "note": "Fails: %x, %b and %0b show decimal. Proved: %h, %0h, %d, %0d."
 },
 "C204": {
  "note": "Fails: a single brace raises, a pair takes an argument. Proved: text without braces."
 },
 "C205": {
  "note": "Python's int() is modelled with signs, blanks, underscores and prefixes; the limit on the number of decimal digits is not. What the database does with the calls is C24, C25."
 },
 "C206": {
  "note": "Fails: a value that is not a number raises and the settings after it are lost; names that only begin like a setting are taken. Proved: a wrong number of fields."
 },
 "C207": {
  "note": "Fails: NO stores 0, which is not False; other words are ignored silently; non-numbers raise. Proved: n and n,YES, none, and counts protected with False."
 },
 "C208": {
  "note": "The value recorded; nothing in the code reads it."
 },
 "C209": {
  "note": "Fails for every number: the values of sscanf are swapped. Proved: no argument, and protected timeouts."
 },
 "C210": {
  "note": "A verbosity that is neither a name nor a number is in C214. Settings made by +uvm_set_verbosity at creation are C71."
 },
 "C211": {
  "note": "All twelve functions are the same recursion over the setter."
 },
 "C212": {
  "note": "Fails: each setting waits for the difference to the one before, counted from the start. Proved: the earliest one; each is made once; exactly when others are on time."
 },
 "C213": {
  "note": "Fails: any phase start raises for a component with such a setting. Proved: components without one."
 },
 "C214": {
  "note": "Fails: the fields of all settings so far are counted; fewer than three fields or an unknown +UVM_VERBOSITY raise. Proved: a single setting."
 },
 "C215": {
  "note": "Fails: type overrides do nothing. Proved: instance overrides."
 },
 "C216": {
  "note": "Numbers are rationals: the rounding of floats is not modelled."
 },
 "C217": {
  "note": "Numbers are rationals: the rounding of floats is not modelled."
 },
 "C218": {
  "note": "set_abstime takes negative times without a report; times that are given lengths of time only are never negative."
 },
 "C219": {
  "note": "Violated for compared write-only fields (the back-door read masks them to 0, the check does not mask). Proved for registers of readable fields kept in one signal, any number of maps."
 },
 "C220": {
  "note": "Proved for every device; the register is one signal of the design."
 },
 "C221": {
  "note": "Violated: read-only or write-only in one map means not tested through any. Proved for registers with all rights in all maps."
 },
 "C222": {
  "note": "Proved against the coverage of the bit bash test (C131), for all block trees."
 },
 "C223": {
  "note": "Proved for all bodies; hooks do not change sequencers and priorities."
 },
 "C224": {
  "note": "Violated: the sequencer given is passed to the object made by the factory, which is dropped; the item goes to its own sequencer or the sequence's. Holds for items that belong to the sequencer already and for sequences."
 },
 "C225": {
  "note": "Violated: the object given is sent, the object made by the factory is dropped."
 },
 "C226": {
  "note": "Proved for every history and schedule."
 },
 "C227": {
  "note": "Violated: the first task that runs clears the flag, the others wait again. Holds for one task."
 },
 "C228": {
  "note": "Violated: resources are cast to UVMConfigDb, which they never are, so no default sequence is ever started."
 },
 "C229": {
  "note": "proved for every legal history that builds the tree and controls coverage, with no bound on depth"
 },
 "C230": {
  "note": "refuted: the models on now are returned (proved)"
 },
 "C231": {
  "note": "proved for every legal history"
 },
 "C232": {
  "note": "refuted for every outer block and access; the register's own block is sampled (proved)"
 },
 "C233": {
  "note": "refuted: raises when no resource is found; otherwise exact (proved)"
 },
 "C234": {
  "note": "the schedule as the code builds it, executed by the model of phase execution; order proved for every interleaving"
 },
 "C235": {
  "note": "proved for all sequences of domains"
 },
 "C236": {
  "note": "refuted for overlapping calls; proved for calls one after another and for parent_select UPSTREAM"
 },
 "C237": {
  "note": "order and progress proved; without an upstream sequencer the body raises after its warning (not stated as a theorem)"
 },
 "C238": {
  "note": "refuted for every register and device: nothing is refused, and with prediction the access raises after reaching the device"
 },
 "C239": {
  "note": "Refines the model of registers' add_field (C16); any list of fields in any order."
 },
 "C240": {
  "note": "Refuted for every register and every single field beyond it that is not too wide."
 },
 "C241": {
  "note": "Exact condition of acceptance and the exact region for whole increments into an unused memory; refuted for the least increment and for the default increment (the increment is computed with / instead of //), and for every memory with a region in use (C53)."
 },
 "C242": {
  "note": "Refuted for every implemented register and every history: release_region is missing, so a second implement never succeeds, and it leaves the new memory reserved. The static part holds."
 },
 "C243": {
  "note": "All kinds and all places; stated with the three documented forms as an inductive predicate."
 },
 "C244": {
  "note": "Refuted for every message with elements (clone gives None and composing the copy raises); holds without elements."
 },
 "C245": {
  "note": "Refuted for every message: two messages that differ only in (non-empty) elements have the same text."
 },
 "C246": {
  "note": "Injectivity of the composed text on messages whose parts do not contain the separators."
 },
 "C247": {
  "note": "Refuted: a second call gives nothing, whatever the history. Over a whole history nothing is lost or given twice."
 },
 "C248": {
  "note": "Any history from a new server, any quit settings."
 },
 "C249": {
  "note": "Any acyclic graph (the ranking is a hypothesis); the loop provably ends."
 },
 "C250": {
  "note": "Any acyclic graph."
 },
 "C251": {
  "note": "Refuted after any history: the shared event is cleared by the first of two waiting tasks, the second waits although the state is met. Proved: a task waiting when the phase is set returns iff its state is met, and never in another state."
 },
 "C252": {
  "note": "All decision cases and histories; an exception in the factory (C20) is one more way of not running."
 },
 "C253": {
  "note": "Proved for trees with a match; refuted for every tree without one: the warning is given the pattern as verbosity and raises TypeError."
 },
 "C254": {
  "note": "Any history on blocks that form a tree of bounded depth; moving is by set_submap_offset of submaps (for other maps see C255)."
 },
 "C255": {
  "note": "Proved: None and maps with a parent are refused. Refuted: a map of a block that is not below raises (the message uses the name of None), set_submap_offset of a map that is not a submap is accepted."
 },
 "C256": {
  "note": "Any history."
 },
 "C257": {
  "note": "Any reachable structure."
 },
 "C258": {
  "note": "Refuted for every existing register: the status list is replaced by a number and write raises."
 },
 "C259": {
  "note": "Exact condition of success and exact warnings; refuted for all overlapping memories (formats the functions min and max) and for registers at an address of a memory entered before (the message is a tuple)."
 },
 "C260": {
  "note": "Model/Policy: the class tables and fields by name. Names are ASCII (`Char.toUpper`)."
 },
 "C261": {
  "note": "Model/Policy.getAccess is the whole of get_access by rights."
 },
 "C262": {
  "note": "Refuted for every configuration: `rand('value', ...)` is called always, `is_rand` is not used and the attribute set for unwritable policies is read by nothing."
 },
 "C263": {
  "note": "For all natural numbers; injective on the values below 128."
 },
 "C264": {
  "note": "Refuted for every action: the names lack the prefix UVM_ and are separated by spaces, so nothing is recognised."
 },
 "C265": {
  "note": "Model/SetLocal with the shared scope and list of objects; the matching is a parameter."
 },
 "C266": {
  "note": "C266_tree is for calls that do not raise (a registered field with an integer or text on the way raises, C196); objects shared between paths are visited more than once and are not covered by the exact claim."
 },
 "C267": {
  "note": "Refuted: the scope of a call that raised is not reset, and its names become part of every name matched later; C267_scope_kept_fails shows it for every call that raises."
 },
 "C268": {
  "note": "Step theorems over all reachable states; Below is an inductive relation on the tree of components."
 },
 "C269": {
  "note": "Invariant over all histories: which phases exist, who is linked to whom; order in every execution through C84. Names of components play no part; define_domain is not overridden and no phases are added by the user."
 },
 "C270": {
  "note": "Refuted: a domain called uvm_sched is found as its own schedule and stays empty; the common domain gets run-time phases after final."
 },
 "C271": {
  "note": "Uses the invariant of C269; which components a traversal visits is C48."
 },
 "C272": {
  "note": "Proved for all histories of constructions and add() calls that add to schedules and domains, without cycles; `Within` gives the schedules around a phase in terms of get_parent()."
 },
 "C273": {
  "note": "Proved for node and schedule additions, and for the phases outside of what moved."
 },
 "C274": {
  "note": "Proved for both values of hier."
 },
 "C275": {
  "note": "C275_end_fails: the full name of the end of any schedule in a domain leaves out all schedules; it holds for ends of domains (C275_end_partial)."
 },
 "C276": {
  "note": "C276_cycle_fails: add() accepts a schedule in itself, or two in each other, and the look-ups then loop for ever; without such cycles they end (C276_ends_partial)."
 },
 "C277": {
  "note": "Holds for every forest of blocks and every history in which the element itself was not yet asked."
 },
 "C278": {
  "note": "Fails: get_backdoor() of a register or memory stores what it found as its own back door, so it never sees later changes, and get_backdoor(False) then gives the inherited one."
 },
 "C279": {
  "note": "Fails: do_pre_write calls decode instead of encode, and do_post_read decodes in the order of registration. Holds for decoders that undo themselves and commute."
 },
 "C280": {
  "note": "Fails: pre_write, post_write and pre_read of callbacks are coroutines never awaited; disabled callbacks still decode. The back door's own methods and the enabled post_read callbacks run in the documented order."
 },
 "C281": {
  "note": "Fails: poke and peek call coroutines of the back door without awaiting them, and report UVM_IS_OK. The refusal, and the path through HDL, are proved."
 },
 "C282": {
  "note": "Exhaustive over the 23 interface classes and 20 methods, with a proof that the enumeration is complete."
 },
 "C283": {
  "note": "Fails exactly for the colliding pairs: the masks of blocking transport and non-blocking put are the same bit (2 << 3), and the sequencer's interface reuses the bits of the TLM interfaces."
 },
 "C284": {
  "note": "Proved for networks in which the interfaces reached do not collide (C283); fails with a collision."
 },
 "C285": {
  "note": "Fails: set_default_index only stores the index. Proved for set_if; an index out of range leaves the port without implementation."
 },
 "C286": {
  "note": "Forward path through any acyclic topology of pass-through sockets; null delay; unconnected sockets."
 },
 "C287": {
  "note": "Holds for initiators connected directly. Refuted behind pass-through sockets: their connect never connects the backward path, so a backward call raises wherever the forward path comes from (C287_passthrough_fails is a general statement, not one witness)."
 },
 "C288": {
  "note": "Targets are right. The non-blocking initiator tests the wrong way round: the error is reported exactly when an implementation is given."
 },
 "C289": {
  "note": "Valid connections are accepted silently and every invalid one is reported except pass-through initiator to initiator; an initiator connected to an initiator is reported but connected all the same."
 },
 "C290": {
  "note": "Refuted: copy and clone share the Python list, so every later change but delete() shows in both (general theorem over all histories). Proved: no interference without copies, clone contents, and separation after delete()."
 },
 "C291": {
  "note": "Refuted: pools have no do_copy, so a clone is empty and a copy changes nothing. Nothing of the property holds."
 },
 "C292": {
  "note": "Refuted: do_print of UVMPool walks with the pool's own pointer, so a second print shows nothing and walks end. Proved for the first print and for string pools."
 },
 "C293": {
  "note": "Answers for the serving map, unmapped and foreign registers, unlocked models; without a map for registers in one or no map (several maps: C157)."
 },
 "C294": {
  "note": "Every layout; registers sharing addresses are C19."
 },
 "C295": {
  "note": "Refuted for every register of several words in a big-endian root map, where get_address is the highest address; holds otherwise."
 },
 "C296": {
  "note": "Refuted for maps without registers or memories of their own below a narrower bus (own width), and before locking (0); holds for every map with a mapped item."
 },
 "C297": {
  "note": "Refuted for every raise, every accepted drop and every drain while tracing is on: m_report raises (sname unbound for the source, str.len for others). Same behaviour proved with tracing off, disabled messages and amount 0."
 },
 "C298": {
  "note": "Lines of the root's display proved for all proper counts; refuted: the root has two lines always; for other objects lines below are missing and foreign ones shown."
 },
 "C299": {
  "note": "No lost event proved for all interleavings; return only after the event proved when nobody else waits for the object and no task was killed; refuted otherwise (event flags are never cleared)."
 },
 "C300": {
  "note": "By type proved in full (list, marks, result, loops), for unique type names. By name: the resulting type is right; a self instance override is reported as a loop that creating does not meet, and an unknown name raises TypeError."
 },
 "C301": {
  "note": "Requests by type are unaffected; requests by registered names too. Refuted for names that are not registered: debug_create_by_type registers the type."
 },
 "C302": {
  "note": "Type overrides and type names are listed exactly unless overrides by name interfere (refuted with witnesses). Instance overrides: refuted for every factory with more than one overridden type, since all queues get the key 'uvm_queue'."
 },
 "C303": {
  "note": "Proved for every database that was not closed."
 },
 "C304": {
  "note": "Streams are stable; refuted that events do not disturb transactions: an event on the main stream keeps every later transaction from being recorded there. After close_db nothing is recorded."
 },
 "C305": {
  "note": "Proved for messages without elements; those with elements are C306."
 },
 "C306": {
  "note": "Refuted for every message with elements: clone gives None elements, copying those back raises AttributeError, and in_catcher stays set so no catcher is asked again. Proved: with the flag off nothing raises."
 },
 "C307": {
  "note": "Refuted for every history: the iterator is made for the object None, whose queue is the class-level list nobody fills."
 },
 "C308": {
  "note": "Proved; the callbacks do not change during the walk."
 },
 "C309": {
  "note": "Refuted whenever the last callback of the queue is one that is run (prev then skips it); proved when a callback that is not run follows it."
 },
 "C310": {
  "note": "Refuted for every size smaller than the list: packing packs the whole list, unpacking overwrites all elements. Proved: refusal of larger sizes, position after unpacking, round trip with the same size."
 },
 "C311": {
  "note": "Holds without settings and when the newest setting has strictly the highest precedence. Fails otherwise: the loop over the resources has no break and the order they are read in is not by precedence, so the agent takes the oldest of the settings that have the precedence of the newest one."
 },
 "C312": {
  "note": "One line per visible resource, in the right order of components. Fails: the line is a dash, with neither name nor value; audit=True raises AttributeError after the first resource (print_accessors does not exist), print_config_with_audit passes 1, for which `is True` does not hold, and shows no audit."
 },
 "C313": {
  "note": "Holds for the maps the memory is in, and for maps that do not reach it. Fails for maps above the memory's maps and for the choice between several maps, because both loops run over a UVMPool (C314)."
 },
 "C314": {
  "note": "UVMPool has __getitem__ but no __iter__: the loop gets the values of the keys 0, 1, 2, ... up to the first that is missing."
 },
 "C315": {
  "note": "Refuted: the loop over the table ends at once (C314)."
 },
 "C316": {
  "note": "Holds when configure comes first, for tables without repetitions whose registers are in none of the maps. Fails for maps added before, because the loop over m_maps ends at once (C314), and for registers that are in the map already: registers have no set_frontdoor, AttributeError."
 },
 "C318": {
  "note": "Register files have neither get_default_hdl_path nor get_full_hdl_path, so for a register in a register file both questions raise AttributeError. For registers directly in a block the property holds."
 },
 "C321": {
  "note": "A new factory knows none of the classes defined before it was set. A factory that is set again after reset knows names that have no class any more. Without set_factory the property holds."
 },
 "C322": {
  "note": "compare does not restore the scope stack when it raises. If the exception comes from the object itself, the next comparison may be wrong and no other. If it comes from a sub-object, one miscompare makes all later comparisons fail. Without exceptions the property holds."
 },
 "C323": {
  "note": "Composes the models of register accesses and bus accesses. Accesses run one after the other; user front doors and HDL back doors are not modelled."
 },
 "C324": {
  "note": "For front-door accesses with hooks that leave the item alone; hooks of any kind are covered by C323."
 },
 "C325": {
  "note": "Words of accesses interleaved at every await of do_bus_write/do_bus_read; accesses to one register are queued (its lock is C-numbered separately in RegAtomic). Device: any per-address cells."
 },
 "C326": {
  "note": "Every history of sets and priority changes."
 },
 "C327": {
  "note": "_fails for every state: high priority appends like low priority, so a resource with an equal competitor is never found; partial: found if its precedence is strictly above."
 },
 "C328": {
  "note": "Exact texts, for every width, value, name and chain of maps; the desired value can be told from the text of a field. Texts of registers are modelled for registers that are not being accessed."
 },
 "C329": {
  "note": "Violated: the note on the mirrored value is built but the template has one place too few, so the text of a field is the same for every mirrored value (C329_mirror_fails); the value is shown in decimal behind the unused format '8'h%2.75h' (C329_hex_fails). The register's own value is shown in hexadecimal and can be told from the text (C329_register_partial)."
 },
 "C330": {
  "note": "End to end over the models of C12, C13, C79 and the bus accesses; hooks that leave the items alone, a read/write map, no access refused, one access after the other (concurrent ones: C325). The chip is specified word by word from the table of policies; that a write-once bit is written counts per word."
 },
 "C331": {
  "note": "Depth of the recursion bounded by the tree of blocks, proved to suffice. What the check compares is in C117."
 },
 "C332": {
  "note": "The switch of a submap is stored but nobody looks at it: accesses ask the root map. Holds of root maps, for all accesses through maps below them."
 },
 "C333": {
  "note": "End to end like C330 (register, field, map and bus models composed), for histories with changes of the chip by something else. The report is characterised exactly (iff), reads and mirrors resynchronise, and resynchronised registers stay so. Registers with fields that cannot be read are excluded (see C109)."
 },
 "C334": {
  "note": "The code violates the property: paths are matched anywhere in the name (C54), so an override for one instance also catches instances with longer names and elsewhere (C334_other_instances_fails). Proved: everything below the parent that matches gets the override; creations at paths that do not contain the parent's name are unaffected; for patterns ending in * and paths with the parent's name only at the beginning the override applies exactly below it."
 },
 "C335": {
  "note": "Registers behind the documented chip of Props/RegChip, accessed through the model with auto prediction off and by other masters; the monitor and adapter are user code, taken to report every bus operation in order without byte enables. Register files with rights other than read/write, FIFO and indirect registers are outside."
 },
 "C336": {
  "note": "registers of C330 and memories of C138 on one bus; separation theorem for any device behind the registers"
 },
 "C337": {
  "note": "Full. Front-door accesses whose user hooks do not give up control; the accesses to one register wait for each other, and other calls that change the register are made between its accesses."
 },
 "C338": {
  "note": "Full for adapters without responses (C339). Hooks of the parent sequence are recorded and change nothing; what other sequences do between two items is the subject of C325 and C337."
 },
 "C339": {
  "note": "Fails for every adapter and access (C339_responses_fails): get_base_response is given None instead of a list, so the access raises when the response arrives, after the first item was executed, and waits for ever if none arrives."
 },
 "C340": {
  "note": "C340_mirrors: histories of requests, bus words and calls of set in any order. C340_returns: a call of set while an access is under way does not change what that access returns."
 },
 "C341": {
  "note": "Violated: automatic prediction at the end of the write overwrites the desired value. C341_set_survives_fails: whatever happens after the set, once the write is over the whole state is what it is without the set."
 },
 "C342": {
  "note": "Composes the walk (C131), the test of one register (C128), the accesses and the words on the bus. The map is the only map of each register; registers are at most 64 bits wide (C128 shows wider ones raise)."
 },
 "C343": {
  "note": "The device behind the bus is arbitrary; only the stuck bit is assumed."
 },
 "C344": {
  "note": "Blocks whose maps have sub-maps are excluded: there the code checks nothing (C133). Registers with fields that cannot be read: C346."
 },
 "C345": {
  "note": "The check of the register in question comes before any other access to its words, since the other registers are at other addresses."
 },
 "C346": {
  "note": "Fails: do_check compares acc[0:1] (one character) with two-character names, so write-only fields are never masked; a compared write-only field with a reset value other than 0 makes the test report an error on every chip (C346_write_only_fails). C346_silent_partial: a chip in its reset state is accepted if the compared unreadable fields of the covered registers have the reset value 0, so the two theorems together say exactly when."
 },
 "C347": {
  "note": "C84 and C114 with the whole objection model of C27-C30 in place of one number per phase; the calls on objections are those whose accounting is right (no raise that meets a running drain, no negative count)."
 },
 "C348": {
  "note": "Fails: the phase looks only at the total of the root; with the last objection dropped before it looks, it ends during the root's drain, and the clear of the clean-up raises. Proved: DONE in two steps if no drain is forked or running, with an empty objection."
 },
 "C349": {
  "note": "Fails: of two components that drop in the same time step the second drain is lost (C30) and the phase waits for ever. Proved: if the background process never finds two waiting drains, a phase without siblings ends within four steps of its task once nobody objects and the coroutines rest."
 },
 "C350": {
  "note": "Fair: no negative counts, no raise that meets a running drain, no clear by the user, nobody else uses the sequences as source of an objection. Phases without siblings."
 },
 "C351": {
  "note": "The code violates it for sequences that end by an exception (C351_exception_fails, proved for every continuation). C351_over_partial and C351_ends_partial: sequences whose methods raise no exception; histories as in C349."
 },
 "C352": {
  "note": "The model of the execution of phases (PhaseRun) run together with the traversals (Traverse).  Excluded by hypothesis: callbacks that create components outside the build phase or search the tree from the root (C47, C48 say what the code does then), and exceptions.  The components in the domain of a phase do not change during the run."
 },
 "C353": {
  "note": "Proved for all pairs of calls of all interleavings, with the hypotheses of C352."
 },
 "C354": {
  "note": "The models of ports (C57), analysis FIFOs (C42) and comparators (C45) put together. Transactions are values (nobody changes one after writing it), and subscribers keep what they receive; a subscriber that writes on from inside its write method is not modelled."
 },
 "C355": {
  "note": "The sequencer of C36 on top of C354. The driver is user code: it is assumed to write one observation for each item it finished, in the step in which item_done returned."
 },
 "C356": {
  "note": "names of plusargs have no '=' (cocotb splits at the first one); texts are lists of characters"
 },
 "C357": {
  "note": "violated: the character loop appends '=' to every plusarg name and reads past the end of NAME, so the answer is never True; C357_never_true_fails is an equation for all plusargs and names; holds with the '=' written in the name"
 },
 "C358": {
  "note": "Traverse and Resource composed; user code in build_phase is any list of set/get calls with self as context, chosen with the database in view; NoCollision as in C25; values are compared as in C25 (a value equal to the present one does not replace it)"
 },
 "C359": {
  "note": "same model as C358; the second and third parts are about every entry of the log"
 },
 "C360": {
  "note": "RootSettings, BuildCfg, Traverse and Resource composed; well-formed settings are those of C205; the root alone has the empty name"
 },
 "C361": {
  "note": "violated: a repeated pattern is moved to the end of the queue (see C24_repeated_set_loses_fails), so an earlier other pattern wins (C361_pattern_used_before_fails); holds if the pattern was not used before"
 },
 "C362": {
  "note": "Traverse and Factory composed; the specification of overrides is stated on the history of calls (Spec/BuildFactory); overrides by name are excluded (see C119, C21, C22 for what goes wrong with them); type names are unique as in C20; chains that run into a cycle are left to C20"
 },
 "C363": {
  "note": "same model as C362"
 },
 "C364": {
  "note": "The end of start is its last step; exceptions in a method skip it (C351)."
 },
 "C365": {
  "note": "With several settings the winner is not the documented one: C192."
 },
 "C366": {
  "note": "Names are compared by containment: C194."
 },
 "C367": {
  "note": "Verif.Model.SeqRun composes Verif.Model.SeqPhase and Verif.Model.Sequencer. C367_body_returns: no item is left when the body is over; C367_phase_end: at the end of a phase; C367_driver_idle: all items. Hypotheses: no exception in the sequencer, no kill, no stop_sequences (Good), objections accounted rightly (Fair)."
 },
 "C368": {
  "note": "Proved. The network without cycles is any state of connections with a rank that connections decrease. A text is modelled as its lines with name, port and indentation; the characters of a line are not. Calls by a user start at level 0."
 },
 "C369": {
  "note": "C369_depth_fails: with two or more connections the indentation of a later connection is always larger than that of the first although both have the same depth, because the shared indentation is never taken back. C369_levels_fails: with max_level 0 one shows nothing and the other a level. C369_chain_partial: right where every port has at most one connection."
 },
 "C370": {
  "note": "Proved for registers built by adding any fields of at least one bit."
 },
 "C371": {
  "note": "Proved. Slices are as add_path makes them: whole (offset and size -1) or with offset and size at least 0; paths do not contain the punctuation of the text."
 },
 "C372": {
  "note": "Proved. The selection and the order as stated; C372_runs: run one after the other, errors added up, nothing run without a block; C372_raises: an exception ends the run. The resources are taken not to change during the run."
 },
 "C373": {
  "note": "The code violates it for every selection: the branch is commented out (C373_shared_access_fails). There is no part of the property that holds."
 },
 "C374": {
  "note": "Proved, for blocks whose fields all are readable and have a hard reset value and whose maps have no sub-maps (C133)."
 },
 "C375": {
  "note": "False (C375_default_reset_fails: a field cleared by reads). C375_default_reset_partial: it holds if no field is changed by being read."
 },
 "C376": {
  "note": "Proved, for registers of at most 64 bits; the other tests are not selected."
 },
 "C377": {
  "note": "False for every name (C377_create_fails): a Python set is passed as the name of the event, which appends it to strings: TypeError. C378 to C380 are about the methods on an object that a subclass has given the intended attributes."
 },
 "C378": {
  "note": "Reaching the threshold releases nobody, since m_trigger is not awaited (C378_release_fails, for every state and every further arrivals). C378_reset_releases_partial: reset with wake-up and set_threshold do release everybody, after histories without cancel and without reset without wake-up."
 },
 "C379": {
  "note": "False in every case (C379_rearm_fails): after the threshold is reached every further process passes."
 },
 "C380": {
  "note": "False with resets (C380_early_fails: a reset with nobody waiting leaves the event triggered). C380_arrivals_partial: without resets and changes of the threshold exactly the processes from the threshold-th on pass, and no other ever does."
 },
 "C381": {
  "note": "Proved for every threshold, every history of arrivals that reaches it and every later history without reset and changes of settings."
 },
 "C382": {
  "note": "Proved for histories of arrivals below the threshold. Violated in general: processes that have passed stay counted, and cancel replaces the count by that of the event minus one (C382_number_fails)."
 },
 "C383": {
  "note": "Proved for objects with a callback of their own, all histories and all behaviours of the methods that do not add in front of the queue of the object being run."
 },
 "C384": {
  "note": "Violated: for every object, queue and class, a first callback that adds a new one in front is run twice in a row (C384_prepend_fails), and if it does so each time the run never ends (C384_forever_fails). What holds without such additions is C383."
 },
 "C385": {
  "note": "Proved for every history of settings."
 },
 "C386": {
  "note": "Violated: the macros ask the root (uvm_globals.py 89-91) and then report unchecked, so the limit of the component has no effect (C386_own_limit_fails, general; C386_levels_fails, witness). Proved: the limit of the root decides, everything else comes from the component; the claim holds where both limits agree, and so in every hierarchy whose verbosities were only set by the command line and set_report_verbosity_level_hier at the root."
 },
 "C387": {
  "note": "Proved for every history of settings of the root."
 },
 "C388": {
  "note": "Proved; UVM_NONE is 0, so the limits of the root are not negative unless set to a negative number on purpose."
 },
 "C389": {
  "note": "Proved for every acyclic bound network, every choice of components and suffixes and every sequence of writes: with the declared methods present and not raising, each method receives exactly the values written to the ports that lead to its implementation, once each and in order, and every write returns (C389_routed); whatever is missing or raises, nothing else is ever received (C389_only). Subscribers that write to ports themselves are not modelled here."
 },
 "C390": {
  "note": "Violated: the broadcast loop does not catch exceptions, so subscribers behind the failing one get nothing; if the first lacks its method, no write ever reaches anyone (C390_rest_fails, every network). Proved part: those before it receive the value in connection order and the writer gets the exception (C390_before_partial)."
 },
 "C391": {
  "note": "Proved for any number of sequences and sequencers and every history: responses with the id of a sent item are never given to another sequence or at another sequencer (C391_never_another); while the sequence is in use at the sequencer they are given to it (C391_routed; the status is read off the history by Spec/SqrIds.status); without use the item has no id and a response is fatal (C391_unknown). Arbitration at one sequencer is C35-C36, C67."
 },
 "C392": {
  "note": "Violated: the end of a sequence takes it only out of the table of the sequencer it was started on; at every other sequencer it used it stays for ever, so late responses are given to it, even in a later run (C392_other_sequencer_fails, after every history). Proved part: at the sequencer where it ended, responses are reported as lost for ever (C392_own_sequencer_partial)."
 },
 "C393": {
  "note": "Proved on Model/RspRoute.lean (over the id tables of Model/SqrIds.lean) for any number of sequences, sequencers and items and every history: C393_identifies, C393_arrives. Users' own set_transaction_id and overflowing response queues (C34) are outside."
 },
 "C394": {
  "note": "Violated: send_request numbers an item only if it has no transaction id, so an item sent again keeps its old one, which may be that of another item of its new sender (C394_sent_again_fails, after every history where the numbers meet). Proved part: the response goes to the last sender, with the old transaction id (C394_new_sender_partial)."
 },
 "C395": {
  "note": "Composition of RspRoute (C393) with one response queue per sequence (C34). Sequences that use a response handler are not modelled; an item object sent again is C394."
 },
 "C396": {
  "note": "Same composed model as C395. The hypothesis that the response was stored excludes overflow of the queue (C34)."
 }
}