# Formal model of tpoikela/uvm-python in Lean 4

## Trusted base

* Lean 4.33.0's kernel. Theorems depend on at most Lean's three standard
  axioms `propext`, `Classical.choice` and `Quot.sound`; no axiom is added, there is
  no `sorry`, `admit`, `native_decide` or `bv_decide`.
* The model under `lean/Verif/Model/` is a hand translation of the Python text.
  Nothing mechanically ties it to the Python; each definition cites the lines it
  models and names its simplifications.
* The specifications under `lean/Verif/Spec/` say in small independent
  definitions what the English properties mean.
* Python facts assumed: unbounded integers, insertion-ordered `dict`,
  `list` semantics, cooperative scheduling of cocotb coroutines (a coroutine runs without
  interruption between two `await`s that suspend), and cocotb `Event` semantics:
  `set()` makes the event fired and wakes all waiters, `clear()` un-fires it,
  `wait()` returns at once when fired and otherwise suspends until a later `set()`.

## Layout

* `Verif/Model/X.lean` – the code, function by function, with citations.
* `Verif/Spec/X.lean` – independent specification vocabulary.
* `Verif/Lemmas/X.lean` – helper lemmas.
* `Verif/Props/X.lean` – the property theorems, each with a concrete
  `example` showing that its hypotheses are met by a non-trivial case.

Exceptions are values (`Except`/`Option`/explicit outcome types), `uvm_error`,
`uvm_warning` and `uvm_fatal` calls are outputs or log entries where a property mentions them.
Where the code does not have the property, the negation is proved on a concrete
witness (`*_fails`) and the part that does hold is proved for
everything (`*_partial`); both are listed in "Disagreements" below.

## Plan per property

| Property | Modelled | Proof |
|---|---|---|
| C01 queue | all UVMQueue methods over `List α`, indices `Int` | refinement: each op equals the list operation; induction over histories |
| C02 pool | insertion ordered assoc list + iteration pointer | invariant `Nodup keys`; abstraction to a function `K → Option V`; enumeration by induction |
| C03, C04 mailbox | state + per-coroutine program counter, one transition per atomic segment | invariants by induction over arbitrary schedules |
| C05 scope stack | stack + arg | structural equation for `get`, `down`/`up` inverse |
| C06 spell checker | the flat-array DP loop | loop invariant: cell = recursive edit distance; recursive distance = minimum over inductive edit scripts |
| C07–C10 packer | `m_bits`, `count`, pack size, flip | bit-level lemmas over `Nat`, induction over field lists |
| C11 bit helpers | `Nat` bit operations | `Nat.testBit` extensionality |
| C12–C15 register field | policies, set, XpredictX, XupdateX, do_predict, reset | bitwise specification per policy via `testBit`; invariants |
| C16 register | list of fields, add_field insertion, set/get | induction over fields, bit-level disjointness |
| C17 bus access | loops of do_bus_write/read | induction over the address list; base-2^k digit reassembly |
| C18 addresses | get_physical_addresses including parent recursion | closed form + reversal; induction over nesting |
| C19 address map | Xinit_address_mapX register part, get_reg_by_offset | induction over the registration list |
| C20–C22 factory | overrides, find_override_by_type with the recursion guard list | termination measure = types not yet visited; relation spec |
| C23–C26 resources | pool queues, lookup, precedence, config_db set/get | induction over queue / histories |
| C27–C30 objections | counts on a tree of parents, scheduled contexts | invariant: total = own + children's totals (adjusted by pending contexts) |
| C31–C36 sequencer | arb queue, lock list, choose, removal, responses, handshake | list induction, refinement |
| C37–C40 reports | handler tables, server counts, catcher loop | last-write-wins abstraction, counting induction |
| C41 callbacks | queues of UVMCallbacks.add/delete | induction over histories |
| C42, C43 TLM FIFO | UVMTLMFIFO over the mailbox model | refinement; `num()` is a Bool, so used/is_full are wrong: negation + partial |
| C44 DAPs | three state machines | induction over histories |
| C45 comparator | run loop as transition system | invariant |
| C46 command line | prefix scanning loops | list equations |
| C47, C48 components | tree of components, names, traverse | structural induction |
| C49 phase schedule | node graph edits by `add` | invariants |
| C50 FIFO register | fifo list, set count | invariant over histories |
| C51 register block | block tree | structural induction |
| C52 comparer | mask computation with Python's arithmetic shift | the mask is always -1: negation + what holds |
| C53 mam | reserve_region loop | second reservation raises: negation + partial |
| C54 glob | glob-to-regex translation, search semantics | negation (unanchored) + characterisation |
| C55 event | trigger/wait state machine | invariant over schedules; trigger with callbacks is broken: negation + partial |
| C56 parsing | string tables | case analysis over the (finite) tables, induction over the split list |
| C57 analysis port | port connection lists, resolve_bindings, write | induction over the connection tree |
| C58 mirror check | `mirror` with `UVM_CHECK`, `do_check` and the field `get_compare`/access tests | iff between the reported mismatch and a differing compared field bit |
| C59 memories in maps | memory part of `get_physical_addresses` and of the address map | arithmetic closed form |
| C60 moving registers | `set_offset`/`m_set_reg_offset` on a locked map | case analysis over the dictionary updates |
| C61, C62 resource queues | `sort_by_precedence`, `get_highest_precedence`, by-name writes | permutation + stability; list induction |
| C63–C65 objections | counters, drain times, `clear` | invariants over histories |
| C66 sequencer stop | `stop_sequences` and the two flags | negation + partial |
| C67, C68 transactions/sequence counters | state machines | induction over histories with exceptions |
| C69 event waiters | counter of the event machine | negation + partial |
| C70–C72 text | argument splitting, verbosity/severity/action settings, bit/string conversion | list induction |
| C73–C75 copy, compare, clone | object graphs as heaps, `__m_uvm_field_automation` walk with fuel | simulation between graph walk and tree unfolding; termination by rank |
| C76 field registration | class table and registration calls | induction over histories |
| C77 find_all | recursion over the component tree | structural induction via rank |
| C78 register token | transition system over the mailbox model | invariants over all schedules |
| C79 register accesses | write/read/update/mirror over an arbitrary device | bit-level equations, closed form of prediction |
| C80 access hooks | hooks as functions on items with a call log | induction over fields and callbacks |
| C81 mirror tracks device | histories of accesses on a device that follows the documentation | simulation invariant |
| C82 life of a sequence | `start` as a straight line of steps with scripts for the user methods | invariant over the steps, all scripts |
| C83 item context | parent chains, cached depths, names | induction over chains, invariant over histories |
| C84 phase execution | one task per phase, events, objections, any interleaving | invariant over histories; simulation of each pair of siblings by a small protocol; induction over the schedule |
| C85–C127 | parts of C02–C84 the code violates, split off as properties of their own: C85 from C02, C86 from C03, C87 from C05, C88 from C06, C89 from C07, C90 from C10, C91 from C12, C92 from C16, C93 from C17, C94 from C19, C95 from C23, C96 from C28, C97 from C31, C98 from C32, C99 from C33, C100 from C34, C101 from C35, C102 from C37, C103 from C39, C104 from C42, C105 from C44, C106 from C46, C107 from C56, C108 from C57, C109 from C58, C110 from C59, C111 from C81, C112 from C82, C113 from C82, C114 from C84, C115 from C84, C116 from C79, C117 from C79, C118 from C51, C119 from C20, C120 from C36, C121 from C36, C122 from C55, C123 from C83, C124 from C47, C125 from C18, C126 from C41, C127 from C70 | negation on a witness (or in general), and the part that holds |
| C128, C129 bit bash | the loops over maps, bits and rounds over the access model, with `dc_mask` | invariant (mirror agrees) along all rounds; for stuck bits: desired bit after a read is the bit read |
| C130 reset check | `mirror` after `reset` | from C15 and C58 |
| C131–C133 register walks | `do_block` over trees of blocks | induction on the height |
| C134–C137 explicit predictor | `UVMRegPredictor.write`/`check_phase` over any history of observed bus transactions | the part of the state of one register depends only on its own transactions; assembly of words by bit reasoning |
| C138–C144 memory accesses | `UVMMem.write/read/burst_write/burst_read` over the bus model of C17, with checks, hooks, coverage; back doors as arbitrary functions | refinement of histories to an array; closed forms; negations in general |
| C145–C154 HDL paths and back doors | `uvm_hdl` (path splitting and walking), `get_full_hdl_path` of blocks, registers and memories, `backdoor_read/write`, the back-door branches of `do_write`/`do_read`, `peek`/`poke` of memories, over a tree of named objects, arrays and signals | a relation says what a path names; bit-level effect of policies from C12; refinement of pokes to an array; negations in general |
| C155–C156 request/response channel | the end points of `UVMTLMReqRspChannel`, the master/slave implementations, the blocking-call wrappers of all ports | projection of every history onto two FIFO histories, then C42; roles from a separate table |
| C157–C159 choice of the map | `get_local_map`, `get_default_map`, `is_in_map`, `get_rights`, `get_access` over finite trees of maps | induction on the chain of parents and on the list of maps |
| C160–C166 memory tests | the walk and access sequences against any memory given by its four calls; arrays with faulty cells, aliased addresses, different doors; the walk over blocks | invariants over the rounds; exact characterisation of the faults reported |
| C167–C175 transaction recording | `Model/Recording`: text database, streams, recorders with states and handles, the file as a list of lines; `UVMTransaction` times, hooks, own recorder; `begin_tr`/`end_tr` of components, links. Not modelled: streams' own close/free (they raise), the values recorded by `do_record`, files that cannot be opened. | Invariant over all histories (the file read by an automaton is at the state of the recorder), table invariant for handles, equations for begin/end. |
| C176–C179 packing objects | `Model/ObjPack` | a heap of objects with registered fields over the packer of `Model/Packer`; recursion with the list of objects in progress | packing refines packing the list of integers reached depth first (`places`); unpacking refines storing a list; the bits of the last non-zero value decide the round trip; termination by the number of objects not in progress |
| C180–C185 printing | `Model/Printer` | the scope stack, rows, `print_object` over a heap of objects (components, fields, `do_print` as a list of objects), table and tree `emit`, numbers; texts are lists of characters; array helpers, times and reals are not modelled | rows refine a recursive description without scopes (`rowsOf`), by induction on the depth with the number of objects not in progress; arithmetic on widths; block counter over the pieces; digits by induction |
| C186–C188 semaphore | `Model/Semaphore` | `get` up to its await, its continuation, `put`, `try_get`, over cocotb's lock (FIFO queue, hand-over; assumed); all schedules of these pieces | invariant over reachable runs with the holders of tokens; witnesses for the failures |
| C189–C191 random stability | `Model/RandStab` | one global generator (arbitrary), saved states, `randomize` over trees of sub-objects, `randomize_with`, creation; the solver and the user hooks are an arbitrary function of object and state; `rand_mode` is fixed | every event advances an object's own stream by the number of its randomizations (mutual induction on trees, induction on histories) |
| C192–C196 configuration of fields | `Model/ConfigAuto` | `apply_config_settings`, `set_*_local`, the field automation for them, `lookup_scope`; on `Resource` (sorting) and `Text` (matching); the automation of sub-objects is only recorded | exact value of every field by induction on the sorted list, with the search theorem for patterns; witnesses for the failures, two of them through `UVMConfigDb.set`/`get` |
| C197–C199 item copies, indirect registers | `Model/RegIndirect` | `clone`/`copy`/`do_copy` of register items with the global copy table and `depth`, lists of values by reference; the front door sequence of indirect registers; an access is one bus operation with the kind and value of the item (`RegAccess` has the rest); any bus agent, which may copy other objects meanwhile | equations for clone and access, composed for the sequence, for every device, value and state |
| C200–C204 `sscanf`, `sformatf` | `Model/SvText` | the scanning loop with its accumulators, the format parser, the expressions of `RE_FORMATS` including `$` before a final newline, Python's `int`; the replacements of `sformatf` in order and `str.format` | induction over fields and separators against a grammar of fields; replacement of one specifier in a list of pieces, then format against the pieces |
| C205–C215 settings from the command line, hierarchical report settings | `Model/RootSettings` | the settings functions of the root as the calls they make; quit count and timeout with their flags; the component tree with report handlers (`Report`), creation inheriting the verbosity; times and phases of verbosity settings | grammar of command lines against the loops; induction over the tree with the invariant that components have one parent created before them; sorting for the times |
| C216–C218 canonical times | `TlmTime`: all times of a simulation over rationals; refinement to a sum of seconds without resolutions, by induction over histories | proved; C218 partial |
| C219–C222 register access test | `RegAccessTest`: the test over the models of register accesses and HDL paths; the device is arbitrary, or follows the documentation | C220, C222 proved; C219, C221 partial |
| C223–C225 sequence macros | `SeqMacros`: bodies as lists of macro calls, events as a log; structure and order of the log by induction over nested bodies | C223 proved; C224, C225 partial |
| C226–C227 waiting for a resource | `WaitMod`: tasks and a scheduler; invariant over all histories | C226 proved; C227 partial |
| C228 default sequences | `PhaseSeq`: the search through the resources found | refuted |
| C229 coverage control | `Coverage`: integers as sets of models, recursion over the tree of `RegBlock` | refinement to sets, for all histories |
| C230 set_coverage's result | as C229 | refuted; the new value is returned |
| C231 sample_values | as C229 | walk over the tree, each once |
| C232 sampling of outer blocks | as C229 | refuted; the own block is |
| C233 build_coverage | as C229, the resource found is given | refuted if nothing is included; exact otherwise |
| C234 standard schedule | `Verif.Domain`: the domains as the code builds them, executed by `Verif.PhaseRun` | reachable states of the getters, then the order theorem for any graph |
| C235 domains by name | as C234 | induction over the domains made |
| C236 parent of a translated item | `Verif.RegXlate`: `do_reg_item` in two steps, any interleaving | refuted for overlapping calls; induction otherwise |
| C237 translation order | as C236, loop with `peek`, translate, `get` | invariant |
| C238 read-only callbacks | as C236, with `Verif.RegAccess` | refuted outright |
| C239 virtual fields | `Verif.VReg`: `add_field` of virtual registers | refinement to the model of registers (C16) |
| C240 field outside | as C239 | refuted for all registers |
| C241 implement | `Verif.VReg`: `implement` on `Verif.Mam`; increments exactly, in bytes | decision logic, exact region; refuted for the least increment |
| C242 implement again | as C241, histories of calls | refuted by an invariant |
| C243 connection warnings | `Verif.PortRel`: `m_check_relationship`, components as paths | equivalence with an inductive predicate of the documented forms |
| C244 copy of a message | `Verif.ReportText`: `do_copy`, `compose_report_message` as texts | refuted for all messages with elements |
| C245 elements printed | as C244 | refuted for all messages |
| C246 composed text | as C244 | injectivity, splitting at first separators |
| C247 id and severity sets | `Verif.ReportText`: counters as pools with their pointers | invariant over histories |
| C248 summary | as C247 | invariant over histories |
| C249 adjacent phases | `PhaseRun.expand` over any graph | loop invariant, ranking |
| C250 find by name | Model/PhaseLook | induction over depth and ways |
| C251 waiting for states | Model/PhaseLook: tasks, event | step lemmas; refuted over histories |
| C252 run_test | Model/RunTest: factory, command line, events | decision logic; invariant over calls |
| C253 find | Model/RunTest over `Traverse.findAll` | from C77; refuted without match |
| C254 submaps | Model/MapTree: maps with parents and dictionaries of submaps | invariant over histories, induction over depth |
| C255 wrong submaps | Model/MapTree | decision logic; refuted |
| C256 default map | Model/MapTree | induction over histories |
| C257 maps by name | Model/MapTree | from C254 |
| C258 write by name | Model/MapTree over RegBlock | refuted |
| C259 memory overlaps | Model/MapInit over RegMap.place | induction over the items; refuted |
| C260-C262 access policies | `Model/Policy`: `define_access`, `configure`, `set_access`, `is_known_access` over names | invariant over histories: the table holds exactly the built-in and defined names |
| C263-C264 action texts | `Model/Policy.formatAction` | reduction to seven bits of any number |
| C265-C267 settings by name | `Model/SetLocal`: the three `set_*_local` calls with the shared scope and the check for cycles | the scope is restored by every call that does not raise; effect on trees by induction on the depth, with a frame argument between sibling fields; the end by the number of objects |
| C268-C271 domains of components | `Model/CompDomain` (on `Model/Phase`, `Model/Domain`): `set_domain`, `define_domain`, the domain a new component gets, which components take part in a phase | invariant over all histories that describes the whole schedule (frame relation `Ext`, ownership of dictionaries), order in executions through C84/C234, unordered phases by sets closed under predecessors; C270 refuted |
| C272-C276 names of phases | `Model/PhaseNames` (names on top of `Model/Phase`; the loops over parents take a number of turns) | a rank that falls towards the parents is kept by every tidy history, so every phase has a finite list of schedules around it; each loop is evaluated along that list by induction; cyclic histories hang for every number of turns |
| C277-C281 user back doors | `Model/UserDoor.lean`: `get_backdoor` of blocks, registers and memories with its caching; the hooks of `UVMRegBackdoor` with arbitrary callbacks; `poke`/`peek` of memories | climbing a forest by induction on its height, histories by induction, folds of commuting involutions |
| C282-C285 TLM interfaces | `Model/TlmIf.lean`: masks and methods of every interface class, forwarding through `m_if` and `m_imp`, `set_if`, `set_default_index`, on top of `Model/Port.lean` | exhaustive over the classes; the interface check is an invariant of `connect`, transitive along connections |
| C286-C289 TLM2 sockets | `Verif.Socket`: the eight socket classes as one or two port objects of `Verif.Port` each, their constructors and `connect`, the transport methods. Not modelled: payload, phase and time arguments other than a null delay | a history of socket connects is a history of port connects, so binding (C09) gives the forward target; invariant over the history for the backward ports; case analysis of connect over all pairs |
| C290-C292 copies and printouts of containers | `Verif.Container`: queue objects referring to lists (aliasing), `copy`, `clone`, `create`, `do_print` of both kinds of pools (keys of the rows only). Not modelled: slices of queues (139-144 raise `TypeError`) | induction over histories with the invariant that each queue refers to an existing list; closed form of the print loop |
| C293-C296 address queries of registers | Model/RegQuery: get_offset, get_addresses, get_address, get_reg_map_info, get_n_bytes and the width set on locking, on top of MapSel and RegMap | case analysis over the chosen map; round trip through the address table of RegMap; induction over the chain of maps for widths |
| C297-C299 tracing, display and waiting of objections | Model/ObjTrace: m_report and its calls on top of Objection, m_display_objections on ordered dictionaries, wait_for as a scheduler machine | case analysis; induction over the keys; invariants over all interleavings |
| C300-C302 queries of the factory | `Model/FactoryInfo.lean`: the debugging pass of the resolution with its marks, and the parts of the printout | simulation of the debugging pass by the ordinary one; congruence of the resolution; invariant of the ordered keys of the name table |
| C303-C304 recording of errors and events | `Model/EventRec.lean` on top of `Model/Recording.lean` | symbolic execution of one call over an arbitrary state of the database |
| C305-C309 debugging of report catchers, callback iterators | Model/CatcherDbg: the catcher loop with the two debug flags over messages with elements and arbitrary `catch` functions; lookup and printout of catchers; iterator objects over Model/Callback | induction over the chain; invariant "stands on the j-th accepted entry" over sequences of iterator calls |
| C310 packing lists with a size | Model/PackSize: the `size` argument of the list functions over Model/Packer | case analysis over the size; round trip from C10 |
| C311, C312, C315 users of the configuration | `UVMAgent.build_phase`, `print_config`, `print_resources`, `lookup_scope`, `dump` on top of the models of resources and printers | the last element of the sorted queue by induction on the groups; induction on queues and on the depth of the component tree |
| C313 map of a memory | `UVMMem.get_local_map`, `get_default_map` (in the model of C157–C159) | case analysis, comparison with registers |
| C314, C316 loops over pools | Python's iteration by `__getitem__`, `UVMRegIndirectData.configure`/`add_map`/`add_frontdoors` | induction on the requests, pigeonhole for their number; induction on the maps |
| C317, C318 register files | `get_full_name` of blocks, register files and registers, `has_hdl_path`, `get_full_hdl_path` of registers | induction on the nesting; cutting at dots |
| C319 generic payload | setters and getters of `UVMTLMGenericPayload` | induction on the history |
| C320, C321 core service | `get_factory`, `set_factory`, `reset`, the registries' dictionaries | invariant linking classes, flags and the names of the current factory |
| C322 histories of comparisons | the state that calls of `compare` share: scope depth, result and map | induction on the history; the depth never falls below 2 once a nested call has raised |
| C323 registers as variables | `RegAccess` on top of `RegMap`: any number of registers on one bus | simulation between devices, lifted through write/read/update/mirror and histories; contents of words |
| C324 last value written, mirrors | the same | induction on the history over one variable per register, then back to the bus by C323 |
| C325 concurrent accesses to different registers | Model/RegConc: one step per word of do_bus_write/do_bus_read over an arbitrary per-address device | simulation: projection of any schedule onto one register, then refinement of the words to the whole accesses |
| C326, C327 search priorities of resources | Model/RsrcPrio on top of Model/Resource: set_priority_queue, set_priority_name | invariant of the pool over all histories, exact condition for being found |
| C328, C329 texts of registers and fields | `Model/RegText` builds the texts with the `str.format` and `sformatf` of `Model/SvText`; exact texts for every width, name, value and chain of maps; the field's template has one place too few, so that mirrored values are never shown |
| C330 a block in a documented chip | no new code: `Verif.Model.RegSystem` on a chip specified in `Verif.Spec.RegChip` as one cell per address with a documented policy per bit | invariant over histories: mirror of each field = bits of the chip, per register; lemma per bus access for any order of the words |
| C331, C332 switches of maps | `Verif.Model.MapSwitch`: `set_check_on_read` (recursion over submaps), `set_auto_predict`, who is asked at an access, over the forest of `Verif.Model.MapTree` | recursion = the set of maps below; history theorem by induction; C332 fails for submaps |
| C333 deviations of the chip | operations of C330 interleaved with arbitrary changes of words of the chip by something else (`Ev`, `runU`) | invariant `Fit` (layout, policies, readability, age) over histories; a read is reduced to the read of C330 by replacing the mirror by the chip's bits, on which the prediction of a readable field does not depend; the check through C58 |
| C334 relative instance overrides | `set_inst_override` and `create` of a type id with parent and context on top of the factory model and the model of `uvm_is_match` | resolution depends only on the overrides that apply at the path; the glob of a plain name followed by a pattern; substring matching refutes the full property |
| C335 explicit prediction with several masters | `Model/RegWatch` puts `RegSystem.access` (auto prediction off) and `RegPredictor.run` on one watched bus; invariant per register: the chip and the predictor's view are those after the beats seen since the register was last mirrored |
| C336 registers and memories on one bus | `Model/RegMem` runs `RegSystem.step` and `Mem.exec` on one bus that decodes the address; bus operations of an access stay at the addresses of its target, so the history splits into the registers' history (C330) and one history per memory (C138) |
| C337 concurrent accesses to the registers of a block | `Model/RegPar` cuts `write`, `read`, `update` and `mirror` at the points where they give up control (each bus word); `rest`, what the operations of a register would still do alone, is invariant under its own steps and under those of others, so at the end it is the serial run (`Spec/RegPar.solo`); with C323's soundness of one access the mirrors follow |
| C338, C339 adapter, sequencer and driver | `Model/RegAdapter` adds to `do_bus_write`/`do_bus_read` the adapter's `reg2bus`/`bus2reg`, the items and the hooks of the parent sequence; refinement to `Model/RegMap`'s accesses on an arbitrary bus, for every faithful adapter and driver (`Spec/RegAdapter.Faithful`), so that all theorems over an arbitrary bus hold of the plumbing too; with responses: negation for every adapter |
| C340, C341 values set during accesses | Model/RegParSet (events of RegPar plus unlocked `set` on registers and fields), Props/RegParSet | invariant per register over all histories: the words still to come lead to what the chip makes of the whole access; lock-step simulation of the histories with and without the set |
| C342-C346 built-in register tests of a whole block on a chip | Model/RegTestsAll, Lemmas/RegChipDev, Props/RegTestsAll | the walks of RegTests pick the registers; each is tested through its map on the bus; induction over the list with the mirrors of all registers as invariant; device of one register as a refinement of the chip |
| C347-C349 phases with whole objections | product of the phase machine (C84) and one objection (C27-C30) per task phase; the phase sees the root's total and is woken by the root's all_dropped | invariant of all interleavings (phases), accounting invariant per live phase, invariant 'a waiting phase is owed an announcement'; witnesses for the cut-off drain and the lost drain |
| C350-C351 sequences that object to their starting phase | SeqPhase (SeqStart for any number of sequences, interleaved with PhaseObj) | Invariant: while a phase has not ended, the count of each sequence in its objection is the number of objections the sequence holds; a running sequence's settings are locked and its objection is held; with C347 (no count when a phase ends) and C349 |
| C352-C353 calls of phases on components | product of the phase tasks (PhaseRun) and the tree traversals (Traverse), with a log of all calls | invariant relating the position of each task to the calls it has made; lists of calls are pre- or post-orders of the final tree |
| C354-C355 a checking environment and a whole testbench | `Model/Scoreboard.lean` composes the models of ports, analysis FIFOs, comparators and the sequencer: one analysis write calls the implementations that the bound network yields | projection of a history to each part (`run_sub`, `run_fifo`, `run_cmp`), then C57, C42, C45 and C36 |
| C356-C357 plusargs | sv.py 270-288 | character loop with IndexError as value | characterisation of the loop by prefixes, induction over the plusargs; C357 negated for all inputs |
| C358-C359 configuration in the build phase | Traverse (C48) and Resource (C25) composed, uvm_config_db.py 90-261 | log of all set/get calls of all build phases in traversal order | invariant: the database is the fold of the settings in the log; ancestors come first in the traversal (C48), also when components are created during it; then C25 |
| C360-C361 command line settings in the build phase | uvm_root.py 513-527, 642-658, 719-775 on top of C358 | the root's build phase is user code made from argv | a fresh setting of the lowest level leads the queue of its field (invariant over settle), then C24_exact; C361 negated by a witness |
| C362-C363 overrides in the build phase | Traverse (C48) and Factory (C20, C21) composed | log of all factory calls of all build phases in traversal order | the factory is the fold of the log; queues and type overrides as functions of the history (step_history), then C20_chain_end; ancestors first by C48 |
| C364 a sequence that is over can be started again | SeqPhase | Shape of what start_process still has to do; the last step opens the locks, then two settings and a start are executed symbolically |
| C365-C366 registered fields in the build phase | BuildAuto (Traverse + Resource + ConfigAuto) | The database at a call is that of the settings before it in the log; the log is in the order of the traversal (C48); with C192's exact result and the uniqueness of the entry of a key |
| C367 items and phases | `Verif/Model/SeqRun.lean`: life of sequences with objections and phases (`SeqPhase`) together with the sequencer and its driver (`Sequencer`); a sequence calls the sequencer from its body, and the body does not return while such a call is suspended | invariant: an item that is not done is in the FIFO, its sequence waits for it and the mark of the last finished item is another one; a coroutine waits only in its body; then C350 |
| C368, C369 display of port networks | `Verif/Model/PortText.lean`: `debug_connected_to` and `debug_provided_to` as a recursion that carries the shared text and indentation | the text is the tree `Net` of the network (`Spec/PortText.lean`), by induction on the rank of ports; indentation by counting lines |
| C370, C371 names of fields, HDL paths | `Verif/Model/RegName.lean`: `get_field_by_name` over the fields as built by `add_field` (C16), `uvm_hdl_concat2string` on character lists | first match in a sorted list; injectivity by cutting at the first comma, at sign and blank |
| C372 selection of built-in tests | `UVMRegMemBuiltInSeq.body` branch by branch as the list of tests run, and the run over an arbitrary tester (Model/BuiltIn) | membership = bit set and no excluding resource; sublist of the documented order; induction over the list |
| C373 shared access test | same model; the branch is commented out | never in the list, for all selections |
| C374, C375, C376 whole runs of the built-in tests | the two register tests of Model/RegTestsAll, each preceded by `reset_blk` (a function on the hardware) and a reset of the model | what a register keeps through the reset test (reachability, declaration), then C344, C342, C343; negation of C375 by a block with a read-clear field |
| C377 creation of barriers | `UVMBarrier.__init__` with `UVMEventBase.__init__`: Python's `+` of a string and a set raises (Model/Barrier) | for all names |
| C378, C379, C380 barriers | transition system over the event of Model/Event: calls of `wait_for`, `reset`, `set_threshold`, `set_auto_reset`, `cancel`, resumption and kill of processes; the coroutine `m_trigger` is never awaited and does not run | invariants over histories: who waits is counted and waits for the current event; number of arrivals; negations for all states or by a history |
| C381, C382 open barriers and counting | Model/Barrier.lean | invariant over arrivals: the flag is set exactly when enough processes have arrived, barrier and event count the same below the threshold |
| C383, C384 callbacks that use the facility while running | Model/CbRun.lean (on Model/Callback.lean) | induction over the loop: appended callbacks extend the queue behind the index; with an addition in front the index points to the same callback again |
| C385-C388 message macros and global report functions | Model/MsgMacros.lean (on Model/Report.lean) | the macros reduce to `uvm_report` of the caller, guarded by the root; case analysis on the two limits, with the look-up theorem of C37 |
| C389-C390 analysis implementations with suffixes | Model/ImpDecl.lean on top of Model/Port.lean: `write` of a declared implementation, the broadcast loop with exceptions, sequences of writes; user components given by the methods they define and when these raise | induction over the calls and the writes, using C57 for the connection order |
| C391-C392 sequences on several sequencers | Model/SqrIds.lean: the id tables of sequences and sequencers with the shared counter; start, registration, send, end, response as one machine over any number of both | invariant (ids belong to one sequence at one sequencer) by induction over histories; status automaton of Spec/SqrIds.lean refined by the tables |
| C393-C394 responses and transaction ids on several sequencers | Model/RspRoute.lean: items with sequence and transaction ids over Model/SqrIds.lean, `send_request` numbering, `set_id_info` and `put_response` | invariant over histories (numbers of one sequence are distinct, ids pinned to sender and sequencer), composed with C391 |
| C395 get_response by transaction id on several sequencers | Model/RspSystem.lean: the ids and routing of Model/RspRoute.lean composed with one queue of Model/Response.lean per sequence | invariant over histories: every waiting response was put after the last start of its sequence and answers one of its items; ids persist and are distinct per sequence |
| C396 responses stay available, and are given at most once per answer | Model/RspSystem.lean | counting over histories (given + waiting <= answered); preservation of membership in the queue, then C395 |


## Not modelled

Each file under `lean/Verif/Model/` names the Python files and lines it models; what is left out of a modelled function is said in the comment of its definition.
Not modelled at all:

* files whose code is commented out, or that hold only imports, constants or empty classes: `seq/uvm_sequence_library.py`, `seq/uvm_sequence_builtin.py`,
  `seq/uvm_push_sequencer.py`, `comps/uvm_push_driver.py`, `comps/uvm_random_stimulus.py`, `reg/sequences/uvm_reg_mem_hdl_paths_seq.py`,
  `reg/sequences/uvm_reg_mem_shared_access_seq.py`, `macros/uvm_deprecated_defines.py`, `macros/uvm_printer_defines.py`, `macros/uvm_undefineall.py`,
  `comps/uvm_env.py`, `uvm_monitor.py`, `uvm_scoreboard.py`, `uvm_test.py`, the `__init__.py` files, version and debug files;
* `tlm2/uvm_tlm_time.py` (the older copy of `uvm_tlm2_time.py`), `comps/uvm_pair.py` (the pairs a comparator sends on);
* the simulator behind DPI/HDL access (signals are a store in `Model/Hdl`), simulator time except as an ordering or a number, the random number generator
  (draws are arbitrary), the operating system (files are lists of lines);
* the text of most error messages, file names and line numbers of reports, `uvm_debug` output, tracing of resources and callbacks;
* Python-level misuse: arguments of the wrong type, attributes overwritten from outside, subclasses overriding internal methods.

## Disagreements between code and property (found while modelling)

Each line is proved as the `*_fails` theorems of the property. "Code" is what the Python text does.

* C85 (split from C02) `UVMObjectStringPool.delete` calls itself without end.
* C86 (split from C03) `UVMMailbox.peek` tests for an item once, so it may return None.
* C87 (split from C05) `down` then `up` clears the argument; `set_arg_element` raises TypeError.
* C88 (split from C06) `UVMSpellChkr.check` never reports a suggestion.
* C89 (split from C07) size-0 fields in big-endian order and values wider than their size do not round trip.
* C08 strings do not round trip in big-endian order, when followed by another field, or when empty.
* C90 (split from C10) `unpack_bytes`/`unpack_ints` start from bit 0, `put_bits` loses leading zeros.
* C91 (split from C12) a map with write-only rights makes every field NOACCESS; a cleared byte enable raises.
* C13 updating through a write-only map does nothing; `update` of a register rewrites its write-to-clear fields.
* C92 (split from C16) a field that does not fit into its register is accepted.
* C93 (split from C17) in a burst the error of one value is overwritten by the status of the next.
* C125 (split from C18) a map without endianness gives no addresses; addresses below a second nesting level are duplicated.
* C94 (split from C19) a second write-only register at an address displaces the first without a message.
* C20 IndexError on an override loop reached through a prefix; unbounded recursion for types with equal names.
* C119 (split from C20) creation by name misses instance overrides; a self override by name is reported as a loop.
* C21 `replace=0` replaces (identity test with False); an override by name redirects the name.
* C22 the second class of the same name is created by the name of the first after an override.
* C95 (split from C23) `UVMConfigDb.get` with a type tests the resource object, not the value.
* C24 setting a key again moves it behind other keys; a value equal to the old (True == 1) is not stored; glued keys collide.
* C96 (split from C28) negative counts are not checked in `raise_objection`.
* C29 a raise during a running drain does not stop it.
* C30 the background process takes one pending drain per wake-up.
* C97 (split from C31) every arbitration mode but FIFO and RANDOM ends in a fatal error with two candidates.
* C98 (split from C32) a lock request at the head of the queue raises TypeError.
* C99 (split from C33) `kill_sequence` raises; so does `stop_sequences` with a registered sequence.
* C100 (split from C34) a getter by transaction id can miss its response.
* C101 (split from C35) negative response limits are unbounded.
* C120 (split from C36) the item_done notification can be lost in `finish_item`.
* C121 (split from C36) `try_next_item` after `peek` is fatal; irrelevant sequences raise.
* C102 (split from C37) file 0 set for a severity/id pair or an id does not win.
* C103 (split from C39) `UVM_RM_RECORD` and `show_verbosity` raise.
* C40 a catcher's `set_action` is overwritten if it also changes the severity; an exception in a catcher disables all later catching.
* C126 (split from C41) type-wide callbacks are lost once an object has its own; `delete` is not implemented; a type-wide `add` after an instance `add` can raise.
* C104 (split from C42) `get_ap` is wrong for `try_get` with a non-empty list and for `flush`; `peek` with a list appends twice.
* C43 `used` is 0 or 1 (the mailbox `num` is a Bool), so `is_full` and `can_put` are wrong above size 1; `can_get` stays False after a cancelled `get`.
* C105 (split from C44) `try_set`/`try_get` raise NotImplementedError.
* C106 (split from C46) the `/regex/` form drops its last character.
* C124 (split from C47) dotted component names are accepted; `a..b` is looked up from the root.
* C48 `find` in a phase callback makes the traversal skip components (shared iteration pointer).
* C49 appending after a `with_phase` pair raises KeyError (shared dictionary); parallel phases are missed by `find`/`is_before`.
* C50 `write` of a FIFO register never succeeds; `update` repeats values; `get` on an empty FIFO raises.
* C118 (split from C51) `update` of a block with a sub-block raises IndexError; a refused block or register still names the parent.
* C52 the declared width is ignored by `compare_field`; above 64 bits nothing is compared.
* C53 a second `reserve_region` raises AttributeError; a negative size is accepted.
* C54 glob matching is an unanchored search; `+` is a repetition; `/re/` keeps its slashes.
* C122 (split from C55) `trigger` with a registered callback never fires; a stale trigger makes `wait_trigger` return; `wait_ptrigger` misses a trigger another waiter has used.
* C107 (split from C56) unknown action names are ignored.
* C108 (split from C57) writing to a port that is not bound calls nobody, without a message.
* C109 (split from C58) write-only fields are compared by `mirror(UVM_CHECK)`.
* C110 (split from C59) a one-word memory raises ZeroDivisionError.
* C60 `set_offset` keeps the old address, or removes another register's.
* C61 `sort_by_precedence` groups in order of first appearance.
* C64 a drain time for an object is not stored.
* C65 `clear` during a drain raises.
* C66 `stop_sequences` leaves integer flags that `get_next_item` does not recognise.
* C69 the waiter count is stale after early returns.
* C127 (split from C70) `get_plusargs` returns only plus signs; `get_uvm_args` does not test the first character.
* C71 `+uvm_set_action` and `+uvm_set_severity` refuse UVM_INFO and accept unknown names; `+uvm_set_verbosity` raises IndexError after an invalid setting.
* C72 `uvm_string_to_bits` is wrong from three bytes on.
* C73 copying cycles recurses or leaves uncopied references.
* C74 comparing differing strings raises; None or a list on the left is ignored; a shared sub-object on the right miscompares.
* C75 a clone of an object with a shared sub-object does not compare equal to it.
* C76 a subclass of a registered class adds its fields to the base class.
* C78 `reset` during an access admits a second one; `mirror` without a map, or cancelling an access, keeps the token; nested accesses deadlock; waiters can be overtaken for ever.
* C116 (split from C79) a refused write or read still updates the mirror; a refused update loses toggles; `mirror` checks failed reads.
* C117 (split from C79) `update` without need leaves the status list empty; `check_on_read` compares with the desired value; user back doors are never awaited.
* C80 register pre-write callbacks are never called when there are fields and the last field's are called twice; field post-write and register pre-read callbacks are not awaited; post-read changes are dropped; callbacks without `post_predict` raise.
* C111 (split from C81) through a write-only map the mirror does not follow.
* C112 (split from C82) an exception in any method leaves the objection raised and the sequence registered.
* C113 (split from C82) `wait_for_sequence_state` raises unless the sequence is finished.
* C123 (split from C83) a depth computed before a sequence got its parent stays; an item cannot be taken out of its parent.
* C114 (split from C84) an objection raised while a phase waits for its sibling does not keep it from ending.
* C115 (split from C84) three task phases before the same successor can wait for each other for ever (`wait_for_state` clears the event other waiters need); so can two after a late objection; a last phase not called "final" raises KeyError; jumps and synchronised domains are called but do not exist.
* C132 the walk of the bit bash test over the blocks visits a block at depth d+1 2^d times (`get_blocks` is hierarchical and `do_block` recurses).
* C133 the reset test skips all maps from the first one with a sub-map on, and visits sub-blocks only inside the loop over maps.
* C137 the predictor merges reads and writes of one register, never predicts registers of several words in FIFO maps, applies the byte enables of the last bus word to the whole register (raises), and drops the transaction that reveals a collision.
* C139 `Xcheck_accessX` returns 0 or 1 and the callers compare with `is False`: memory accesses outside the memory are never refused (IndexError, a false OK, or writes behind the memory).
* C140 `burst_read` requires an empty list and reads as many words as the list has: none.
* C142 memory coverage samples one word too many; C143 values wider than the memory are not cut; C144 pre-read callbacks of memories are not awaited.
* C149 after a back-door read the mirror keeps read-to-clear fields the device has cleared. C150 missing path components are skipped silently. C151 the second index of a component is dropped. C152 `uvm_hdl_read` is given an integer for slices with an offset: back-door accesses to sliced registers always raise. C154 without a path back-door accesses report OK.
* C156 `get`/`peek` through any port, export or implementation return nothing; only the list argument receives the transaction.
* C159 `UVMMem.get_access` ends without `return` when the rights of the map restrict it (uvm_mem.py 414-435), so `None` is returned.
* C161 the walk test checks each cell with one polarity only: a bit stuck at the value it has in `~k` is not found.
* C162 two words that share a cell are found by the walk test only if they are neighbours.
* C164 the access test shifts the masked random value left by 32 and does not mask again: values too wide for memories of more than 32 bits, false errors.
* C165 the access test passes the number 0 to `peek` as output list for read-only memories: TypeError.
* C166 the walk test over blocks asks for `NO_MEM_ACCESS_TEST` where `NO_MEM_WALK_TEST` is documented (uvm_mem_walk_seq.py 261).

* C168 `close()` tests `is_open() is False`, which is not true of 0: closing a closed recorder is not ignored, closing a freed one raises AttributeError.
* C170 `get_handle()` has the same test, so a freed recorder has a non-zero handle and is found by it again.
* C171 `open_db()` has the same test: a database that was closed stays closed, and everything recorded later is dropped without a message; `close_db` does not close what is in it.
* C172 `m_begin_tr` of components assigns the main stream to `stream` only when it opens it: only the first transaction on the main stream is recorded.
* C173 `establish_link` warns for every link (`or` of two casts of which one always fails) and raises for a missing left side; `UVMRelatedLink` lacks `do_set_lhs`, so a component that records raises for a transaction that records itself.
* C175 `is_active()` is true of a transaction that was never begun.
* C176 `UVMObject.unpack` loads the stream with `put_bits`, which takes the position of its highest set bit as its size: the object is restored iff the last non-zero integer is odd (default byte order) or at least 2^31 (little endian).
* C178 `unpack_bytes` and `unpack_ints` raise AttributeError: the packer has no `put_bytes`/`put_ints`.
* C179 `m_unpack_post` saves `get_packed_size()` before and after unpacking; the value cannot change, so the warning BDUNPK is never given.
* C182 `UVMTablePrinter.emit` indents with `space[1:k]`, which has k-1 characters, and pads for k: every indented row has its columns one place to the left of the heading.
* C184 `num_with_radix` prints `UVM_OCT` in decimal; `uvm_bitstream_to_string` neither masks nor prefixes decimal values with the top bit; the field automation passes `what__ & UVM_RADIX` (0) as the radix of every field.
* C185 `print_object` overwrites `name` before deciding between `up("[")` and `up(".")`; a bracketed name pops the enclosing scope as well.
* C187 `semaphore.put` releases the lock only if `locked`; the woken task sets `locked` only when it continues, so a second put in between wakes nobody.
* C188 `semaphore.get(k)` with `count <= k` takes the lock without looking at the count; `try_get` does not look at the lock.
* C190 `sv_obj.randomize` draws the object's own values from the state the last sub-object left; `randomize_with` neither restores nor saves the state; `rand(obj)` with an object leads to `hasattr(self, obj)`, which raises.
* C191 the seed of a new object is drawn from the state that the object randomized last will use next.
* C192 `apply_config_settings` walks the list sorted by precedence from front to back (`for i in range(len(rq))`; the original counts down): the lowest precedence and the oldest setting win.
* C194 the field automation compares with `uvm_is_match`, a search: a setting for `count` is also applied to `max_count`.
* C195 `UVM_SETINT`, `UVM_SETSTR` and `UVM_SETOBJ` assign without looking at the type of the field.
* C196 `j` in `apply_config_settings` is set to 0 once, before the loop; `ARG._m_uvm_field_automation` is called on integers.
* C197 `UVMRegItem.do_copy` calls `super().copy(rhs)` (not `do_copy`), which resets `UVMObject.depth`; the outer `copy` then ends with depth -1 and does not empty `uvm_global_copy_map`: the next `clone()` of the item copies nothing. `self.value = rhs_.value` shares the list.
* C198 `uvm_reg_indirect_ftdr_seq.body` sets `rw.value[0]` of the clone, which is the list of `rw_info`: the user's value is lost. The second clone is blank, so the data access is a bus read.
* C199 `return` in line 393 keeps both atomic tokens and leaves `rw_info.status` as it was (`UVM_IS_OK`).
* C201 `sscanf`: the `-` that begins a number is not added to `curr_match`, so `-5` is read as 5; with a prefix of two characters (`0x`) a separator before it makes the prefix be missed; `_` matches `[0-9_]+` and then `int` raises.
* C203 `sformatf` replaces `%x`, `%b`, `%0b` by `{}`: decimal.
* C204 `sformatf` ends with `msg.format`: braces in the message raise or take arguments.
* C206 `m_process_config` calls `int` on any text: `ValueError` leaves `build_phase`; the expressions lose their `=` (C106), so `+uvm_set_config_integer=…` is cut at character 20.
* C207 `set_max_quit_count` tests `max_quit_overridable is False` while the command line passes `0`.
* C209 `override_spec, timeout_int = matches` swaps the values of `"%d,%s"`; with a number only, `matches` is empty and the timeout becomes 0. `phase_timeout` is never read: there is no timeout.
* C212 `m_set_comp_settings` is started for all settings at once, each waiting for the difference to the setting before it.
* C213 `m_apply_verbosity_settings` uses the settings as indices: `TypeError` in every phase start.
* C214 `split_vals` is not emptied between settings in `m_do_verbosity_settings`.
* C215 `m_process_type_override` is `pass`.
* C218 `set_abstime` takes a negative time without a report.
* C219 the register access test reports an error for a compared write-only field whatever the device does: the back-door read masks write-only bits to 0 and `do_check` compares `acc[0:1]` (one character) with `"WO"`, so it never masks.
* C221 a register that is RO or WO in one of its maps is not tested through any map; there is a warning only.  A status that is not OK raises an exception (`status.name()` of an int) instead of being reported.
* C224 `uvm_do_on*` send an item to the item's own sequencer, or to that of the sequence, not to the one given: only the object made by the factory, which is dropped, is told of it.
* C225 `uvm_do*` send the object given, not the one the factory makes.
* C227 a change of a resource releases one of the tasks in `wait_modified` only.
* C228 `start_phase_sequence` casts resources to `UVMConfigDb`; no resource is one, so no default sequence is ever started.
* C230 `set_coverage` returns the models on now, not those on before.
* C232 `XsampleX` of a block does not go on to the parent block.
* C233 `build_coverage` raises IndexError when no `include_coverage` applies, which is the default.
* C236 `do_reg_item` keeps the item's parent in the sequence, not in the call: two overlapping calls leave the first item with the parent of the second.
* C238 `UVMRegReadOnlyCbs` and `UVMRegWriteOnlyCbs` have their only methods commented out: they refuse nothing, and since they have no `post_predict` an access with prediction raises after it reached the device.
* C237 `UVMRegSequence.body` without an upstream sequencer warns that only direct calls are available and then raises AttributeError.
* C240 `UVMVReg.add_field` compares only the sum of the sizes with the width: a field at bit 100 of an 8-bit virtual register is accepted.
* C241 `UVMVReg.implement` computes the least increment with `/` (uvm_vreg.py:226), so a 32-bit virtual register array in a 32-bit memory needs 1.75 locations per register: the increment 1 is refused and the default increment wastes memory.
* C242 `UVMVReg.implement` of an implemented register calls `release_region`, which is a comment: it raises after the new region was reserved.
* C244 The clone of a message element is None (`do_clone` has no code); composing or copying the copy of a message with elements raises.
* C245 The elements' `do_print` has no code: what is added to a message with `add` does not appear in its text.
* C247 `get_id_set` and `get_severity_set` do not reset the pool's pointer: a second call gives an empty list.
* C251 `wait_for_state` (uvm_phase.py 896-926): all waiting tasks share one event; the first to see it clears it, so a second task that calls later waits although the state is met, until the phase is set again.
* C253 `find` (uvm_root.py 417-419): without a match the warning CMPNFD gets the pattern as verbosity; comparing it with a number raises TypeError.
* C255 `add_submap` (uvm_reg_map.py 488-495): the error for a map of a block that is not below is put together from the name of None and raises; `set_submap_offset` (537-557) accepts maps that are not submaps.
* C258 `write_reg_by_name` (uvm_reg_block.py 1047-1050): `status = UVM_NOT_OK` replaces the caller's list, `write` then raises TypeError.
* C259 `Xinit_address_mapX` (uvm_reg_map.py 155, 207): the warning for two overlapping memories formats Python's functions min and max and raises; the one for a register in a memory of a submap is a tuple.
* C262: `configure` makes every field a random variable; `is_rand` and the list of policies that cannot be written have no effect (uvm_reg_field.py 144, 173-178).
* C264: `format_action` and `uvm_string_to_action` use different names and separators.
* C267: a `set_object_local` that raises (an integer field on the way of a path) leaves the names it was at in the scope shared by all objects: later settings match longer names, so setting `num` also sets every other field (uvm_object_defines.py 258-260; uvm_object.py 908-909 clear the other two lists, not the scope).
* C270: `set_domain` with a domain called "uvm_sched" gives it no phases (`find_by_name` finds the domain itself), and with the common domain appends the run-time phases after `final`.
* C275: the full name of the end of a schedule leaves out the schedules around it: get_schedule gives nothing for end nodes (uvm_phase.py 609-615), so `uvm.uvm_sched end` and the end of a schedule nested deeper can have the same full name.
* C276: `add` accepts a schedule that is added to itself or to a schedule within it (uvm_phase.py 434-575 has no check); get_domain, get_schedule(hier=True) and get_full_name then never return.
* C278: a register or memory keeps the first back door it inherits, as if it were its own (uvm_reg.py 1861-1870, uvm_mem.py 1252-1262).
* C279: `do_pre_write` decodes instead of encoding, `do_post_read` decodes in the wrong order (uvm_reg_backdoor.py 102-123, 78-98).
* C280: the coroutines `pre_write`, `post_write`, `pre_read` of back-door callbacks are never awaited; disabled callbacks still decode.
* C281: `poke`/`peek` of a memory with a user back door do nothing and report UVM_IS_OK (uvm_mem.py 801-898).
* C283, C284: the mask of blocking transport is `2 << 3`, which is the bit of non-blocking put (uvm_tlm_defines.py 631-633), so such ports connect and then fail at the call; the masks of the sequencer's interface overlap with all the TLM masks.
* C285: `set_default_index` stores the index and nothing reads it (uvm_port_base.py 325-326).
* C287: pass-through sockets never connect the backward path, so `nb_transport_bw` behind them raises (`m_if` is None).
* C288: `UVMTLMNbInitiatorSocket.__init__` reports "has no implementation" exactly when `imp` is given (wrong `else`).
* C289: pass-through initiators accept initiators silently (the error is commented out); an initiator connected to an initiator reports a mismatch but the port connection has already been made.
* C290: `UVMQueue.do_copy` shares the list of the original.
* C291: `UVMPool` has no `do_copy`; a clone is empty.
* C292: `UVMPool.do_print` uses and moves the iteration pointer.
* C295: get_address is documented as the base address; for a register wider than a big-endian bus it is the highest of the addresses.
* C296: get_n_bytes() of a map whose registers are all in submaps gives the map's own width even if a bus above is narrower; before lock_model it gives 0.
* C297: with tracing on every raise, drop and drain of an objection ends in an exception (m_report uses an unbound variable or str.len), after the counts of the object itself were changed.
* C298: display_objections lists the root twice, in the order of raising; for another object it stops at the first object outside, which it shows.
* C299: the flags of the events wait_for uses are not cleared while somebody waits for the object, so that later calls return at once.
* C300: `debug_create_by_name` reports OVRDLOOP for an instance override of a type by itself, which creating does not; for unknown names the warning's message is a Python set and composing it raises TypeError (uvm_factory.py 886).
* C301: `debug_create_by_type` registers the type it is asked about, so a creation by name that failed before succeeds afterwards.
* C302: `convert2string` uses the type name of the queue (always `uvm_queue`) instead of that of the original type as key (uvm_factory.py 739), so only the instance overrides of one type are printed; a type overridden by name disappears from the list of types; a type override replaced by name prints the given name even if that name stands for another type.
* C304: `m_begin_tr` (uvm_component.py 2288-2293) assigns its stream only when it opens the main stream, so after `record_event_tr` opened it no transaction on the main stream is recorded.
* C306: with DO_NOT_MODIFY any message with elements makes the processing raise (elements are cloned to None), and no catcher runs afterwards.
* C307: get_report_catcher never finds a catcher and print_catcher never lists one.
* C309: after next has returned None, prev skips the last callback unless a disabled one follows it.
* C310: the size argument of pack_bytes/pack_ints only serves to refuse too large values; smaller sizes pack (and unpack) the whole list.
* C311: `UVMAgent.build_phase` reads all matching resources in the order of `sort_by_precedence`, which is not sorted (C61), and keeps the last: the oldest of those with the precedence of the newest.
* C312: `print_resources` switches identifier, type name and reference off, and resources have no `do_print`: every resource is printed as a dash. `print_accessors` does not exist. `check_config_usage` always raises (`find_unused_resources` does not exist).
* C313, C314, C315, C316: `UVMPool` has no `__iter__`, so `for x in pool` asks for the items 0, 1, ...: the loops in uvm_mem.py 296, 335, uvm_reg_indirect.py 114 and uvm_resource.py 1683 end at once. Registers have no `set_frontdoor`, so an indirect register whose table is filled while it is in a map raises AttributeError. A memory cannot be accessed through a map above its own.
* C318: `UVMRegFile` defines neither `get_default_hdl_path` nor `get_full_hdl_path`; back-door accesses to registers in register files raise AttributeError.
* C321: types register with the factory that is current when the class is defined; a factory set later knows none of them by name.
* C322: an exception inside `compare` leaves the scope stack open; later comparisons start with old miscompares and an old map.
* C323, C324: the device keeps one word per address; devices that refuse accesses or whose registers have other policies are in C79-C81 and C116.
* C325: the steps between two awaits of an access are the words; queues stand for the per-register lock. Registers sharing addresses do mix (example beside the theorems), which no lock of the library prevents.
* C327: PRI_HIGH appends the resource like PRI_LOW (uvm_resource.py 1516-1519), so high priority makes it the last to be found.
* C329: the text of a field never shows its mirrored value and shows the desired one in decimal behind an unused format: the format `8'h%2.75h` made for the value has no place, so the value goes where the note on the mirror should go.
* C330: a chip that keeps a write-once flag per field rather than per word behaves the same, since an access to a register touches all its words.
* C332: `set_auto_predict` of a submap is without effect on the accesses via that map, which the documentation promises (uvm_reg.py 1509, 1711 ask the root map).
* C333: like C330 plus changes of the chip by something else; fields that cannot be read excluded.
* C334: violated because of substring matching; partial theorems as listed in the manifest.
* C335: holds as stated; other masters must transfer a register as a whole (C136 and C137 say what happens otherwise).
* C336: holds as stated; the memories have no back door in this setting.
* C337: holds as stated, for accesses to different registers; those to one register are serialised by the lock.
* C338: holds as stated; a write whose last operation fails still calls post_do with the register item, a read does not.
* C339: `provides_responses` cannot be used: `get_base_response(None)` (uvm_reg_map.py 1435, 1584) raises AttributeError when the response arrives.
* C341: `UVMReg.set` takes no lock; when a write to the register is on the bus, `do_predict` after it overwrites the desired value with the predicted one, so the value set is lost and `update` does not write it (C341_set_survives_fails).
* C346: the reset test reports errors for compared write-only fields with a reset value other than 0, on every chip: `do_check` (uvm_reg.py) takes one character of the access and compares it with two-character names, so such fields are not left out.
* C348: a task phase whose last objection is dropped before it first looks ends while the drain of the root is running; `phase_done.clear()` in the clean-up (uvm_phase.py 1454) then raises (uvm_objection.py 748/753) and the phase never becomes DONE.
* C349: the drain lost in C30 lets the phase hang: it waits for `all_dropped` of the root, whose total stays 1 although nobody objects.
* C351: a sequence whose method raises an exception never drops its automatic phase objection (`start_process` has no `finally`), and the phase never ends.
* C352, C353: Model/PhaseCalls.lean. A traversal is part of the step of the task that makes it; the EXECUTING traversal of a task phase is a step of its own (the coroutine of uvm_phase.py 1357). `act` is fixed; exceptions of callbacks are not modelled; a traversal that does not end within `bound` calls stops the model (`hung`), which C352_ends shows cannot happen after the build phase when `bound` is at least the number of components.
* C354, C355: `Props/Scoreboard.lean`. `Wired` says how the network was made, `writtenTo` reads the streams from the history; `LeadsTo` ties them to the connections made.
* C356, C357: `test_plusargs(NAME)` never returns True: value_plusargs compares NAME with `name + '='` and indexes beyond NAME, so a plusarg that begins with NAME makes it raise IndexError (theorem C357_never_true_fails, for all inputs).
* C358, C359: the build phase is modelled as user code with set and get calls only; what else it does (creating components) is the `ex` of Traverse.
* C360, C361: a setting of the command line whose pattern was already used with context None before run_test loses against other patterns set in between (C361_pattern_used_before_fails).
* C362, C363: build phases are any lists of factory calls without overrides by name; the overrides that apply are specified by the history alone (`override` in Spec/BuildFactory).
* C364: holds; found by mutation: nothing said what start() leaves behind when it returns.
* C365, C366: hold with the conditions stated; they are the parts of C192 and C194 that survive, for the whole build phase.
* C367: proved for histories without exceptions in the sequencer, killed sequences, `stop_sequences` and bare `send_request`; items sent from `pre_body`/`post_body` are not modelled. It is safety only: that a sequence notices that its item is done is false (C120).
* C368: the four blanks at the start of each line, the headings and the type names are not modelled; lines 474-479 never act (`end_of_elaboration_ph` is imported before it is set and stays `None`), so that no text about missing implementations appears.
* C369: the indentation is increased for every connection and never decreased, and the two displays test `max_level` with `>=` and `>`: the structure shown is wrong for any fan-out of two or more.
* C370, C371: proved as stated.
* C372, C374, C376: proved as stated.
* C373: violated for every selection: the shared access test is commented out, although it can be asked for and is by default.
* C375: violated: the `reset_blk` of the library does nothing while the model is reset before each test, so after the reset test a field cleared by reads is reported by the bit bash test although the chip is right. Proved if no field is changed by being read.
* C377: violated for every name: `UVMEvent({"barrier_", name})` passes a set, and `"on_event_" + name` raises. A subclass that builds the event itself meets the states of C378 to C380.
* C378: violated: `wait_for` calls the `async` method `m_trigger` without `await`, so reaching the threshold releases nobody. Proved: `reset` and `set_threshold` release everybody.
* C379: violated: for the same reason the number of waiting processes is not set back, and once the threshold is reached everybody passes.
* C380: violated: a reset after processes passed leaves the event triggered, and the next process to wait passes. Proved without resets.
* C382: violated. `wait_for` counts processes that do not wait (66), and `cancel` overwrites the count by that of the event minus one (149-151), so after two arrivals at a barrier of threshold two `get_num_waiters` is 2 and after one more arrival and `cancel` it is 0.
* C384: violated. `UVMCallbackIter` keeps an index into the queue (uvm_callback.py 1056-1058), and `add` with `UVM_PREPEND` moves the entries (780), so the callback that adds is found again by `next`.
* C386: violated. The macros check `uvm_report_enabled` of uvm_globals.py (the root's settings) and pass `report_enabled_checked=1`, so that `uvm_report` of the component does not check again (uvm_report_object.py 139). `set_report_verbosity_level` on a component does not change what `uvm_info` in its methods shows.
* C390: violated. An exception in one subscriber's method, or a missing method, ends the broadcast: subscribers connected later receive nothing.
* C392: violated. `start` unregisters the sequence only at its own sequencer; registrations made by `wait_for_grant` at other sequencers are never removed.
* C394: violated. An item object that is sent again keeps its transaction id, which can coincide with that of another item of the sending sequence.