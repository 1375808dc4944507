# Formal model of GMLC-TDC/HELICS in Lean 4 — design

## 1. Approach

The model lives in `lean/Verif/`. Model modules (`Verif/Model/*.lean`) contain only total, computable
definitions transcribed function by function from `/repo/src/helics`, each citing file and lines and
saying where it simplifies. Undefined behaviour (out-of-bounds access, null dereference, use after free) and
C++ exceptions are outcomes of the model, never assumed away.
Helper lemmas live in `Verif/Lemmas/*.lean`. The property theorems live in `Verif/Props/*.lean`, one file
per group of properties; beside each theorem is an `example` (or a closed `theorem`) showing its hypotheses are met
by a concrete non-trivial state. Specifications that a theorem compares the code with are separate small files or
sections that use none of the model's helpers (`Props/QueueSpec`, `Props/FilterSpec`, `Props/ValueSpec`, and the definitions
at the head of the other `Props` files).
Where the code violates the English property the negation is proved with a concrete witness
(names ending in `_counterexample`, `_fails`, or starting with `bug_`), and the theorem that holds carries the exact
hypothesis that excludes it; `_partial` marks theorems whose property is false as stated.
Every theorem is about all inputs, states and histories of its domain; closed instances are used
only as witnesses and counterexamples.

## 2. Plan per property

| id | what is modelled | how it is proved |
|----|------------------|------------------|
| C01 | `TimeCoordinator` state, `timeRequest`, `checkTimeGrant`, `updateTimeGrant`, message processing; histories `FedRun` of one federate | invariant over all histories |
| C02 | same | invariant `time_exec ≤ adjusted request`, case analysis of the grant decision |
| C03 | `generateAllowedTime` over `Int` | algebra (`Int.emod`): smallest grid time at or after the request |
| C04 | `TimeDependencies::checkIfReadyForTimeGrant` inside the federate's histories | decision logic outright, both directions; lifted to grants over histories |
| C05 | time-block list in `TimeCoordinator` | list-min lemma + grant decision, all histories |
| C06 | `Model/Net`: N federates over FIFO channels, each running the federate model | global inductive invariant over all interleavings for three policies; counterexample runs for the default one |
| C07 | `checkIfReadyForExecEntry`, `checkExecEntry` | decision logic, both directions |
| C08 | iteration counter in `checkTimeGrant`/`checkExecEntry` | invariant; counterexample histories |
| C09 | `processMessage` on disconnect/error | comparison with the table in which the departed is removed |
| C10 | `BaseTimeCoordinator::disconnect`, `localError` | list reasoning + idempotence over histories |
| C11 | sorted vector with `lower_bound` | refinement to a finite map |
| C12 | `checkForIssues` | iff specification |
| C13 | `generateMinTime*` | fold lemmas, lower bound and attainment |
| C14–C18 | `InputInfo`, `PublicationInfo` | refinement to "latest value ≤ T in history" spec; invariants |
| C19, C33 | `EndpointInfo`, `receiveAny` | sortedness/permutation invariants over op sequences |
| C20–C24, C31, C32, C41 | byte-level `ActionMessage` encoder/decoder, framing, multi-messages | round trip; memory-safe reader monad with explicit out-of-bounds outcome |
| C25 | `SmallBuffer` with explicit pointers, heap blocks, leaks and UB outcome | refinement to a byte list plus a memory invariant over all histories of several buffers |
| C26, C27 | `HandleManager`, `UnknownHandleManager`, broker connection code | invariants over op sequences; the set of links made is compared with a specification of who asked for whom |
| C28 | `flagOperations.hpp` over `BitVec 16` | bit-level extensionality |
| C29 | life-cycle state machine | invariant on every transition |
| C30 | property setters/getters of federates and interfaces | case analysis, histories |
| C34, C35 | `PublicationInfo`, target lists | invariants |
| C36 | `FilterFederate` of one core, all filters elsewhere, any order of answers | global invariant (each message is in exactly one place with exactly its remaining filters), a measure for termination |
| C37, C46–C48 | byte form of values, all conversions, `Input`/`Publication` application objects, reductions | round trips per type; comparison with the documented table (`Props/ValueSpec`); floating point, printing, parsing, JSON text are parameters |
| C38 | the two loops and delay queues of `FederateState`; what one message does is an arbitrary function | invariant: processed ++ set aside = taken, per source |
| C39 | the two-lock blocking queue, threads interleaved at every lock, flag and wait | invariants over all schedules relating the observable history to the three lists; wake-up invariant for one taker |
| C40, C45 | brokers and cores during registration and the request/grant of initialization, FIFO links | global invariant over all interleavings of a root and its cores; decision logic below |
| C42 | `updateDataForTimeReturn` bookkeeping | list reasoning |
| C43 | `checkTimeGrant` against a stated condition on the dependency table | iff |
| C44 | announcements (`sendTimeRequest`, `updateTimeGrant`) against later behaviour | history invariant |
| C49 | `ForwardingTimeCoordinator` of cores and brokers, what they do with timing commands, links and queues of the tree | invariant along the route: every announcement on a link, in a queue or stored at a station is bounded by what the sender can still send (`Lemmas/TreeInv`), kept by every move (`Lemmas/TreeMove`); wrapped around the per-federate bound of C44 |
| C50 | the same tree | invariant: nodes above a federate that has not asked keep an entry that has heard nothing, do not enter and announce nothing (`Lemmas/ForwardHush`, `Lemmas/TreeHush`); a federate not yet asked says nothing (`Lemmas/Mum`) |
| C51 | one forwarding coordinator, everything it sends recorded | history invariant: what a neighbour was last told agrees with the stored view (`Lemmas/Inform`, `Lemmas/InformRun`); no dependency changes after the set-up, no wait-for-current dependency |
| C52 | the application's `Federate` object: modes, blocking and asynchronous calls, futures, over an arbitrary core | history invariant on mode, futures and calls made (`Lemmas/Api`, `ApiRun`, `ApiStep`), mode order by a closure argument (`Lemmas/ApiNotes`, `ApiKeep*`), acceptance by a second invariant (`Props/ApiFine`) |
| C53 | the same object | equality of state and result of "start, wait, complete" with the blocking call, by evaluation of both (`Props/ApiAsync`) |
| C54 | the same object, everything told to callbacks recorded | closure argument of C52 on the record (`Props/ApiNotes`) |
| C55 | any tree of brokers and cores with its links, registration of cores, brokers and federates, the routing tables, packets with and without priority | one invariant on entries, tables, registrations and answers on their way (`RoutingInv`); knowledge of identifiers travels with commands (`RoutingFlow`); counting (`RoutingCons`), a measure (`RoutingDrain`), paths (`RoutingOrder`) |
| C56 | any tree of brokers, cores and federates with FIFO links, the disconnection commands of all three, the goodbyes of their time coordinators | an invariant on what each command on its way says (`ShutdownStep`), one on what is still owed to everybody (`ShutdownLive`), one on the order of goodbye and disconnection (`ShutdownGlobal`), a measure (`ShutdownDrain`) |
| C57 | any tree of brokers, cores and federates; the map builders with their place holders, requesters, requests and replies delivered in any order | an invariant on every builder: what it has plus what it awaits is everybody below, and for each thing awaited a message on its way or a builder below that waits (`QueryInv`, `QueryReq`, `QueryRep`, `QueryRun`), a measure for the end (`QueryLive`) |
| C58 | `GlobalTimeCoordinator` (the broker's master clock) with the broker code that feeds it, any number of federates | what one command leads to (`Lemmas/Global`: nothing, a round of questions, an announcement), an invariant on the round that is open (`GlobalRun`), who was asked (`GlobalLive`), the numbers in use (`Props/GlobalNumbers`) |
| C59 | `TimeoutMonitor` of a core or broker, any members, any history of ticks, answers and other commands | invariant: every open question was put by an earlier tick, at the time recorded, and has not been answered since (`Lemmas/TimeoutRun.rinv`, `Props/TimeoutProps.ainv`); what one tick does (`tick_root`, `tick_above`) |
| C60 | a callback federate: the loop over its queue on top of the federate's state machine (`Model/Fed`), the operator between core and user, the answers of the user's functions | what one command can do to the state (`Lemmas/CallbackFed.Ok`), an invariant relating the calls so far, the commands under way and the requests processed (`Lemmas/CallbackInv.Good`), the mode reported (`Lemmas/CallbackMode.Moded`) |
| C61 | message timers: numbered timers, the handlers of asio that wait or are queued, calls of the API and the passage of time (`Model/Timers`) | how a message came to a timer that holds it (`Lemmas/Timers.held`), a timer that holds a message has a handler for its time (`Armed`), each handler runs once (`pending`) |
| C62 | the logging of a federate, core or broker: levels, remote targets, the buffer of last messages; and the atomic steps of the buffer for several threads (`Model/Logs`) | what the state has to do with the history (`Lemmas/Logs.Tracks`); which messages the buffer holds, by a position (`Lemmas/LogBuf.BufOk`); an invariant over interleavings (`ConcOk`) |
| C63 | the real-time part of `requestTime`: clock, timer, forced grants, sleep; the coordinator may grant anything at any moment (`Model/RealTime`) | an invariant over all histories: what is queued is due, a call is armed, what was returned (`Props/RealTimeProps.Ok`, `Fresh`) |
| C64 | the filters made by type (delay, random delay, random drop, reroute, clone, firewall), their settings and operators, on top of the filter federate of `Model/Filters` (`Model/StdFilters`) | folds over the history of calls read backwards (`Props/StdFiltersProps.calls_*`); the two passes over a destination with places by induction on its pieces; a row of filters by induction on the row, for the real `FF.walk` |
| C65 | the translator federate of a core: its translators with their publication, input and endpoint (the models of C35), connections, operators, messages and values (`Model/Translators`) | each list of a translator against a fold over the history of commands (`Props/TranslatorsProps.after_*`), lifted to all translators of a core (`run_state`) |
| C66 | registration flags, options and connection calls of a federate's inputs, publications and endpoints (the models of C14, C34, C35) and the checks made when initialization is granted, with their messages (`Model/Checks`) | options as "the last call that says something decides", connections from C35, types and units held for a source against a fold (`Lemmas/Checks`); each list of issues is empty exactly when the requirements, stated over the history, are met |
| C67 | the root broker's table of numbers, the rename query, and registration of a federate from its name on (`Model/Rename`) | the table holds, for every template, the number of requests for it (invariant); the name asked for is stated from the list of earlier requests; clean templates by stripping digits from the end; registration by induction from the end of the history |
| C68 | the player application: sorting, `sendInformation` and the loop of `runTo` against arbitrary grants (`Model/Player`) | sent and unsent together are a sorted arrangement of the input (invariant); what is left is ahead of the federate's time and iteration (invariant, for plain input); a lexicographic measure for the end |
| C69 | tags of interfaces, federates and cores: the two copies of an interface, the commands the core gives itself (`Model/Tags`) | the value found for a tag is the last write of the history (induction over histories, with the commands not yet processed as a ghost) |
| C70 | the source application: `runSource`, `runSourceLoop` and the loop of `runTo` against arbitrary grants (`Model/Source`) | invariants over the rounds: published is the series of due times so far (times granted as asked); published is increasing, never early, and the next time is a due time not past (any grants) |
| C71 | the recorder application: `captureForCurrentTime` and the loop of `runTo` against arbitrary grants (`Model/Recorder`) | what is recorded is a function of the grants, by induction over grants and calls; statistics and first marks as an invariant; order by an invariant on the last time |

## 3. Trusted base

* **Lean 4.33.0's kernel.** No compiled evaluation is trusted: no `native_decide`, no `bv_decide`; closed instances use
  `decide` (`decide +kernel` = evaluation by the kernel itself).
* **Axioms.** Every theorem depends on a subset of `propext`, `Classical.choice` and `Quot.sound`. The project adds
  none. Only Lean core is imported, no Mathlib module.
* **The transcription** from C++ to Lean, by hand, cited definition by definition. It is the part a reader must
  check; the simplifications are listed in the comment of each definition and summed up below.

### Modelled (file → module)

| code | module |
|------|--------|
| `core/helicsTime.hpp`, ids, commands | `Model/Time` |
| `core/TimeDependencies.{hpp,cpp}` | `Model/Deps` |
| `core/TimeCoordinator.{hpp,cpp}`, `core/BaseTimeCoordinator.{hpp,cpp}` | `Model/TimeCoord` |
| `core/TimeCoordinatorProcessing.cpp`, timing part of `core/FederateState.cpp:1439-1660` | `Model/Fed`, `Model/FedRun` |
| several federates and their channels | `Model/Net` |
| `core/ActionMessage.{hpp,cpp}` binary form, framing, multi-messages, `createMessageFromCommand` | `Model/Wire` |
| `core/flagOperations.hpp` | `Model/Flags` |
| `core/InputInfo`, `core/PublicationInfo`, `core/EndpointInfo` | `Model/Input`, `Model/Publication`, `Model/Endpoint` |
| data part of `core/FederateState.cpp` (grants, receives, next events) | `Model/FedData` |
| property setters/getters of `FederateState`, `CommonCore`, `HandleManager` | `Model/Settings` |
| `core/HandleManager` | `Model/Handles` |
| `core/UnknownHandleManager`, connection code of `core/CoreBroker.cpp` | `Model/Connect` |
| registration and initialization in `core/CoreBroker.cpp`, `core/CommonCore.cpp` | `Model/BrokerInit` |
| `core/SmallBuffer.hpp` | `Model/SmallBuffer` |
| `core/FilterFederate.cpp`, `core/FilterCoordinator`, message routing through filters in `core/CommonCore.cpp` | `Model/Filters` |
| `application_api/ValueConverter`, `helicsTypes`, `helicsPrimaryTypes` | `Model/Values` |
| `application_api/Inputs`, `Publications`, update step of `ValueFederateManager` | `Model/InputApi` |
| `network/ipc/IpcBlockingPriorityQueue.{hpp,cpp}` (the class used for all command queues) | `Model/CmdQueue` |
| queue loops of `core/FederateState.cpp:1052-1437` | `Model/DelayQueue` |
| `core/ForwardingTimeCoordinator.{hpp,cpp}`, timing commands of cores and brokers | `Model/Forward` |
| `core/GlobalTimeCoordinator.{hpp,cpp}`, timing commands of a broker that uses it | `Model/Global` |
| `core/TimeoutMonitor.{h,cpp}`, ticks in the main loop of `core/BrokerBase.cpp`, `CMD_CONNECTION_ERROR` of `core/CoreBroker.cpp` | `Model/Timeout` |
| callback processing of `core/FederateState.cpp`, operator of `application_api/CallbackFederate.cpp` | `Model/Callback` |
| `core/MessageTimer.cpp` (asio's timers by assumption: a handler is queued at or after its time, cancelled only while it waits) | `Model/Timers` |
| `core/LogManager.cpp`, `common/LogBuffer.cpp` (headers, formats, spdlog left out) | `Model/Logs` |
| real-time part of `FederateState::requestTime`, `CMD_FORCE_TIME_GRANT` (the coordinator is arbitrary; start, lag and lead are constant) | `Model/RealTime` |
| `FilterOperations.cpp`, the operators of `MessageOperators.cpp`, `Filter::set`/`setString` (reading times and searching regular expressions are parameters; numbers are multiples of 10^-9) | `Model/StdFilters` |
| the interface part of `TranslatorFederate.cpp`, `TranslatorInfo`, the operators' times (conversions are arbitrary functions; the timing part of `handleMessage` is left out) | `Model/Translators` |
| `InterfaceInfo::checkInterfacesForIssues`, `EndpointInfo::checkInterfacesForIssues`, `checkTypeMatch`, `checkUnitMatch` (the units library is a parameter), `FederateState::checkInterfaces` | `Model/Checks` |
| `CoreBroker::generateRename`, the naming part of `CommonCore::registerFederate`, the test for a name in use in `CoreBroker::fedRegistration` | `Model/Rename` |
| `Player::sendInformation`, `Player::runTo`, `Player::sortTags` (the sorting; any result `std::sort` may have) | `Model/Player` |
| `Source::runSource`, `Source::runSourceLoop`, `Source::runTo` (sources with a generator; exact times; values left out) | `Model/Source` |
| `Recorder::captureForCurrentTime`, `Recorder::runTo`, what `Recorder::initialize` captures (not the files written, nor the 16 bits of the iteration) | `Model/Recorder` |
| `BasicHandleInfo::setTag`/`getTag`, `FederateState::setTag`/`getTag`, `CommonCore::setInterfaceTag`, `getInterfaceTag`, `setInterfaceInfo`, `getInterfaceInfo`, `setFederateTag`, `getFederateTag`, `CMD_CORE_TAG`, `CMD_INTERFACE_TAG`, the core's answers to `tags` and `tag/…` (the way a text is written in the answer is a parameter) | `Model/Tags` |
| cores, brokers and federates connected by links | `Model/Tree` |
| `application_api/Federate.cpp` (modes, blocking and asynchronous calls, callbacks) | `Model/AppFed` |
| registration and routing tables of `core/CoreBroker.cpp`, `core/CommonCore.cpp` | `Model/Routing` |
| the disconnection commands of `core/CoreBroker.cpp`, `core/CommonCore.cpp`, `core/FederateState.cpp` | `Model/Shutdown` |
| map builders of `core/CoreBroker.cpp`, `core/CommonCore.cpp`, `common/JsonBuilder.cpp`, and the query commands | `Model/Query` |

### Simplified

* `helics::Time` (`TimeRepresentation<count_time<9>>`, in a submodule absent from the pinned tree) is an
  integer count of nanoseconds. In the timing model it is `Int` (no overflow); the constants used by the code have their
  values. In the value and wire models it is a 64-bit word.
* Federate, broker and interface ids are integers; in `Model/Wire` 32-bit words.
* Floating-point arithmetic, number printing and parsing, the JSON library, regular expressions and unit conversion
  are parameters (`Lib` in `Model/Values`); theorems that need a fact about them take it as a hypothesis and say so (`Lib.Sane`, `Lib.JsonOk`, …).
* User callbacks and filter operators are arbitrary functions.
* The command queue is taken from the in-tree copy `IpcBlockingPriorityQueue`, because `gmlc::containers::BlockingPriorityQueue` is in an
  absent submodule; memory accesses are sequentially consistent and grouped between lock operations.
* In `Model/Net` and `Model/BrokerInit` links are reliable FIFO channels per pair; that commands sent through the tree behave like that is C55.
* In `Model/Routing` names of brokers and cores are distinct (a node is its name); whether a registration is accepted, and whether the broker takes dynamic federates, is an
  arbitrary choice at every registration. Filter and translator federates (`child_flag`), repeated registrations and the removal of routes are left out. The sets of
  identifiers that travel with commands are not in the code: they say who can have heard of whom, and only occur in the hypothesis of `C55_order`.
* In `Model/Shutdown` the members are fixed and registered; the switch to the operating state of a node is an event that can happen any time; errors, time-outs, pings, filters,
  translators, reentrant federates and the entries a broker has for nodes further down are left out (what is sent because of those is ignored by its receiver).
* In `Model/Query` a JSON document is a tree that says who made it, for which query and when; the texts in it are left out, as are the special final texts of `global_status` and
  `global_flush`, the entries of `global_state` for those who have left, time-outs, and filter and translator federates. A reply to somebody other than the node above counts as given when sent.
* Capacity, allocation failure (but for `SmallBuffer::reserve`), logging, profiling and timers are left out unless a row says otherwise.

### Not modelled

The network back ends (ZMQ, TCP, UDP, MPI, IPC sockets), the C API's wrapping of objects, command-line and file configuration,
the texts of query answers, the back end of the loggers, the applications in `src/helics/apps` except the loop of the player, the timing of translators, dynamic
federations beyond the joining code in `TimeCoordinator`, the `Async` time coordinator, time-outs of queries and of the whole simulation.

## 4. Where the code and the English property disagree

Each is a theorem unless marked "(not proved)". Found by trying to prove the property.

* **Wire.** The sequence number is not byte-swapped between machines (C23). A time request written to a 45–68 byte buffer overflows it (C22). More than 255 strings
  wrap the count (C20). A message without payload read into a used object keeps the old payload (C20). Messages of 2²⁴ bytes or more wrap the frame length (C24). The
  frame reader looks at byte 0 of an empty buffer (C21). Goodbyes beyond 255 targets are dropped (C10).
* **Time.** With default settings causality can fail in a chain of four federates (C06), likewise with input delays. The iteration limit is not enforced for forced iterations, for
  a federate's own `max_iterations` in time iterations, and for joining federates (C08). Barriers are ignored by forced grants, by the final answer and by
  dynamic joins (C05). Offset equal to the minimum step is skipped at time zero (C03).
* **Values and messages.** A late value hides the next wake-up (C16); a late message hides available ones (C19, C33). Out-of-order arrival with change detection hides a change; gap and change
  filters combined measure from a stale time (C18). A first empty value is suppressed, toggling the flag hides a change, the initial publication can be suppressed by the gap
  (C34). `updateTimeNextIteration` uses the wrong iteration index (C14).
* **Settings.** `MULTIPLE_CONNECTIONS_ALLOWED` is inverted for publications and endpoints; interruptible and other flags do not read back; clearing "optional" makes a connection required (C30).
  `GRANT_TIMEOUT` without a timer dereferences null (not proved).
* **Names.** Removing a handle leaves alias entries; joining aliases invalidates an iterator; a refused registration leaves a name behind (C26). Reported target names go stale; reconnecting an input takes the units for
  the type (C35). Reconnectable requests connect twice, aliases are not resolved, filters are not reconnected (C27).
* **Small buffer.** Swapping with aliased storage, self-move, appending or assigning a view of itself (C25).
* **Start.** A departure is not rechecked, a leaver can block its core, late requests restart, a retraction names a grandchild and is never repeated, early closes and ids
  clash (C40, C45).
* **Filters.** A destination filter that drops crashes; rerouting by one is ignored; a closed filter repeats or returns to the sender; a cloning filter without operator duplicates; a lost answer keeps the
  time hold for ever (C36). `CMD_CLOSE_INTERFACE` tests the inverse (not proved).
* **Value conversion.** See `Props/ValueCases`, `Props/ReduceCases`, `Props/ValueChange`: twenty-odd disagreements with the documented table, among them AND/OR over doubles treating zero as true,
  NaN never sent under change detection, an empty vector read as complex vector faulting, a 2³² size wrap.
* **Queues.** With two taking threads a wake-up is lost; `empty` and `try_peek` are one-sided (C39). A callback federate lets newer messages overtake those set aside (C38).

* **Tree.** When some federate waits for current time updates, the root tells the core holding the earliest time only the times of the others, and two federates of
  that core are no longer kept in step: one is granted 10 while the other, at 1, can still send (C49, `C49_delayed_fails`).
  For the same reason a core with a federate that has not asked to enter executing mode hears that all others have, passes this on to its parent too, and
  the federation starts without that federate (C50, `C50_delayed_fails`).
  A broker takes a local error into account but never announces it (CoreBroker.cpp:3317-3331; `C51_broker_error_fails`); the event time its children were told
  can be outdated because the stored view is lowered without announcing (ForwardingTimeCoordinator.cpp:67-74; `C51_children_event_fails`); and the notice that a
  node has entered can be the last word after a time announcement (`C51_entry_last`).
* **Routing.** A reentrant federate that comes back at another core leaves its identifier with two holders, and a broker above both keeps the old route, because
  `routing_table.emplace` does not overwrite (CoreBroker.cpp:748): what is sent to the federate goes to the core it left (C55, `C55_rejoin_fails`). The branches for unknown names in the
  answers to registrations dereference the end of a container (CoreBroker.cpp:761, 822); `C55_no_stray` shows that they are not reached.
* **The end.** Until a broker operates it ignores the goodbyes of time coordinators (CoreBroker.cpp:3348-3366); a broker that leaves then says goodbye to cores that have left, and these
  take it for a confirmation (CommonCore.cpp:5187-5206): with the global disconnect option finalize returns too early (`C56_global_early_counterexample`). A broker in the middle that is
  disconnected by hand does not tell the broker above, which never ends (CoreBroker.cpp:1061-1093, 1327-1339, `C56_kill_counterexample`). A core without federates keeps an operating
  federation alive (`C56_empty_core_counterexample`), but before that it leaves as soon as anybody else leaves (`exBare_early`).
* **Queries.** A kept answer stops the loop that clears the place holders of a broker that has gone (`return` for `continue`, CoreBroker.cpp:3483-3514, CommonCore.cpp:5352-5383), so users
  wait for somebody who will not answer (`C57_return_counterexample`). Of two users that ask a core directly only the last is answered (CommonCore.cpp:4314-4328, `C57_direct_counterexample`). A
  query to a core by its name is answered "#wait", and when the federates have answered `requesters.back()` is used on an empty vector (CommonCore.cpp:5127-5157,
  `C57_named_counterexample`). For queries whose answers are not kept a second request starts the builder again: replies to the first are taken for replies to the second although the place
  holders may be numbered differently (`C57_locks_counterexample`), answers can be older than the question (`C57_stale_counterexample`), and if the second can be answered at once the first is never answered (`C57_error_counterexample`).
* **Connection checks.** "Multiple connections allowed" is the wrong way round for publications and endpoints: switched on it demands exactly one connection (PublicationInfo.cpp:88-90, EndpointInfo.cpp:370-372; `C66_multiple_inverted`). Inputs count every source ever connected: removed sources satisfy "required" and a replaced source breaks "single connection" (InterfaceInfo.cpp:240-254; `C66_removed_source_counts`). An interface for a single connection that has none is said to have more than one (`C66_single_without_any`). A source connected again has its units for a type, and the federate is refused for it (InputInfo.cpp:194-195; `C66_retyped`). One partner in both directions satisfies a demand for one connection and for two (`C66_one_is_two`). Endpoints that are not targeted are never checked, even when required (`C66_not_checked`). The type rule is not symmetric (`C66_types_not_symmetric`); its second test for `json` can never succeed (InputInfo.cpp:626).
* **Numbered names.** `CommonCore::registerFederate` means to reject an answer that is an error and not a name, and compares the text in front of the marker with the whole answer instead of with its beginning (CommonCore.cpp:790): the comparison always differs, so every generated name with the word "error" in it is rejected (`C67_error_word`, `C67_error_monitor`). Two templates can give the same name (`C67_templates_collide`), and a plain name can take a number, which makes the next request fail (`C67_plain_takes_number`).
* **The player.** While a message is still to be sent the iteration of the next value is forgotten, and the value is published at a later time (Player.cpp:651-654; `C68_message_hides_iteration`). A federate whose period takes it past the stop time never sends what was due in between, because the next call skips it (Player.cpp:622-639; `C68_overshoot_loses`). A value with a negative iteration keeps the player iterating for ever (`C68_negative_iteration`).
* **Tags.** An empty value for a tag of an interface reads as "true" from the interface, but queries about the same interface show an empty text, because the command carries the value as given (CommonCore.cpp:5613-5623), and for a federate or a core it stays empty although the same constant is declared there (`C69_empty_value`). `CMD_CORE_TAG` leaves only its loop when it finds the tag, so every call adds an entry, also for a tag that is there (CommonCore.cpp:3706-3712; `C69_core_grows`). The info of an interface is its tag `local_info_`, which anyone can set as a tag (`C69_info_is_a_tag`). (not proved) `addFederateTags` makes an array and indexes it by name, which the JSON library rejects with an exception (queryHelpers.cpp:42); `FederateState::setTag` releases its lock before it writes the value of an existing tag (FederateState.cpp:2938-2939).
* **The source application.** A source granted a time exactly one period late publishes once, is due again at the time it is at, asks for it, and publishes once more at the next time it gets (Source.cpp:373-376; `C70_extra_value`). (not proved) a signal generator of an unknown type is stored as a null pointer and used at once (Source.cpp:296-307).
* **The recorder.** A second call of `runTo` counts iterations from zero although the time may still be the same, so that two values of one subscription are recorded for the same time and iteration (Recorder.cpp:495; `C71_iteration_restarts`). (not proved) the option `--destclone` clones the packets from the endpoint and not those to it (Recorder.cpp:656-660); the iteration is kept in 16 bits (Recorder.hpp:131); the time in the map file is always -1 (Recorder.cpp:437).
* **Endpoints of a filter** (not proved, not modelled). `FilterInfo::addSourceEndpoint` and `addDestinationEndpoint` are called nowhere: endpoints go to `sourceTargets` and `destTargets` only (FilterFederate.cpp:634, 661-663). So `FilterInfo::removeTarget`, which looks in the other lists, changes nothing, and an endpoint stays a target of a filter it was removed from. Filled, those lists would not help: neither loop goes on to the next entry, so that it never ends unless the endpoint is the first, and the second loop erases with the position of the first (FilterInfo.cpp:58-86).
* **Translators.** Closing a translator does nothing (TranslatorFederate.cpp:195-200, a TODO; `C65_close_ignored`): it goes on translating. A value is translated whoever it comes from, also after its publication was disconnected (lines 98-124 do not look; `C65_unconnected_source`). A message whose value is empty, such as any empty message to a binary translator, vanishes. The properties `delay`, `inputdelay` and `outputdelay` of a translator are accepted and ignored (TranslatorOperations.cpp:73-87).
* **Standard filters.** A firewall filter made by type drops every message: its check answers `true` for all (FilterOperations.cpp:453-458) and the operation it is made with is `drop` (MessageOperators.hpp:143-144; `C64_firewall`). A negative delay is refused as a number but taken as a string, and then moves messages back in time (`C64_negative`). A reroute filter whose `newdestination` was never set sends messages to the empty name (`C64_reroute_nowhere`), and one whose condition is not met still fills in `original_dest`. The names put into a new destination are read as formats of `std::regex_replace`, and a `${dest}` in the name of the source is replaced as well (FilterOperations.cpp:398-402; `C64_dollar`). A string given to a random drop filter is ignored without a word.
* **Real-time federates.** A force that was queued while the grant was on its way is left over; the next call of `requestTime` takes it first and returns the same time again, at once, without the request having been processed: a force for the time
  already granted is let through (TimeCoordinatorProcessing.cpp:265-273, `C63_left_over`). A lead of less than five milliseconds is not waited for (FederateState.cpp:771-773; `C63_not_early` has the same margin).
* **Log messages.** A remote target that asks again for a higher level does not get it, until some level is set or a target added (LogManager.cpp:261-266 returns before the largest level is updated, `C62_raise_lost`). The level of a
  message is not sent to remote targets, so each arrives as an error (LogManager.cpp:113-117, `C62_level_lost`). After `remotelog stop` the dump log is still sent (`C62_stop_dumplog`). The buffer is not safe against a change of its size
  by another thread, though it is called thread-safe (LogBuffer.hpp:21): it can grow without bound, or take from an empty deque (`C62_race_unbounded`, `C62_race_empty`; `CommonCore::setFlagOption` changes it in the thread of the caller,
  CommonCore.cpp:1179-1181).
* **Message timers.** A message given by `updateMessage` to a timer that has already handed over its message is accepted and never sent, though the time of the timer is past (MessageTimer.cpp:150-157,
  `C61_updateMessage_not_sent`); `updateTimer` and `addTimeToTimer` report such a timer by their result, `updateMessage` has none.
* **Callback federates.** A request answered `HALTED` leads to no call at all: a federate that asks for the largest time when nobody else is left (every event-triggered one without its own function does) is neither
  called again nor told of the end, and the core is not told either, so it stays in executing mode (FederateState.cpp:1254-1262, `C60_halted_counterexample`; `C60_answered` shows that this is the only way to be left
  without anything under way). A federate that joins a running federation works in executing mode while it reports initializing mode, because only a call at time zero changes the mode
  (CallbackFederate.cpp:102-108, `C60_join_counterexample`). A forced grant (real-time federates) leads to a second call while an answer is still under way (`C60_forced_counterexample`). `finalize` can be told after an error when
  the application disconnects later.
* **Lost connections.** Ticks are acted upon only when no other command has come since the last tick; the branch for requested tick forwarding only notes the reason and does not process the tick
  (BrokerBase.cpp:980-987), so a busy root never notices a lost member (`C59_busy_counterexample`). A member that leaves in good order between a question and its answer stays in the table as one whose answer is
  awaited, and nobody is asked any more (TimeoutMonitor.cpp:117-136, `C59_left_counterexample`). `CMD_BROKER_PING` has the number of `CMD_BROKER_SETUP` (ActionMessageDefintions.hpp:237), so a sub-broker
  neither answers nor asks its own members; the root gives it up although it is healthy (`C59_sub_broker_counterexample`). That the broker above answers slowly is recorded but never read
  (`C59_slow_counterexample`).
* **Master clock.** A broker with a master clock does not decide again when a federate reports a local error: if its confirmation was awaited, everybody else waits until something else happens
  (CoreBroker.cpp:3328-3331, `C58_error_stall_counterexample`). A federate that lowers its next time below that of the open round would have to confirm but is not asked, because the code that would ask it is
  commented out (GlobalTimeCoordinator.cpp:142-161, `C58_stepBack_counterexample`). The numbers of rounds start again after 32767, and a federate that has not been asked since the first time then counts as
  having confirmed (`C58_reuse_counterexample`).
* **Application calls** (`Props/ApiCases`). A failed asynchronous time request leaves the federate in executing mode, the blocking one takes it to the error mode
  (`C53_time_fails`); a failed entry to executing mode the other way round (`C53_exec_fails`); automatic repetition is ignored by asynchronous requests; a failed asynchronous end, or a
  refused asynchronous entry, leaves the federate waiting for a future that was taken already (`C53_finalize_fails`, `C53_init_fails`). The asynchronous iteration of the
  initialization skips the potential interfaces, dereferences null for single-thread federates, is not waited for by `finalizeAsync`, `localError` and `globalError`, and
  makes `finalize` and the destructor skip telling the core (`C53_again_fails`, `C52_single_crash`, `C52_order_fails`, `C52_destroy_fails`). `finalizeAsync` leaves the error mode (`C52_forward_fails`).
  Mode callbacks miss or misname changes (`C54_story_fails`, `C54_finalize_fails`, `C54_iterate_fails`), the end can be announced twice (`C54_end_once_fails`).

## 5. Testing the theorems

`seeded/LOG.jsonl` records each deliberate fault put into a copy of the model, the claim it breaks, the theorems that
failed to build, and which theorems were added or tightened because a fault went unnoticed.
