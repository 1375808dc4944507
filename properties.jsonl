{"id": "C01", "title": "Granted time never goes backwards", "statement": "Across the whole life of a federate, each time returned by a time request (granted, iterating, halted or forced) is greater than or equal to the time returned before it; a non-iterating grant that is not forced is at least one minimum step (time delta) later than the previous grant, or is the end-of-simulation time.", "quantifier": "every sequence of time requests, timing messages from other federates, barriers, property changes and forced grants", "why_tests_cant": "the outcome depends on the unbounded space of message arrival orders and time values; a test fixes one schedule", "anchors": ["src/helics/core/TimeCoordinator.cpp:timeRequest,checkTimeGrant,updateTimeGrant,processTimeMessage,getNextPossibleTime"]}
{"id": "C02", "title": "A grant never overshoots the request", "statement": "A federate that requests time T is granted a time that is at most T adjusted upward to the next time allowed by its period/offset and minimum step, unless it is released by a forced grant or the end of the simulation.", "quantifier": "every request time, every property setting and every message history", "why_tests_cant": "the outcome depends on the unbounded space of message arrival orders and time values; a test fixes one schedule", "anchors": ["src/helics/core/TimeCoordinator.cpp:timeRequest,updateNextExecutionTime,checkTimeGrant,generateAllowedTime"]}
{"id": "C03", "title": "Grants obey the period and offset", "statement": "With period p > epsilon set, every time computed as allowed for a federate is congruent to its offset modulo p, is not before the requested time, and is the first such time (never skips an allowed point).", "quantifier": "every period, offset, previous grant and requested time", "why_tests_cant": "boundary arithmetic over all 64-bit times; tests sample a few values", "anchors": ["src/helics/core/TimeCoordinator.cpp:generateAllowedTime,getNextPossibleTime"]}
{"id": "C04", "title": "A grant never passes what a dependency has announced", "statement": "From the moment a federate hears a dependency announce a next time n and an event time e, and until that dependency speaks again, no answer to a time request of the federate is later than its input delay past n (restrictive time policy) or past the latest of n, e and the time the federate already holds (default policy); for a non-iterating federate that waits for the current time it is strictly earlier. While a dependency has not entered execution - it asked to enter, or was just added - every granted time is below the input delay. Excluded: forced grants, and bounds so late that the end-of-simulation rule applies.", "quantifier": "every history of the federate before and after the announcement: requests, commands of other federates, data, barriers, changed settings", "why_tests_cant": "the outcome depends on the unbounded space of message arrival orders and time values; a test fixes one schedule", "anchors": ["src/helics/core/TimeDependencies.cpp:updateTime,checkIfReadyForTimeGrant,generateMinTimeTotal", "src/helics/core/TimeCoordinator.cpp:updateTimeFactors,checkTimeGrant"]}
{"id": "C05", "title": "Time barrier is respected", "statement": "While a time barrier at B is active, an ordinary time request is never answered with a time at or past B, except by a forced grant or by the end-of-simulation answer; after the barrier is cleared the federate is no longer held by it, and with several barriers the earliest governs.", "quantifier": "every sequence of barrier set/clear messages interleaved with requests and timing messages", "why_tests_cant": "the outcome depends on the unbounded space of message arrival orders and time values; a test fixes one schedule", "anchors": ["src/helics/core/TimeCoordinator.cpp:updateTimeBlocks,processTimeBlockMessage,checkTimeGrant"]}
{"id": "C06", "title": "Conservative synchronisation (causality)", "statement": "In any federation, with any number of federates and any order of delivery between different pairs of federates (first in, first out for each pair): when a federate B is granted time T while it depends on A, every value or message from A that is then on the way to B or is sent at any later time carries a time stamp t with T <= t + B's input delay. This holds when A's announcements are binding (A keeps the restrictive time policy while executing, or is uninterruptible and asks without iteration) and B is restrictive or uses the global clock; for an uninterruptible A and any B, T <= max(t, time B held before) + input delay. Shown to fail: with the default policy four federates in a row suffice for data to arrive in the past of the last; with the default policy an input delay can be used up again with every request. Forced grants, joining a running federation and settings changed while executing are excluded.", "quantifier": "every number of federates, dependency graph, request sequence, publication and delivery schedule", "why_tests_cant": "needs all interleavings of an arbitrary-size distributed system", "anchors": ["src/helics/core/TimeCoordinator.cpp", "src/helics/core/TimeDependencies.cpp:resetDependentEvents,generateMinTimeImplementation", "src/helics/core/FederateState.cpp:processDataMessage", "src/helics/core/CommonCore.cpp:setValue"]}
{"id": "C07", "title": "Execution mode entry waits for every dependency", "statement": "A federate never enters executing mode, with or without iteration, while one of the federates it depends on was added and has said nothing since. A federate that does not iterate also stays out while the last word of a dependency is an iterating request for execution, and one that waits for the current time stays out while the last word of a dependency is its request for, or entry into, execution. A federate that neither iterates nor waits, and is not held by a barrier, enters at its request when every dependency has asked for execution without iteration or is past it.", "quantifier": "every dependency table and message history", "why_tests_cant": "the outcome depends on the unbounded space of message arrival orders and time values; a test fixes one schedule", "anchors": ["src/helics/core/TimeDependencies.cpp:checkIfReadyForExecEntry", "src/helics/core/TimeCoordinator.cpp:checkExecEntry"]}
{"id": "C08", "title": "Iteration count is bounded", "statement": "A federate whose time requests ask to iterate only if needed is told to repeat one time at most as often as the core's iteration limit says before it moves on; a federate that was there from the start and does not force iteration is, whenever it is told to repeat its entry into executing mode, told so at most as often as its own MAX_ITERATIONS then says. Shown to be unlimited: forced iteration; the entry of a federate that joins a running federation; and a federate's own MAX_ITERATIONS does not limit its time iterations.", "quantifier": "every limit and every history of commands, requests, data and changed settings", "why_tests_cant": "the outcome depends on the unbounded space of message arrival orders and time values; a test fixes one schedule", "anchors": ["src/helics/core/TimeCoordinator.cpp:checkTimeGrant,checkExecEntry"]}
{"id": "C09", "title": "Departed or failed federates do not block others", "statement": "After a dependency has disconnected or reported an error, and as long as it does not speak again, the answers to the time requests and execution-entry requests of a federate that depends on it - at once, or when a pending request is re-examined - are exactly those it would get without that dependency; a federate all of whose dependencies have left is answered at once (no barrier, not non-granting).", "quantifier": "every point at which the disconnect/error arrives", "why_tests_cant": "requires all crash points", "anchors": ["src/helics/core/TimeDependencies.cpp:processMessage,checkIfReadyForTimeGrant,checkIfReadyForExecEntry"]}
{"id": "C10", "title": "Disconnect is announced once, to everybody concerned", "statement": "When a federate leaves (own disconnect or error, stop, broker acknowledgement), every dependent and every still active dependency is sent exactly one goodbye and nobody else any, as long as at most 255 are concerned; over any history nobody is sent a second goodbye and repeating the disconnect sends nothing. Known defect, shown: with more than 255 concerned, only 255 are told.", "quantifier": "every dependency table", "why_tests_cant": "all tables, any number of repeats", "anchors": ["src/helics/core/BaseTimeCoordinator.cpp:disconnect"]}
{"id": "C11", "title": "Dependency registration is a keyed set", "statement": "Adding and removing dependencies and dependents in any order leaves exactly one entry per federate, and a federate is reported as dependency/dependent exactly if it was last added and not since removed; its entry holds exactly the times and phase of its most recent announcement.", "quantifier": "every sequence of add/remove operations", "why_tests_cant": "unbounded operation histories", "anchors": ["src/helics/core/TimeDependencies.cpp:addDependency,removeDependency,addDependent,removeDependent,isDependency,isDependent,getDependencyInfo"]}
{"id": "C12", "title": "Conflicting wait-for-current-time is detected", "statement": "If two mutually dependent federates both declare wait_for_current_time the configuration is reported as an error and never otherwise.", "quantifier": "every dependency table", "why_tests_cant": "all tables", "anchors": ["src/helics/core/TimeDependencies.cpp:checkForIssues"]}
{"id": "C13", "title": "Coordinator aggregates are true minima", "statement": "The times a core or broker forwards on behalf of the federates behind it are the minimum over those federates, so the aggregate never claims a later time than the slowest member.", "quantifier": "every dependency table, ignored federate and response code", "why_tests_cant": "all tables", "anchors": ["src/helics/core/TimeDependencies.cpp:generateMinTimeTotal,generateMinTimeUpstream,generateMinTimeDownstream,generateMinTimeImplementation", "src/helics/core/ForwardingTimeCoordinator.cpp:updateTimeFactors"]}
{"id": "C14", "title": "Inputs expose exactly the latest value at or before the granted time", "statement": "Whatever order publications arrive in, after a grant at T an input's current value from a source is the value with the greatest (time, iteration, arrival) not later than T (strictly before T for the exclusive rule), and values stamped later stay queued.", "quantifier": "every arrival order of values from every number of sources and every grant sequence", "why_tests_cant": "unbounded histories and orderings", "anchors": ["src/helics/core/InputInfo.cpp:addData,updateTimeUpTo,updateTimeInclusive,updateTimeNextIteration", "src/helics/core/FederateState.cpp:updateDataForTimeReturn"]}
{"id": "C15", "title": "Queued byte accounting is exact", "statement": "The byte count kept for an input's waiting values always equals the total size of the values actually waiting.", "quantifier": "every sequence of data arrival, time update, source disconnect and clear", "why_tests_cant": "unbounded histories", "anchors": ["src/helics/core/InputInfo.cpp:addData,updateTimeUpTo,disconnectFederate,clearFutureData"]}
{"id": "C16", "title": "Next-event time of inputs is exact", "statement": "The next value time an input reports is the earliest time among waiting values (or the maximum time if none), so no queued value can be skipped by a grant.", "quantifier": "every queue state", "why_tests_cant": "unbounded queues", "anchors": ["src/helics/core/InputInfo.cpp:nextValueTime", "src/helics/core/FederateState.cpp:nextValueTime"]}
{"id": "C17", "title": "Multi-source input selection honours priority", "statement": "An input with several sources reports the value of the source updated last, and among sources updated at the same time the most preferred one in the priority list.", "quantifier": "every number of sources, times and priority lists", "why_tests_cant": "all combinations", "anchors": ["src/helics/core/InputInfo.cpp:getData"]}
{"id": "C18", "title": "Only-update-on-change and minimum time gap filter correctly", "statement": "With only_update_on_change an input is reported updated only when the bytes differ from the previous value; with a minimum time gap a value closer than the gap to the previous one is discarded; publications apply the same rules on the sending side.", "quantifier": "every history of values", "why_tests_cant": "unbounded histories", "anchors": ["src/helics/core/InputInfo.cpp:updateData,addData", "src/helics/core/PublicationInfo.cpp:CheckSetValue"]}
{"id": "C19", "title": "Messages are delivered in time order, none lost, none early", "statement": "Messages taken from an endpoint come in non-decreasing time order (ties by source name, then arrival), none is delivered before the granted time reaches its stamp, and each accepted message is delivered exactly once.", "quantifier": "every arrival order and every interleaving of grants and receives", "why_tests_cant": "unbounded histories", "anchors": ["src/helics/core/EndpointInfo.cpp:addMessage,getMessage,updateTimeUpTo,updateTimeInclusive,queueSize,firstMessageTime"]}
{"id": "C20", "title": "Message command binary encoding round-trips", "statement": "Encoding a command message to bytes and decoding it gives back an equal message, for every action, id, flag, time, payload and string list that fits the documented size limits.", "quantifier": "every message value", "why_tests_cant": "the input space is unbounded", "anchors": ["src/helics/core/ActionMessage.cpp:toByteArray,fromByteArray,serializedByteCount"]}
{"id": "C21", "title": "Decoding arbitrary bytes is memory safe and total", "statement": "Decoding any byte string never reads outside the supplied buffer and always terminates with either a message or a rejection.", "quantifier": "every byte string, including hostile ones", "why_tests_cant": "adversarial inputs", "anchors": ["src/helics/core/ActionMessage.cpp:fromByteArray,depacketize"]}
{"id": "C22", "title": "Encoding never writes past the buffer it was given", "statement": "Encoding into a caller-supplied buffer either reports failure or writes only within the buffer.", "quantifier": "every message and buffer size", "why_tests_cant": "all sizes", "anchors": ["src/helics/core/ActionMessage.cpp:toByteArray"]}
{"id": "C23", "title": "Messages survive between machines of different byte order", "statement": "A message encoded on a machine of one endianness is decoded to the same message on a machine of the other endianness.", "quantifier": "every message", "why_tests_cant": "needs mixed hardware", "anchors": ["src/helics/core/ActionMessage.cpp:toByteArray,fromByteArray"]}
{"id": "C24", "title": "Stream framing recovers message boundaries", "statement": "A packetized message whose frame fits the 24-bit length field, followed by any further bytes, is recovered exactly and the number of consumed bytes is exactly the packet; a truncated packet is never accepted; a stream of packets is recovered message by message.", "quantifier": "every message and every suffix/prefix of the stream", "why_tests_cant": "unbounded streams", "anchors": ["src/helics/core/ActionMessage.cpp:packetize,depacketize"]}
{"id": "C25", "title": "Small buffer behaves as a byte string", "statement": "Payload buffers, after any sequence of constructions, copies, moves, assignments, appends, resizes, adoptions or releases of memory, swaps and destructions, behave exactly like plain byte strings: a call that needs more room than a locked buffer or the size limit allows throws and changes nothing, every other call changes the byte strings as specified and leaves other buffers alone. No call reads or writes outside its storage, frees memory twice or loses it. Exceptions, each shown: swapping an inline buffer with one using outside memory, appending or assigning a buffer part to itself, and moving an inline buffer to itself.", "quantifier": "every operation sequence and sizes across the inline/heap threshold", "why_tests_cant": "all histories", "anchors": ["src/helics/core/SmallBuffer.hpp"]}
{"id": "C26", "title": "Interface names are unique and lookups are consistent", "statement": "Two live interfaces that some lookup could both find never share a name: a registration under a taken name (or a taken alias) is refused and leaves every live interface found as before. A live interface is found under its name by every kind of lookup that applies to it, under every declared alias of the name in either direction, and by its identifier; identifiers find exactly the live interfaces. As long as no call threw and nothing was removed after an alias was declared, a lookup finds nothing else. Shown as defects: a refused translator registration leaves its name behind; an alias outlives its interface and blocks re-registration; joining two alias groups inserts into a vector under iteration.", "quantifier": "every registration/alias/removal sequence", "why_tests_cant": "unbounded histories", "anchors": ["src/helics/core/HandleManager.cpp"]}
{"id": "C27", "title": "Deferred connections are resolved exactly once", "statement": "Before the broker starts operating, whatever order interfaces are registered in and connections asked for (a request for a publication, input, endpoint or filter by name; a data, endpoint or filter link between two names), each request whose interfaces are all registered has led to exactly the two messages that connect them, no others are sent, every other request is listed as pending, and the broker reports unknown handles exactly when some request is incomplete. Shown as defects: an operating broker answers a pending reconnectable request twice and never reconnects a filter; a data sink asking for an endpoint is treated as a filter or an endpoint depending on the order; removing a requester leads to a null dereference; a pending request for an alias is not answered by the aliased interface.", "quantifier": "every sequence of registrations (any kind, including refused duplicates), requests and links", "why_tests_cant": "unbounded histories and orders", "anchors": ["src/helics/core/UnknownHandleManager.cpp", "src/helics/core/CoreBroker.cpp"]}
{"id": "C28", "title": "Flags are independent bits", "statement": "Setting, clearing or toggling one flag of a message or interface changes that flag only.", "quantifier": "every flag word and every pair of flag positions", "why_tests_cant": "all 2^16 words x pairs", "anchors": ["src/helics/core/flagOperations.hpp"]}
{"id": "C29", "title": "Federate life cycle is one-way", "statement": "A federate's mode only moves forward: created to initializing on the broker's grant, initializing to executing on its own request, created/initializing/executing to error, any of these to terminating, anything to finished. A mode that was left is never entered again, finished is final, error is left only towards terminating or finished, no time is handed out once executing mode is over, and each move happens only in response to a command meant to cause it: time requests, data and settings never change the mode.", "quantifier": "every message sequence", "why_tests_cant": "unbounded histories", "anchors": ["src/helics/core/TimeCoordinatorProcessing.cpp", "src/helics/core/FederateState.cpp"]}
{"id": "C30", "title": "Property settings read back", "statement": "Setting a federate flag, time property or integer property, or an option of an input, publication or endpoint, and reading it back returns what was set, and changes no unrelated reading; later unrelated settings do not disturb it. Negative times are refused and a zero time delta becomes the smallest step. Exceptions, each shown: interruptible has no setter, profiling cannot be read, unit-mismatch and connection count of an interface are not reported, and multiple-connections-allowed of publications and endpoints reads back negated.", "quantifier": "every option and value", "why_tests_cant": "all options/values", "anchors": ["src/helics/core/InputInfo.cpp:setProperty,getProperty", "src/helics/core/PublicationInfo.cpp", "src/helics/core/EndpointInfo.cpp", "src/helics/core/TimeCoordinator.cpp:setProperty,getTimeProperty"]}
{"id": "C31", "title": "Message object conversion preserves content", "statement": "Turning a user message into a transport command and back preserves data, source, destination, original source/destination, time, flags and id.", "quantifier": "every message", "why_tests_cant": "all values", "anchors": ["src/helics/core/ActionMessage.cpp:createMessageFromCommand,ActionMessage(std::unique_ptr<Message>)"]}
{"id": "C32", "title": "Multi-message packets keep every message in order", "statement": "Messages appended to a multi-message container are recovered in order and unchanged; when the container is full the append is refused and the container is unchanged.", "quantifier": "every list of messages", "why_tests_cant": "unbounded", "anchors": ["src/helics/core/ActionMessage.cpp:appendMessage"]}
{"id": "C33", "title": "Receive drains earliest message first across endpoints", "statement": "A receive over all endpoints returns the available message with the earliest time.", "quantifier": "every set of endpoint queues", "why_tests_cant": "unbounded", "anchors": ["src/helics/core/FederateState.cpp:receiveAny"]}
{"id": "C34", "title": "Publication change detection never hides a change", "statement": "A publish call is suppressed exactly when the minimum time gap since the last transmission has not passed, or change detection applies and the offered bytes equal the bytes last sent; so, without a gap, the value last sent is always the value last offered. This holds for histories in which every publish was made with change detection or buffering on; outside them a change can be hidden (shown).", "quantifier": "every history", "why_tests_cant": "unbounded", "anchors": ["src/helics/core/PublicationInfo.cpp:CheckSetValue"]}
{"id": "C35", "title": "Target lists stay consistent", "statement": "Subscriber lists, endpoint source/destination lists and input source lists hold each interface at most once; it is listed exactly when the last call concerning it connected it (inputs: with the time at which it was closed); removing leaves no copy; a closed input source delivers nothing later than its closing.", "quantifier": "every add/remove history", "why_tests_cant": "unbounded", "anchors": ["src/helics/core/PublicationInfo.cpp", "src/helics/core/EndpointInfo.cpp", "src/helics/core/InputInfo.cpp:addSource,removeSource"]}
{"id": "C36", "title": "Filter chain is applied in order and returns messages", "statement": "Messages from an endpoint pass each source filter exactly once in chain order before being forwarded, and a message dropped by a filter still releases the time hold on the filter federate.", "quantifier": "every chain length and every interleaving of filter replies", "why_tests_cant": "unbounded", "anchors": ["src/helics/core/FilterFederate.cpp", "src/helics/core/FilterCoordinator.cpp"]}
{"id": "C37", "title": "Value type conversion round-trips", "statement": "A value published on a publication of its own type (or of type any or JSON, for the values those carry) and read as that type is the value published, for every primary type and both byte orders; whatever was published, reading it as any type stays inside the received block and the block says its own type.", "quantifier": "every value of every type, every byte order, every type it is read as", "why_tests_cant": "the domain is all values; tests sample a few numbers and texts", "anchors": ["src/helics/application_api/ValueConverter.cpp", "src/helics/application_api/helicsTypes.cpp:typeConvert", "src/helics/application_api/helicsPrimaryTypes.cpp:valueExtract", "src/helics/application_api/Inputs.hpp:getValue"]}
{"id": "C38", "title": "Messages a federate sets aside keep their order, source by source", "statement": "At every moment of a federate's processing, for every source: the messages of that source processed so far followed by those set aside are exactly the messages taken from that source, in order - none lost, none processed twice, no overtaking. Delaying one source holds up no other, nothing stays set aside once no source is delayed, and the federate's own requests are never set aside. (Blocking federates; a callback federate can let a newer message overtake.)", "quantifier": "every history of messages and calls, any number of sources, every way a message can be handled", "why_tests_cant": "the order of messages, delays and nested requests is unbounded", "anchors": ["src/helics/core/FederateState.cpp:processQueue,processDelayQueue,addFederateToDelay,messageShouldBeDelayed,callbackProcessing"]}
{"id": "C39", "title": "The command queue delivers every command exactly once, in order, urgent first, with no lost wake-up", "statement": "Under every interleaving of the queue's locked steps: each command pushed is taken exactly once; commands of one class are taken in the order their pushes ended before others began; an urgent command pushed before a take began is taken before an ordinary one; a take that finds nothing does so only if the queue was empty at some moment during the call; with one taking thread a blocked take is never left asleep while a command waits; no call can deadlock, and each call takes a bounded number of its own steps. (With two taking threads a wake-up can be lost.)", "quantifier": "every schedule of any number of threads, interleaved at every lock operation, any number of commands", "why_tests_cant": "races depend on the schedule of threads, which tests cannot enumerate", "anchors": ["src/helics/network/ipc/IpcBlockingPriorityQueue.hpp", "src/helics/network/ipc/IpcBlockingPriorityQueue.cpp:push,pushPriority,try_pop,pop,try_peek,empty", "src/helics/core/BrokerBase.hpp:actionQueue"]}
{"id": "C40", "title": "The federation starts only when everybody who joined is ready", "statement": "A root broker lets the federation enter initializing mode only when the configured minimum numbers of federates and brokers have joined, every connected child that counts has asked, and - through the cores - every federate that had joined when its core asked had itself asked; it starts at the very request that completes these conditions, and the start reaches every connected child. A broker or core below starts only when told to, and passes the request up exactly when everything below it is ready.", "quantifier": "every number of cores and federates, every order of joining, asking, leaving and delivery", "why_tests_cant": "the conditions are spread over several processes; only a few orders of joining and asking can be tested", "anchors": ["src/helics/core/CoreBroker.cpp:allInitReady,executeInitializationOperations,processCommand,processInitCommand", "src/helics/core/CommonCore.cpp:allInitReady,processCommand"]}
{"id": "C41", "title": "Fan-out reaches every target exactly once", "statement": "A publication or message with any number of targets is sent to each target exactly once, in order, however many transport containers that takes.", "quantifier": "every number of targets and every message", "why_tests_cant": "tests use few targets; the container limit is 255 and the claim is for any number", "anchors": ["src/helics/core/CommonCore.cpp:setValue,generateMessages", "src/helics/core/ActionMessage.cpp:appendMessage", "src/helics/core/BrokerBase.cpp:commandProcessor"]}
{"id": "C42", "title": "Update notifications are complete and exact", "statement": "After a grant, every input whose visible value changed is listed by the changed-inputs query; and with change detection on, every listed input did change its visible value.", "quantifier": "every set of inputs, every queue content and every granted time", "why_tests_cant": "unbounded histories and numbers of inputs", "anchors": ["src/helics/core/FederateState.cpp:fillEventVector*", "src/helics/core/InputInfo.cpp:updateTime*"]}
{"id": "C43", "title": "A pending time request is answered exactly when its dependencies allow it", "statement": "A federate's pending request is answered at the check after an event exactly when, barriers aside, the time E it would be granted lies before the time A its dependencies allow, or equals it and the tie rule holds (no dependency still running at E, no wait-for-current). In particular a federate all of whose dependencies have announced times past E never waits: its own request is answered at once, and a pending request is answered by the very message that makes the last dependency pass E.", "quantifier": "every state of the dependency table, every request and message", "why_tests_cant": "a missed wake-up needs a particular order of announcements; tests run a few orders", "anchors": ["src/helics/core/TimeCoordinator.cpp:checkTimeGrant", "src/helics/core/TimeDependencies.cpp:checkIfReadyForTimeGrant,checkTimeGrantRestriction"]}
{"id": "C44", "title": "Announcements are kept", "statement": "A time a federate has announced to others as its next step binds it: all data it sends afterwards carry a time stamp (granted time plus output delay) not before it - for every federate with the restrictive time policy, and for uninterruptible federates also the announced event time. Every grant is told to every dependent federate with exactly the granted time, and under the default policy no announcement overlooks a dependency.", "quantifier": "every history of requests, messages, data and settings of a federate, every announcement and every later moment", "why_tests_cant": "the claim relates any two moments of an unbounded history", "anchors": ["src/helics/core/TimeCoordinator.cpp:timeRequest,updateNextPossibleEventTime,sendTimeRequest,updateTimeGrant", "src/helics/core/TimeCoordinator.hpp:allowedSendTime", "src/helics/core/FederateState.cpp:nextAllowedSendTime"]}
{"id": "C45", "title": "Federates joining", "statement": "However registrations arrive, no two federates of a federation get the same name, a federate keeps the id it was given, ids handed out by the root differ, the configured maximum number of counting federates is never exceeded, a registration is accepted exactly when the broker is open to new federates and the name is free, and none (save observers, dynamic and reentrant ones) is accepted after the federation has started.", "quantifier": "every sequence of messages reaching the root broker", "why_tests_cant": "duplicates and limits depend on the whole history of registrations and departures", "anchors": ["src/helics/core/CoreBroker.cpp:fedRegistration,isOpenToNewFederates,generateMaxBrokerError"]}
{"id": "C46", "title": "Conversions follow the documented table", "statement": "A value published on a publication of another type is sent as, and a value read as another type than its publication's is returned as, the conversion the documentation's table gives for that pair of types (docs/developer-guide/typeConversions.md); the places where the code does something else are listed and each is shown to be a real disagreement.", "quantifier": "every value, every pair of types of the table", "why_tests_cant": "8 source types by 8 target types over unbounded values", "anchors": ["src/helics/application_api/helicsTypes.cpp:typeConvert", "src/helics/application_api/helicsPrimaryTypes.cpp:valueExtract", "src/helics/application_api/HelicsPrimaryTypes.hpp:valueExtract"]}
{"id": "C47", "title": "Reductions over several sources", "statement": "An input with several sources and a reduction reads, after any set of its sources has published, the documented reduction of the values of exactly those sources, each converted from its own type and units: largest or smallest, difference, sum, average, collected vector, joined text, and/or.", "quantifier": "every number of sources, every subset that has published, all values and units", "why_tests_cant": "unbounded number of sources and values", "anchors": ["src/helics/application_api/Inputs.cpp:vectorDataProcess"]}
{"id": "C48", "title": "Minimum change and repeated reading", "statement": "A publication with a minimum change sends a value exactly when it differs from the value its receivers have by more than that, so at every moment the receivers are within the minimum change of the latest published value; an input with a minimum change reads a value within it of the latest that arrived, however it was read in between; and reading an input twice returns the same value.", "quantifier": "every history of publish calls, arrivals and reads", "why_tests_cant": "drift over an unbounded history is what is excluded", "anchors": ["src/helics/application_api/Publications.cpp:publish", "src/helics/application_api/helicsPrimaryTypes.cpp:changeDetected", "src/helics/application_api/Inputs.cpp:checkUpdate", "src/helics/application_api/Inputs.hpp:getValue"]}
{"id": "C49", "title": "No message arrives in the past, through the tree of cores and brokers", "statement": "When timing goes through the cores and brokers between two federates (the default for federates with endpoints) - up from the sender, over the root, down to the receiver, with any number of levels, with nodes that only pass things on, also between two federates of one core - the receiver is never granted a time T after which data of the sender, wherever it still is on the way, arrives with a time stamp (plus input delay) before T; for restrictive federates and nodes, and, up to what the receiver had been granted, for uninterruptible senders and any nodes. It fails when a third federate waits for current time updates.", "quantifier": "every tree and route, every number of levels, every order of delivery on every link and in every queue, every behaviour of all federates", "why_tests_cant": "the failing orders need particular delays on particular links of a deep tree", "anchors": ["src/helics/core/ForwardingTimeCoordinator.cpp", "src/helics/core/BaseTimeCoordinator.cpp", "src/helics/core/CommonCore.cpp:processCommandsForCore,processExecRequest,routeMessage", "src/helics/core/CoreBroker.cpp:processCommand", "src/helics/core/TimeDependencies.cpp:generateMinTimeUpstream,generateMinTimeDownstream"]}
{"id": "C50", "title": "Nobody enters executing mode early, through the tree of cores and brokers", "statement": "When timing goes through the cores and brokers, a federate that depends (over any number of levels, on the same or another branch) on federate A does not enter executing mode before A has announced that it wants to enter executing mode, left or failed; and A announces this only after its user has asked for it or its part in the federation has ended. It fails when some federate waits for current time updates: federates then enter while A is still in initializing mode.", "quantifier": "every tree, every number of levels, every order of delivery on every link and in every queue, every behaviour of all federates", "why_tests_cant": "the early entry needs one slow federate, a third that waits for current updates and a particular order of commands at the root", "anchors": ["src/helics/core/ForwardingTimeCoordinator.cpp:checkExecEntry,updateTimeFactors,transmitTimingMessagesDownstream", "src/helics/core/BaseTimeCoordinator.cpp:enteringExecMode", "src/helics/core/CommonCore.cpp:processExecRequest", "src/helics/core/CoreBroker.cpp:processCommand", "src/helics/core/TimeDependencies.cpp:checkIfReadyForExecEntry"]}
{"id": "C51", "title": "Cores and brokers keep their neighbours up to date", "statement": "A core or broker in executing mode that handles a timing command from one of its dependencies has afterwards told each neighbour above it its combined view of everything below as it stands at that moment - state, next time, earliest events and who causes them - and each child the state and next time of what it sees around it, unless that child itself is waiting for a later time; it enters executing mode exactly when all its dependencies have asked and tells everyone; and before that passes on that it wants to enter. Nothing is left untold, so no federate waits on an outdated report of a node between. It fails for a local error reported to a broker, which is processed but never passed on, and for the event times told to children.", "quantifier": "every history of timing commands at a core or broker, every number and kind of neighbours", "why_tests_cant": "a missed announcement shows only after a particular sequence of updates, some of which leave the combined view unchanged", "anchors": ["src/helics/core/ForwardingTimeCoordinator.cpp:updateTimeFactors,transmitTimingMessagesUpstream,transmitTimingMessagesDownstream,checkExecEntry", "src/helics/core/BaseTimeCoordinator.cpp", "src/helics/core/CoreBroker.cpp:processCommand", "src/helics/core/CommonCore.cpp:processCommandsForCore"]}
{"id": "C52", "title": "The calls of the application interface come in the right order", "statement": "Whatever an application calls on a federate object and whatever its core answers: a call made in a mode in which the documentation does not allow it throws InvalidFunctionCall and does nothing; one that is allowed is carried out if the core does not fail; the core is asked for executing mode only after initializing mode was answered, for time only in executing mode, and after the end hears of errors at most; at most one asynchronous operation is under way; the mode reported to the application is one the core has granted and moves forward only, an error is final; a time request returns the time the core granted last, which is then the current time, and the federate is finished exactly when that is the time of termination.", "quantifier": "every sequence of calls, every moment at which asynchronous threads finish, every behaviour of the core", "why_tests_cant": "sequences of calls, asynchronous completions and failures of the core combine without bound", "anchors": ["src/helics/application_api/Federate.cpp", "src/helics/application_api/Federate.hpp:Modes", "src/helics/application_api/AsyncFedCallInfo.hpp"]}
{"id": "C53", "title": "Starting a call and completing it later is the same as calling", "statement": "For entering initializing and executing mode, iterating the initialization, requesting time (also iteratively) and finalizing: starting the operation asynchronously, waiting in any way and then completing it returns the same result, makes the same calls to the core, leaves the same state and tells the callbacks the same as the blocking call - when the core does not fail; for federates with potential interfaces, for automatic repetition, for failing cores and for some callbacks it does not, and those differences are listed.", "quantifier": "every state in which the operation may be started, every behaviour of the core, every way of waiting", "why_tests_cant": "the two paths are separate code; equality must hold in every state", "anchors": ["src/helics/application_api/Federate.cpp:enterInitializingModeAsync,enterInitializingModeComplete,enterExecutingModeAsync,enterExecutingModeComplete,requestTimeAsync,requestTimeComplete,requestTimeIterativeAsync,requestTimeIterativeComplete,finalizeAsync,finalizeComplete"]}
{"id": "C54", "title": "What the callbacks are told", "statement": "The mode callbacks of a federate tell one connected story that ends in the current mode; the entry to executing mode is announced at most once, only to a federate that got there and before any time is reported; the end is announced exactly once when the federate has ended or failed. The uses of asynchronous calls for which this fails are excluded explicitly and shown to fail.", "quantifier": "every sequence of calls, every behaviour of the core", "why_tests_cant": "the record of callbacks depends on the whole history", "anchors": ["src/helics/application_api/Federate.cpp:updateFederateMode,updateSimulationTime,enteringInitializingMode,enteringExecutingMode,preTimeRequestOperations,postTimeRequestOperations"]}
{"id": "C55", "title": "What is addressed to somebody gets to exactly that somebody", "statement": "In any hierarchy of brokers and cores: no two of its brokers, cores and federates ever have the same identifier and nobody's identifier changes; whoever receives a command has the identifier it was addressed to; a command addressed to an identifier that was given out is neither lost nor duplicated, and does not travel for ever; commands of the same priority from one node to one identifier arrive in the order of sending if the sender had heard of the identifier; every identifier given out reaches its holder. For federates that come back at another core this fails, and is shown to fail.", "quantifier": "every tree, every history of registrations, refusals, sendings and deliveries in every interleaving, priority commands overtaking others", "why_tests_cant": "routes are built by messages racing with the messages that use them, over unboundedly many nodes", "anchors": ["src/helics/core/CoreBroker.cpp:brokerRegistration,fedRegistration,getRoute,routeMessage,processPriorityCommand", "src/helics/core/CommonCore.cpp:routeMessage,processPriorityCommand", "src/helics/core/GlobalFederateId.hpp"]}
{"id": "C56", "title": "How a federation ends", "statement": "Without disconnections by hand: the main loop of a broker or core ends only when the applications of all federates below it have called finalize; when all federates have called finalize then, however the members take their commands, after finitely many of them nothing is on its way, every call has returned and the main loops of all brokers and cores are over; without the global disconnect option a call of finalize does not wait for other federates; with it, in an operating federation, a call returns only when all federates have called. Cores without federates, the time before the operating state and brokers disconnected by hand are shown to break these promises.", "quantifier": "every tree of brokers, cores and federates, every history of calls, starts and deliveries in every interleaving", "why_tests_cant": "who leaves when races with confirmations, goodbyes of time coordinators and notices through unboundedly many levels", "anchors": ["src/helics/core/CoreBroker.cpp:processDisconnectCommand,processBrokerDisconnect,disconnectBroker,sendDisconnect,disconnectTiming,processCommand", "src/helics/core/CommonCore.cpp:processDisconnectCommand,checkAndProcessDisconnect,sendDisconnect,finalize", "src/helics/core/FederateState.cpp:processActionMessage"]}
{"id": "C57", "title": "Queries about the whole federation", "statement": "A query about the whole federation put to a broker (such as global_time or dependency_graph) is answered with a document that contains the answer of every broker, core and federate below it, each exactly once and in its place; every such query is answered exactly once, after finitely many messages, however many are under way and however their messages are delivered; a query put while no other of its kind is under way is answered with nothing written down before it was put; if a member leaves and its answer was the last one awaited, everybody waiting is answered without it. Queries to cores, members in the error state, kept answers and changing locks are shown to break these promises.", "quantifier": "every tree of brokers, cores and federates, any number of queries and users at any broker, every interleaving of their messages", "why_tests_cant": "answers of overlapping queries race with each other through unboundedly many members and levels", "anchors": ["src/helics/core/CoreBroker.cpp:generateQueryAnswer,initializeMapBuilder,processLocalQuery,processQueryResponse,checkInFlightQueries", "src/helics/core/CommonCore.cpp:coreQuery,initializeMapBuilder,processQueryResponse,processCommandsForCore", "src/helics/core/FederateState.cpp:processQuery", "src/helics/common/JsonBuilder.cpp"]}
{"id": "C58", "title": "A broker's master clock", "statement": "In a federation whose broker keeps a master clock: every time the broker announces has been confirmed by everybody it could matter to - since the last round of questions nothing was announced, no federate that had been granted a time has asked anew, and each federate taking part whose next time is not after the announced time has answered with the number of that round - and no federate has a next event before the announced time (up to one nanosecond; federates that never grant excepted while nothing triggers them); an announcement goes to exactly the federates whose next time it reaches, all are told the same, questions likewise; and the clock does not stop: when everybody waits, every command leads to questions, an announcement, or somebody who was asked has not answered yet, and a round everybody confirms ends with an announcement. Local errors, federates that step back and the reuse of round numbers are shown to break these promises.", "quantifier": "every number of federates, every history of timing commands in every order of arrival", "why_tests_cant": "an announcement before a confirmation needs particular interleavings of new requests, answers to older rounds and departures", "anchors": ["src/helics/core/GlobalTimeCoordinator.cpp", "src/helics/core/GlobalTimeCoordinator.hpp", "src/helics/core/BaseTimeCoordinator.cpp:processTimeMessage", "src/helics/core/TimeDependencies.cpp:verifySequenceCounter,checkSequenceCounter", "src/helics/core/CoreBroker.cpp:processCommand,processError,disconnectTiming"]}
{"id": "C59", "title": "Lost connections are noticed, and no living one is given up", "statement": "A root broker reports the connection to a member lost only if it asked that member more than the time-out ago and has had no answer since; a member that was asked and has not answered is, at the next tick before which nothing but ticks came, asked again, or reported lost once the time-out is over; if everybody asked has answered, such a tick asks exactly the members that are alive and answer pings. The same holds for a core or lower broker and the broker above it. A reported loss is ignored if the member had left in good order, drops the member if some other one has left already, and otherwise fails the federation at the root and is passed on elsewhere. A busy root, a member that leaves while an answer is awaited, a sub-broker and a slow broker above are shown to escape or fool the watch.", "quantifier": "every set of members, every history of ticks, answers, departures and other commands, every reading of the clock", "why_tests_cant": "the watch depends on the whole history of ticks and answers; unit tests disable the timers", "anchors": ["src/helics/core/TimeoutMonitor.cpp", "src/helics/core/TimeoutMonitor.h", "src/helics/core/BrokerBase.cpp:queueProcessingLoop", "src/helics/core/CoreBroker.cpp:processCommand"]}
{"id": "C60", "title": "Callback federates", "statement": "Whatever happens to a federate that runs by callbacks and whatever its functions answer: its functions are called in order - initializing mode, then executing mode, then the end, which is at most one report of an error followed by at most one finalize; the times of the calls in executing mode never decrease and start at zero; every call after the first is paid for by one request the federate made in the call before, every answer is sent to the core exactly once, and a federate that is not waiting for the core has its answer under way; after a halt, an error, an exception or the stop time no function is called again, and nothing is called before the application enters initializing mode; a call reports an iteration only right after one was asked for; each call sees the right mode; whoever finished or failed has been told. A request answered HALTED, a federate that joins a running federation and a forced grant are shown to break these promises.", "quantifier": "every history of commands in every grouping and order of return, every answer of the user's functions", "why_tests_cant": "the calls depend on the whole history of commands racing with the federate's own requests", "anchors": ["src/helics/core/FederateState.cpp:callbackProcessing,callbackReturnResult,initCallbackProcessing,execCallbackProcessing", "src/helics/application_api/CallbackFederate.cpp:operateCallback,initializeOperationsCallback"]}
{"id": "C61", "title": "Message timers", "statement": "A timer set to hand over a message at a time hands over what it was given last, once, and not before the time it was last set to, with all delays since added; after it is cancelled, or given another message, the old one is never handed over, even when its handler was already under way; a message given by addTimer or updateTimer that is not cancelled or replaced is handed over, once its time has come and its handlers have run. A message given by updateMessage to a timer that has already fired is never sent.", "quantifier": "every history of calls on any number of timers, every passage of time and every order of the handlers", "why_tests_cant": "handlers run in another thread and race with the calls that cancel or change the timer", "anchors": ["src/helics/core/MessageTimer.cpp:addTimer,cancelTimer,updateTimer,addTimeToTimer,updateMessage,sendMessage"]}
{"id": "C62", "title": "Log messages", "statement": "After any history of levels set, remote targets added and changed, and messages logged: a message of an object is printed on its console or in its file exactly when its level is at most the one set there last, the callback gets what one of the two would; a remote target gets a message once, and only if it asked for its level, and gets all of those unless it raised its level after it was added; what arrives from elsewhere is never sent on, so objects that listen to each other do not echo; the buffer holds, in order, exactly the last messages, as many as it could hold at any time since, and keeps within its size when threads log at the same time. A raised level is shown to be lost, the level of a message not to reach the target, and a change of the buffer's size by another thread to break it.", "quantifier": "every history of levels, targets, messages and sizes; every interleaving of threads that log", "why_tests_cant": "what is printed depends on the order in which levels and targets changed, and on races between threads", "anchors": ["src/helics/core/LogManager.cpp:sendToLogger,updateRemote,updateMaxLogLevel,setLogLevels", "src/helics/common/LogBuffer.cpp:push,resize,enable", "src/helics/core/FederateState.cpp:logMessage"]}
{"id": "C63", "title": "Real-time federates", "statement": "Whatever the rest of the federation does, a federate that runs in real time returns from a time request no more than five milliseconds before its lead on the clock allows; a time is forced only when the clock is the lag past it, and never without a limit to the lag; a call for a time not yet granted returns when the clock is the lag past it, once the timer has fired and what is queued has been processed; a forced grant is for the time asked for, and granted times never go back. A forced grant left over from one call is shown to end the next one at once.", "quantifier": "every history of time requests, grants of the coordinator, the passage of the clock and the moment the timer fires", "why_tests_cant": "the timer runs in another thread and races with the grant; no test can try every moment", "anchors": ["src/helics/core/FederateState.cpp:requestTime", "src/helics/core/TimeCoordinatorProcessing.cpp:CMD_FORCE_TIME_GRANT", "src/helics/core/MessageTimer.cpp:sendMessage"]}
{"id": "C64", "title": "Standard filters", "statement": "After any history of settings: a delay filter adds to the time of a message the delay set last; a random drop filter hands a message on unchanged or drops it, never with probability 0, always with 1; a reroute filter sends a message to the destination set last, made out for its source and destination, exactly if no condition was given or its destination meets one, and remembers the first destination; a clone filter makes exactly one copy for each delivery address, in the order in which they were added; nothing else of a message is changed; a refused call changes nothing; and several filters of an endpoint work one after the other. A firewall filter is shown to drop everything, a negative delay to be taken as text, and names with dollar signs to be garbled.", "quantifier": "every history of settings, every message, every number drawn, every row of filters", "why_tests_cant": "what a filter does depends on the whole history of settings and on what the filters before it made of the message", "anchors": ["src/helics/application_api/FilterOperations.cpp", "src/helics/application_api/MessageOperators.cpp", "src/helics/application_api/Filters.cpp", "src/helics/core/FilterFederate.cpp:processMessage,executeFilter"]}
{"id": "C65", "title": "Translators", "statement": "After any history of connections: a message sent to a translator becomes exactly one value for each input connected to it at that moment, and a value that comes to it exactly one message for each endpoint connected, from the translator, with the name of the publication as its original source; they carry what the translator's operator makes of the content, at the time the operator gives, which is later; if there is no operator or it makes nothing, nothing is sent; nothing else makes a translator send, and translators do not affect each other. A closed translator is shown to go on, and a disconnected publication to be translated all the same.", "quantifier": "every history of registrations, connections, disconnections, operators, messages and values, for any number of translators", "why_tests_cant": "what is connected at the moment a message comes depends on the whole history of commands", "anchors": ["src/helics/core/TranslatorFederate.cpp:executeTranslator,handleMessage,createTranslator", "src/helics/core/TranslatorInfo.hpp", "src/helics/application_api/TranslatorOperations.cpp"]}
{"id": "C66", "title": "Connection requirements", "statement": "A federate enters initializing mode exactly when the requirements of all its interfaces are met, after any history of flags, options, connections and disconnections: a required interface has a connection, an exact number of connections demanded is the number there is, and every source of an input has a type and units the input takes. Otherwise the federate is in the error state with the code for a failed connection, and the message names the first interface whose requirements are not met and says something true about it. What counts as connected, which options count, and where the code departs from its documentation, is part of the statement.", "quantifier": "every set of interfaces, every history of options and connection commands, every pair of type names, every units library", "why_tests_cant": "the verdict depends on the whole history of commands of every interface, over unboundedly many names of types and units", "anchors": ["src/helics/core/InterfaceInfo.cpp:checkInterfacesForIssues,createInput,createPublication,createEndpoint", "src/helics/core/EndpointInfo.cpp:checkInterfacesForIssues", "src/helics/core/InputInfo.cpp:checkTypeMatch,checkUnitMatch", "src/helics/core/FederateState.cpp:checkInterfaces,checkProcResult"]}
{"id": "C67", "title": "Numbered names", "statement": "A federate may ask for a name with the marker ${#}, which the federation replaces by a number. After any history of requests, the name made is the text with its first marker replaced by the number of this request among the requests for the same text; a text without the marker is left alone. The same template never gives the same name twice, and templates that end with the marker and have no digit in front of it never give the same name at all. No two federates join under the same name; each registration joins under the name asked for, unless a federate joined under it before or the naming is rejected; a registration under such a template is never refused as a duplicate while plain names do not end in a digit. The code rejects every template with the word 'error' in it, which is shown.", "quantifier": "every history of requests and registrations, with any texts", "why_tests_cant": "the number depends on the whole history, and two texts among all texts must never meet", "anchors": ["src/helics/core/CoreBroker.cpp:generateRename,fedRegistration", "src/helics/core/CommonCore.cpp:registerFederate"]}
{"id": "C68", "title": "The player", "statement": "Whatever times a player is granted, what it has sent is part of what it was given, each entry at most once, values ordered by time and iteration and messages by time, and nothing is sent before its time. If no grant is past the time asked for, then when runTo(stop) is over everything with a time up to the stop time has been sent exactly once and nothing else has; the call comes to an end. If the player is granted the times it asks for, every value is published at its time and in its iteration, and every message sent at its time. This is for input that uses iterations only without messages, and no negative ones; that the code needs these restrictions is shown.", "quantifier": "every list of values and messages in any order, every series of grants, every series of runTo calls, any number of iterations", "why_tests_cant": "the outcome depends on every grant of an unbounded run, on the order of the input and on where calls stop", "anchors": ["src/helics/apps/Player.cpp:sendInformation,runTo,sortTags,initialize", "src/helics/apps/Player.hpp"]}
{"id": "C69", "title": "Tags read back", "statement": "A tag of an interface, a federate or a core reads back as the value last set for it, whatever was set for other objects and other tags, and reads as an empty text if it was never set. A tag of a core reads back even if the core has not come to the command yet. Queries list every tag of a federate or an interface once, with the value last set, and the tags of a core with the value last set. An empty tag is refused and changes nothing. For an interface an empty value reads as \"true\", in queries as empty.", "quantifier": "every history of setting tags and infos on any interfaces, federates and the core, interleaved in any way with the core's processing of commands", "why_tests_cant": "the value depends on the whole history and on where the core is in its queue", "anchors": ["src/helics/core/CommonCore.cpp:setInterfaceTag,getInterfaceTag,setFederateTag,getFederateTag,setInterfaceInfo,getInterfaceInfo", "src/helics/core/BasicHandleInfo.cpp:setTag,getTag", "src/helics/core/FederateState.cpp:setTag,getTag"]}
{"id": "C70", "title": "The source application", "statement": "If a source application is granted the times it asks for, each of its sources publishes at its start time (or zero, if that is negative) and then once per period, at every such time up to the stop time and at no other; a source with a negative start time also publishes once before time zero. Whatever times are granted, a source publishes at increasing times, its k-th value never before its k-th due time, and what it waits for next is one of its due times and not in the past. Every round advances the federate's time, so that a call comes to an end.", "quantifier": "any number of sources with any start times and positive periods, every series of grants, every series of runTo calls", "why_tests_cant": "the times depend on every grant of an unbounded run and on all the other sources", "anchors": ["src/helics/apps/Source.cpp:runSource,runSourceLoop,runTo", "src/helics/apps/Source.hpp:SourceObject"]}
{"id": "C71", "title": "The recorder", "statement": "A recorder records, call by call and grant by grant up to the first grant that reaches the stop time, every new value of every subscription exactly once, with the time granted and the iteration, and every message exactly once in the order received. A point is marked as the first of its subscription exactly if it is, and the statistics give the number of points and the last value of each subscription. What is recorded over any number of calls is ordered by time and, at the same time, by iteration, so that it can be played back.", "quantifier": "every series of calls, grants, iterations, updates and messages", "why_tests_cant": "the record depends on every grant of an unbounded run", "anchors": ["src/helics/apps/Recorder.cpp:captureForCurrentTime,runTo,initialize", "src/helics/apps/Recorder.hpp:ValueCapture,ValueStats"]}
