{"id": "C01", "title": "Simulated time never goes backwards", "statement": "Whatever events are scheduled, re-scheduled or voided, before or during execution, the ticks at which a schedule executes events form a non-decreasing sequence, and tick() while an event runs is that event's tick (intervals that do not decrease time).", "quantifier": "every finite history of schedule/execute calls, every callback behaviour (callbacks may schedule, void and stop), every tick value and non-negative interval, every outcome of the random generator", "why_tests_cant": "the callbacks form an arbitrary program that keeps extending the queue; a test runs one program", "anchors": ["src/repast4py/schedule.py: Schedule._push_event, Schedule.execute, RepeatingEvent.reschedule"]}
{"id": "C02", "title": "A one-time event runs exactly once, at its tick", "statement": "An event accepted by schedule_event (tick strictly in the future) is at every moment either still pending or has been executed exactly once, at exactly the tick it was scheduled for; nothing is lost or duplicated by the heap, the per-tick grouping, the shuffle, or interruption by events added for the current tick.", "quantifier": "every history, every callback behaviour, every rng outcome", "why_tests_cant": "loss/duplication would depend on the interleaving of additions with the group that is executing", "anchors": ["src/repast4py/schedule.py: Schedule, ScheduleGroup.add_evt, ScheduleGroup.sort, ScheduleGroup.execute_evts"]}
{"id": "C03", "title": "A repeating event runs at start, start+interval, start+2*interval, ...", "statement": "The k-th execution of a repeating event happens at the tick obtained from its start by adding its interval k times, with exactly one pending occurrence between executions, until it is voided.", "quantifier": "every k, every start/interval, every concurrent schedule activity", "why_tests_cant": "unbounded number of repetitions, interleaved with arbitrary other events", "anchors": ["src/repast4py/schedule.py: RepeatingEvent.reschedule, ScheduleGroup.execute_evts"]}
{"id": "C04", "title": "Events scheduled in the past are ignored", "statement": "Scheduling an event for a tick smaller than the current tick never has any effect: no callable is run, no pending event, tick or ordering changes.", "quantifier": "every schedule state, every tick value, every event kind", "why_tests_cant": "quantifies over every schedule state", "anchors": ["src/repast4py/schedule.py: Schedule._push_event"]}
{"id": "C05", "title": "FIRST before RANDOM/BY_PRIORITY before LAST within a tick; FIRST and LAST in scheduling order", "statement": "Among the events pending for a tick when it starts, all FIRST events run before all RANDOM/BY_PRIORITY events, which run before all LAST events; FIRST (resp. LAST) events run in the order in which they were scheduled. When an executing event adds events for the current tick the same order holds for everything that has not yet run.", "quantifier": "every set of pending events, every callback behaviour, every rng outcome", "why_tests_cant": "must hold for every population of the tick and for every shuffle", "anchors": ["src/repast4py/schedule.py: ScheduleGroup.sort, ScheduleGroup.execute, PriorityType"]}
{"id": "C06", "title": "BY_PRIORITY events run in priority order", "statement": "Within a tick BY_PRIORITY events run in order of non-decreasing priority value, ties in scheduling order, no matter how RANDOM events are interleaved.", "quantifier": "every set of events of the tick, every rng outcome, every same-tick addition", "why_tests_cant": "depends on the random interleaving and on additions during the tick", "anchors": ["src/repast4py/schedule.py: ScheduleGroup.sort, ScheduleGroup._add_during_ex_evts"]}
{"id": "C07", "title": "RANDOM events: every event of the tick runs, whatever the random generator returns", "statement": "For every outcome of the generator, the RANDOM and BY_PRIORITY events executed for a tick are exactly those pending for it, each once (the shuffle / random insertion is a permutation), and every relative order of the RANDOM events of a tick can be produced.", "quantifier": "every generator outcome, every list of events", "why_tests_cant": "tests see one seed", "anchors": ["src/repast4py/schedule.py: ScheduleGroup.sort"]}
{"id": "C08", "title": "An event scheduled by a running event for the current tick runs in that tick", "statement": "If an executing event schedules another event for the current tick, that event executes within the same Schedule.execute call, i.e. before time advances.", "quantifier": "every callback behaviour, including chains of additions, every priority type", "why_tests_cant": "chains of same-tick additions are unbounded", "anchors": ["src/repast4py/schedule.py: ScheduleGroup.add_evt, ScheduleGroup.execute_evts, Schedule.execute"]}
{"id": "C09", "title": "A voided event never runs again", "statement": "After void() is called on a scheduled event its callable is never invoked, and a repeating event is not re-scheduled.", "quantifier": "every moment at which void is called (from outside or from any event, including itself), every later history", "why_tests_cant": "the void may come at any point of any history", "anchors": ["src/repast4py/schedule.py: RepeatingEvent.void, OneTimeEvent.void"]}
{"id": "C10", "title": "No accepted event is ever dropped", "statement": "Every event accepted by the schedule (tick >= current tick, not voided) is eventually executed provided execution continues, in whatever program state it was scheduled.", "quantifier": "every point at which scheduling can happen: before the run, during an event, between two execute calls", "why_tests_cant": "requires considering every point in every history", "anchors": ["src/repast4py/schedule.py: Schedule._push_event, ScheduleGroup.reset"]}
{"id": "C11", "title": "stop(): the current tick is completed, then end events run exactly once, in order", "statement": "When the stop event (or stop()) executes, all remaining events of the current tick still execute, no event of a later tick executes on that runner, and then the end events each execute exactly once in the order in which they were scheduled.", "quantifier": "every history and every position of the stop event within the tick", "why_tests_cant": "position of stop in the tick is random", "anchors": ["src/repast4py/schedule.py: SharedScheduleRunner.stop, SharedScheduleRunner.execute, SharedScheduleRunner.schedule_end_event"]}
{"id": "C12", "title": "No rank's schedule runs ahead of another rank's", "statement": "In a multi-process run, when a rank executes tick t, no rank has a pending event earlier than t, and the ticks executed over all ranks are globally non-decreasing.", "quantifier": "every number of ranks, every combination of schedules, every callback behaviour", "why_tests_cant": "quantifies over number of ranks and over all schedules of all ranks", "anchors": ["src/repast4py/schedule.py: SharedScheduleRunner.execute, SharedScheduleRunner.schedule_stop, Schedule.next_tick"]}
{"id": "C13", "title": "Global progress: while some rank has pending events the simulation advances", "statement": "In every synchronisation round in which some rank has a pending event, at least one rank executes its pending events (an idle rank does not prevent the others from advancing).", "quantifier": "every number of ranks, every combination of schedules, in particular those where a rank has nothing scheduled", "why_tests_cant": "needs all combinations of per-rank schedules", "anchors": ["src/repast4py/schedule.py: Schedule.next_tick, SharedScheduleRunner.execute"]}
{"id": "C14", "title": "The priority queue always yields the earliest event, ties in scheduling order", "statement": "The binary heap holding pending events behaves as a sorted list: pushing keeps all events, the head is always the (tick, scheduling order) minimum and popping removes precisely that event.", "quantifier": "every sequence of pushes and pops", "why_tests_cant": "heap shape depends on entire operation history", "anchors": ["src/repast4py/schedule.py: Schedule._push_event, Schedule.execute, RepeatingEvent.reschedule (heapq use)"]}
{"id": "C15", "title": "Checkpointed schedule resumes with the same future", "statement": "Saving the schedule between two ticks and restoring it into a fresh runner (with an evt creator that recreates each callable) yields a schedule whose pending events (tick, scheduling order, priority type, priority, interval, callable) and counters are those saved, so the subsequent execution is the same as without the checkpoint.", "quantifier": "every reachable schedule state, every metadata, every later history", "why_tests_cant": "every reachable schedule must be covered", "anchors": ["src/repast4py/checkpoint.py: Checkpoint.save_schedule, Checkpoint.restore_schedule, Checkpoint._schedule_evt"]}
{"id": "C16", "title": "Restoring by tag partitions the saved events", "statement": "restore_schedule with a tag restores precisely the saved events carrying that tag; the saved order of events is kept and order indices do not collide with those of events scheduled later.", "quantifier": "every list of saved events, every tag", "why_tests_cant": "all lists of saved events", "anchors": ["src/repast4py/checkpoint.py: Checkpoint.restore_schedule"]}
{"id": "C17", "title": "restore_stop_at controls whether the saved stop event is restored", "statement": "With restore_stop_at=False no stop event is restored: the restored simulation does not stop where the checkpointed one would have.", "quantifier": "every saved schedule containing a stop event", "why_tests_cant": "all saved schedules", "anchors": ["src/repast4py/checkpoint.py: Checkpoint.restore_schedule"]}
{"id": "C18", "title": "Agents survive a checkpoint round trip", "statement": "restore_agents yields exactly the agents saved by save_agents, in order, with their saved state.", "quantifier": "every list of agents and every state", "why_tests_cant": "all populations", "anchors": ["src/repast4py/checkpoint.py: Checkpoint.save_agents, Checkpoint.restore_agents"]}
{"id": "C19", "title": "Locations survive a checkpoint round trip", "statement": "After save_space and restore_space into an empty space with the same bounds every local agent is at the location at which it was at the moment of saving.", "quantifier": "every space content", "why_tests_cant": "all configurations", "anchors": ["src/repast4py/checkpoint.py: Checkpoint.save_space, Checkpoint.restore_space"]}
{"id": "C20", "title": "Networks survive a checkpoint round trip", "statement": "save_network followed by restore_network recreates all local edges with attributes, and ghost edges to agents on other ranks.", "quantifier": "every network, directed or not, every distribution of nodes over ranks", "why_tests_cant": "all graphs and partitions", "anchors": ["src/repast4py/checkpoint.py: Checkpoint.save_network, Checkpoint.restore_network, NetworkRestorer"]}
{"id": "C21", "title": "The local population views agree", "statement": "At all times contains_type, agents(type), agents(), agent(uid) and size(types) of a context describe the same set of local agents: those added and not removed or moved away.", "quantifier": "every sequence of add, remove, move operations", "why_tests_cant": "all operation histories", "anchors": ["src/repast4py/context.py: SharedContext.add, remove, agent, agents, size, contains_type", "src/repast4py/core.py: AgentManager"]}
{"id": "C22", "title": "agents() enumerates each agent once, in insertion order, shuffled only on request", "statement": "agents(None, shuffle=False) yields each local agent exactly once in insertion order; agents(type) yields the sub-sequence of that type; with shuffle a permutation; with count=n the first n.", "quantifier": "every history, type, count and shuffle outcome", "why_tests_cant": "all histories and rng outcomes", "anchors": ["src/repast4py/context.py: SharedContext.agents"]}
{"id": "C23", "title": "Ghost reference counting", "statement": "A ghost stays available exactly while the number of projections/requests referencing it is positive; explicitly requested ghosts are never dropped by projection synchronisation.", "quantifier": "every sequence of add_ghost, get_ghost, remove_ghost, delete_ghost", "why_tests_cant": "all operation sequences", "anchors": ["src/repast4py/core.py: AgentManager.add_ghost, get_ghost, remove_ghost, delete_ghost"]}
{"id": "C24", "title": "Moving agents between ranks conserves the population", "statement": "move_agents, and synchronize for agents that left a rank's bounds, transfer each agent to exactly the addressed rank: every agent is local on exactly one rank before and after, with its state.", "quantifier": "every number of ranks, every distribution of agents, every set of moves", "why_tests_cant": "all distributions over any number of ranks", "anchors": ["src/repast4py/context.py: SharedContext.move_agents, _gather_oob_data, _process_recv_oob_data, synchronize"]}
{"id": "C25", "title": "Ghost state equals owner state after synchronize", "statement": "After synchronize every ghost copy of an agent carries the state the owning rank saved in that synchronization.", "quantifier": "every number of ranks, every ghost relation, every state", "why_tests_cant": "all ghost relations", "anchors": ["src/repast4py/context.py: SharedContext._update_ghosts, synchronize", "src/repast4py/core.py: AgentManager.tag_as_ghosted"]}
{"id": "C26", "title": "Ghosts of removed agents disappear", "statement": "After removing an agent on its owner, the next synchronize removes every ghost copy of it on the other ranks.", "quantifier": "every ghost relation, every set of removed agents", "why_tests_cant": "all ghost relations", "anchors": ["src/repast4py/context.py: SharedContext._update_removed_ghosts", "src/repast4py/core.py: AgentManager.delete_local"]}
{"id": "C27", "title": "Sticky borders clamp", "statement": "A sticky-border transform lands in the space's bounds, equals the requested point when that is in bounds, and changes each out-of-bounds coordinate to the nearest in-bounds one.", "quantifier": "every point and every bounding box with positive extents", "why_tests_cant": "all integers", "anchors": ["src/repast4py/borders.h: StickyBorders", "src/repast4py/geometry.h: BoundingBox"]}
{"id": "C28", "title": "Periodic borders wrap", "statement": "A periodic-border transform lands in bounds, leaves in-bounds points alone and changes each coordinate by a multiple of the extent.", "quantifier": "every point and bounding box, including boxes whose minimum is not zero", "why_tests_cant": "all integers", "anchors": ["src/repast4py/borders.h: PeriodicBorders"]}
{"id": "C29", "title": "get_location / get_agents agreement", "statement": "In every reachable grid state an agent is listed by get_agents(pt) if and only if get_location(agent) is pt; every located agent is listed exactly once.", "quantifier": "every sequence of add, remove, move and query operations", "why_tests_cant": "all operation histories", "anchors": ["src/repast4py/space.h: BaseSpace", "src/repast4py/grid.h: BaseGrid", "src/repast4py/occupancy.h: MultiOccupancy"]}
{"id": "C30", "title": "Where move puts an agent depends only on the requested point", "statement": "move(agent, pt) places the agent at the border transform of pt, whatever operations preceded it.", "quantifier": "every operation history before the move", "why_tests_cant": "all histories", "anchors": ["src/repast4py/space.h: BaseSpace::wpt", "src/repast4py/grid.h: BaseGrid::move", "src/repast4py/borders.h: PeriodicBorders"]}
{"id": "C31", "title": "Single occupancy exclusivity", "statement": "In a single-occupancy space no two agents ever have the same location; moving to an occupied location returns None and leaves the space unchanged.", "quantifier": "every sequence of operations", "why_tests_cant": "all operation histories", "anchors": ["src/repast4py/occupancy.h: SingleOccupancy", "src/repast4py/grid.h: BaseGrid::move"]}
{"id": "C32", "title": "Removed agents leave no trace; move of an unknown agent is an error", "statement": "After remove(agent) the agent has no location and no query lists it; moving an agent that was not added raises and changes nothing.", "quantifier": "every operation history (including repeated add of the same agent)", "why_tests_cant": "all operation histories", "anchors": ["src/repast4py/space.h: BaseSpace::add, BaseSpace::remove", "src/repast4py/grid.h: BaseGrid::move"]}
{"id": "C33", "title": "Rank bounds partition the global space", "statement": "The per-rank local bounds of a shared space are disjoint and cover the global bounds: every point lies in the local bounds of exactly one rank.", "quantifier": "every global extent, every process grid, 1-3 dimensions", "why_tests_cant": "all extents and process counts", "anchors": ["src/repast4py/distributed_space.cpp: CartesianTopology::getBounds, adjust_min_extent"]}
{"id": "C34", "title": "An agent that leaves local bounds is addressed to the rank owning its location", "statement": "After move, an agent is queued for transfer if and only if its location is outside the local bounds, and then to the unique rank owning that location, with that location; only the latest move counts.", "quantifier": "every history of moves, every topology", "why_tests_cant": "all move histories", "anchors": ["src/repast4py/distributed_space.h: DistributedCartesianSpace::move, remove", "src/repast4py/distributed_space.cpp: CartesianTopology::getAllBounds"]}
{"id": "C35", "title": "Neighbour enumeration is correct", "statement": "The neighbours of a rank are the ranks at Chebyshev distance 1 in the process grid (with wrap-around when periodic), and the relation is symmetric.", "quantifier": "every process grid, every rank, 1-3 dimensions, periodic or not", "why_tests_cant": "all process grids", "anchors": ["src/repast4py/distributed_space.cpp: CartesianTopology::getNeighbors"]}
{"id": "C36", "title": "Buffer zones: every agent within buffer distance of a neighbour is visible there as a ghost", "statement": "After synchronize, a rank holds a ghost of each agent on a neighbouring rank whose location is within buffer_size of the rank's bounds (with wrap-around for periodic borders) exactly once, and no others.", "quantifier": "every process grid, extent, buffer size, agent distribution", "why_tests_cant": "all grids/buffer sizes", "anchors": ["src/repast4py/distributed_space.cpp: compute_buffer_bounds, CartesianTopology::compute_neighbor_buffers", "src/repast4py/space.py: SharedGrid._fill_send_data, _gather_1d, _gather_2d, _gather_3d"]}
{"id": "C37", "title": "get_agents_within returns exactly the agents in the box", "statement": "CSpace.get_agents_within(box) returns exactly the agents whose location is in the box, whatever moves and removals happened and however the spatial tree was split.", "quantifier": "every history of add/move/remove, every threshold, every query box", "why_tests_cant": "tree shape depends on the entire history", "anchors": ["src/repast4py/SpatialTree.h: CPSpatialTree, SOItems, MOItems", "src/repast4py/SpatialTree.cpp", "src/repast4py/cspace.h: BaseCSpace::move"]}
{"id": "C38", "title": "Neighbourhood finders return the Moore neighbourhood", "statement": "find_Nd_nghs_sticky returns each in-bounds cell of the Moore neighbourhood once; find_Nd_nghs_periodic returns the wrapped Moore neighbourhood, 3^N cells in a fixed order.", "quantifier": "every point of every bounded grid", "why_tests_cant": "all grids and points", "anchors": ["src/repast4py/geometry.py: find_1d_nghs_sticky, find_2d_nghs_sticky, find_3d_nghs_sticky, find_*_periodic"]}
{"id": "C39", "title": "Value layer read-your-writes", "statement": "ValueLayer.set(pt, v) makes get(pt) return v and changes no other location; pt is interpreted under the layer's borders.", "quantifier": "every bounding box (any origin), every point, every border type, every sequence of writes", "why_tests_cant": "all boxes and write histories", "anchors": ["src/repast4py/value_layer.py: ValueLayer, _Impl1D, _Impl2D, _Impl3D"]}
{"id": "C40", "title": "Shared value layers: buffers mirror the neighbours' values", "statement": "After synchronisation each rank reads, for every location of its buffer zone, the value the owning rank holds.", "quantifier": "every number of ranks, extents, buffer sizes, contents; sticky and periodic", "why_tests_cant": "all decompositions", "anchors": ["src/repast4py/value_layer.py: SharedValueLayer._init_buffered_bounds, _init_sync_data_1d, _init_sync_data_2d, _synch_ghosts"]}
{"id": "C41", "title": "Read/write value layer isolation", "statement": "Writes to a ReadWriteValueLayer are invisible to reads until swap_layers, after which precisely the written state is read.", "quantifier": "every sequence of get/set/swap", "why_tests_cant": "all operation sequences", "anchors": ["src/repast4py/value_layer.py: ReadWriteValueLayer"]}
{"id": "C42", "title": "Graph operations", "statement": "add_edge/remove_edge/contains_edge/num_edges/edges agree: the network contains exactly the edges added and not removed (with both orientations identified in undirected networks), and removing a node removes its incident edges.", "quantifier": "every sequence of operations", "why_tests_cant": "all operation histories", "anchors": ["src/repast4py/network.py: SharedNetwork, UndirectedSharedNetwork, DirectedSharedNetwork"]}
{"id": "C43", "title": "Cross-rank edges are mirrored", "statement": "An edge between a local agent and a ghost is present after synchronize on the rank owning the ghost, with its attributes; removing it removes it on both ranks at the next synchronize.", "quantifier": "every set of cross-rank edges, any number of ranks", "why_tests_cant": "all graphs and partitions", "anchors": ["src/repast4py/network.py: SharedNetwork._sync_edges, _sync_removed, remove_edge, add_edge"]}
{"id": "C44", "title": "Network file round trip", "statement": "write_network followed by read_network recreates every node exactly once on the rank written for it, and every edge on the rank(s) of its endpoints with its attributes.", "quantifier": "every graph and rank assignment", "why_tests_cant": "all graphs and partitions", "anchors": ["src/repast4py/network.py: write_network, read_network, _parse_node, _parse_edge, _create_edges"]}
{"id": "C45", "title": "Random partition is balanced and total", "statement": "The random partition assigns each node exactly one valid rank, and no rank gets more than ceil(n/k) nodes, for every shuffle outcome.", "quantifier": "every number of nodes and ranks, every shuffle", "why_tests_cant": "rng outcomes", "anchors": ["src/repast4py/network.py: _random_partition"]}
{"id": "C46", "title": "Logged data sets are complete and independent of buffer size", "statement": "A ReducingDataSet file contains, after close, the header and exactly one row per log(tick) call in call order with the cross-rank reduction of the values recorded at that tick, for every buffer size and number of ranks.", "quantifier": "every log history, every buffer size, any number of ranks", "why_tests_cant": "all histories and buffer sizes", "anchors": ["src/repast4py/logging.py: ReducingDataSet.log, write, close, ReducingDataLogger.log, reduce"]}
{"id": "C47", "title": "Tabular logging loses nothing", "statement": "TabularLogger output after write contains each rank's rows in logging order, ranks in rank order, no row lost or duplicated across several writes.", "quantifier": "every sequence of log_row and write calls on every number of ranks", "why_tests_cant": "all histories", "anchors": ["src/repast4py/logging.py: TabularLogger"]}
{"id": "C48", "title": "Log files never overwrite existing files", "statement": "The file used by a logger does not exist beforehand: find_free_filename returns the requested name when free, otherwise the first free suffixed name.", "quantifier": "every directory content", "why_tests_cant": "all directory contents", "anchors": ["src/repast4py/util.py: find_free_filename"]}
{"id": "C49", "title": "Parameter override", "statement": "init_params yields, for each key, the value of the command-line parameters if given there, otherwise that of the file, and the random seed is initialised from the resulting random.seed if present.", "quantifier": "every pair of parameter sets", "why_tests_cant": "all inputs", "anchors": ["src/repast4py/parameters.py: init_params", "src/repast4py/random.py: init"]}
{"id": "C50", "title": "Continuous borders land in bounds", "statement": "In a continuous space the location a move leads to is inside the space's bounds; sticky borders do not change a point well inside the bounds, and periodic borders change each coordinate by a multiple of the extent.", "quantifier": "every double-valued point and every bounding box", "why_tests_cant": "all doubles; the failures are at magnitudes tests do not try", "anchors": ["src/repast4py/borders.h: StickyBorders, PeriodicBorders, Offset", "src/repast4py/cspace.h: BaseCSpace::move"]}
{"id": "C51", "title": "A checkpoint taken by an event contains the pending events", "statement": "A checkpoint of the schedule that is saved by an event's callable contains all events that would still be executed: those of later ticks, those of the same tick that have not been executed yet, and all repeating events.", "quantifier": "every schedule, every event from which the checkpoint is saved", "why_tests_cant": "all schedules", "anchors": ["src/repast4py/checkpoint.py: Checkpoint.save_schedule", "src/repast4py/schedule.py: Schedule.execute, ScheduleGroup.execute_evts"]}
{"id": "C52", "title": "Synchronize keeps the location of every agent", "statement": "After synchronize every agent that has a location in a shared grid is local on the rank whose bounds contain that location, at that same location, and is on the grid of no other rank except as a ghost in its buffer.", "quantifier": "every number of ranks and process grid, every history of adds, removals, movements and synchronisations", "why_tests_cant": "all histories and all distributions of agents", "anchors": ["src/repast4py/context.py: SharedContext.synchronize, _gather_oob_data, _process_recv_oob_data", "src/repast4py/space.py: SharedGrid", "src/repast4py/distributed_space.h: DistributedCartesianSpace.move"]}
{"id": "C53", "title": "A logger can be created for every writable path", "statement": "Creating a ReducingDataSet or a TabularLogger for a path whose directory exists or can be made succeeds, and creates a file that contains the header.", "quantifier": "every path and every content of the file system", "why_tests_cant": "all paths", "anchors": ["src/repast4py/logging.py: ReducingDataSet.__init__, TabularLogger.__init__"]}
{"id": "C54", "title": "move_agents keeps the edges of moved agents", "statement": "After move_agents every edge of a moved agent is present, with its attributes, on each rank that owns one of its ends, and can be updated and removed there.", "quantifier": "every network, every set of agents to move, any number of ranks", "why_tests_cant": "all graphs, partitions and movements", "anchors": ["src/repast4py/context.py: SharedContext.move_agents", "src/repast4py/network.py: SharedNetwork._agent_moving_rank, _agents_moved_rank, _post_agents_moved_rank"]}
{"id": "C55", "title": "A random local point is a local point", "statement": "get_random_local_pt of a shared grid or a shared continuous space returns, for any state of the random generator, a point within the local bounds of the rank (and of the space), and every local point (cell) can be returned; moving a local agent there does not make it leave the rank.", "quantifier": "every space, process grid, rank and state of the generator", "why_tests_cant": "all states of the random generator and all partitions of a space", "anchors": ["src/repast4py/space.py: SharedGrid.get_random_local_pt, SharedCSpace.get_random_local_pt"]}
{"id": "C56", "title": "A loop over the agents at a location visits each of them once", "statement": "for a in space.get_agents(pt) visits the agents that were at pt when get_agents was called, each exactly once and in that order, and ends, whatever the loop does with the agents it visits (moves, removals, additions).", "quantifier": "every space with multiple occupancy, every history of additions, removals and moves, every location, every loop body", "why_tests_cant": "all histories and all loop bodies; failures are uses of freed memory, which a test may not notice", "anchors": ["src/repast4py/occupancy.h: MultiOccupancyAccessor::getAll", "src/repast4py/core.h: TAgentIter", "src/repast4py/coremodule.cpp: AgentIter_iter, AgentIter_next", "src/repast4py/spacemodule.cpp: Grid_getAgents, CSpace_getAgents"]}
{"id": "C57", "title": "Agents are identified by the unique id they were created with", "statement": "Agent(id, type, rank) gives an agent with uid (id, type, rank), or raises an error; two agents have the same uid exactly if they were created with the same arguments; the spaces take two agents for the same exactly if their uids are equal, and two locations for the same exactly if their coordinates are. The local_rank of an agent is the one that was set last, and setting it does not change the uid.", "quantifier": "every id, type and rank (any Python integers), every pair of agents and of locations", "why_tests_cant": "all integers, in particular around the limits of the C types", "anchors": ["src/repast4py/core.h: R4Py_AgentID, agent_id_comp", "src/repast4py/coremodule.cpp: Agent_init, Agent_get_uid, Agent_set_local_rank", "src/repast4py/geometry.h: PointComp"]}
{"id": "C58", "title": "The random state survives a checkpoint round trip", "statement": "After save_random and, in another process, restore_random, every program that draws from repast4py.random.default_rng (through the module or through a reference to it) gets the values it would have got in the first process, and reads the same random.seed; random.init with a seed makes two processes get the same values, also from torch.", "quantifier": "every history of both processes, every program, also one whose calls depend on the values it got, every generator", "why_tests_cant": "all histories and programs", "anchors": ["src/repast4py/checkpoint.py: Checkpoint.save_random, restore_random", "src/repast4py/random.py: init"]}
{"id": "C59", "title": "create_loggers logs the requested fields", "statement": "create_loggers makes one logger for each requested field of the dataclass, in the order of the fields, with the requested column names, and raises if a requested field does not exist; a data set with these loggers writes for each call of log the reductions of the values the fields have on the ranks at that call.", "quantifier": "every dataclass, names, reduction operations, number of ranks, buffer size and history of calls", "why_tests_cant": "all dataclasses, names and histories", "anchors": ["src/repast4py/logging.py: DCDataSource, create_loggers, ReducingDataSet"]}
{"id": "C60", "title": "Values saved in a checkpoint are restored", "statement": "restore(key, f) gives what f makes of the value that was last saved with save(key, value), as it was at that time, after the checkpoint was pickled and loaded; a key that was not saved raises.", "quantifier": "every sequence of saves and of changes of the saved objects", "why_tests_cant": "all histories", "anchors": ["src/repast4py/checkpoint.py: Checkpoint.save, restore"]}
{"id": "C61", "title": "Locations returned by a space are values", "statement": "The point that get_location or move returns has the coordinates of the agent at that time and keeps them; points passed to a space are not changed by it; what the program does with points affects the space only through the calls it makes.", "quantifier": "every space (borders, occupancy), every program that keeps, passes on and changes points", "why_tests_cant": "all histories; aliasing shows only in later calls", "anchors": ["src/repast4py/grid.h: BaseGrid::move", "src/repast4py/cspace.h: BaseCSpace::move", "src/repast4py/space.h: BaseSpace", "src/repast4py/spacemodule.cpp: Grid_getLocation, Grid_move, DiscretePoint_get_coords", "src/repast4py/geometry.cpp: create_point, update_point"]}
{"id": "C62", "title": "get_num_agents counts the agents at a location", "statement": "get_num_agents(pt, type) is the number of agents whose location is pt and that have the type, without a type the number of all agents there.", "quantifier": "every space, every history, location and type", "why_tests_cant": "all histories", "anchors": ["src/repast4py/spacemodule.cpp: SharedGrid_getNumAgents, SharedCSpace_getNumAgents"]}
{"id": "C63", "title": "Points compare by their coordinates and can be reset from arrays", "statement": "For points of the same type p == q holds exactly if their coordinates are equal, and p != q is its negation; _reset_from_array(a) sets the coordinates to the elements of the 1D array a (the first three), and leaves the others.", "quantifier": "every pair of points, every array (also slices)", "why_tests_cant": "all points and all memory layouts of arrays", "anchors": ["src/repast4py/spacemodule.cpp: DiscretePoint_richcmp, ContinuousPoint_richcmp, DiscretePoint_reset_from_array, ContinuousPoint_reset_from_array"]}
{"id": "C64", "title": "request_agents returns the requested agents with their states", "statement": "If every requested agent is local on the rank named in the request, request_agents succeeds on all ranks and returns on each rank exactly the agents that the rank requested; they are ghosts there afterwards and have the state that their owner has at the call. A request for an agent that is not on the named rank raises an exception.", "quantifier": "every number of ranks, every state of the contexts (with any projections), every list of requests on each rank", "why_tests_cant": "all populations, all earlier requests and all combinations of requests on all ranks at once", "anchors": ["src/repast4py/context.py: SharedContext.request_agents, _send_requests, _add_ghost", "src/repast4py/core.py: AgentManager.tag_as_ghosted, add_req_ghost"]}
{"id": "C65", "title": "An exception in an event leaves the schedule usable", "statement": "If the callable of a scheduled event raises, and the model catches the exception and executes the schedule again, the events that were waiting for later ticks still run, each at its tick.", "quantifier": "all histories of schedule calls, all event callables, whichever event raises and after whatever calls it made, and all continuations", "why_tests_cant": "the schedule's behaviour after an exception depends on the state in which every prefix of the history and every partially executed tick leaves it; tests raise in one place", "anchors": ["src/repast4py/schedule.py: ScheduleGroup.execute, ScheduleGroup.execute_evts, ScheduleGroup.reset, ScheduleGroup.add_evt, Schedule.execute"]}
{"id": "C66", "title": "No agent is a local agent and a ghost on the same rank", "statement": "When synchronize moves an agent that has left a rank's bounds to the rank that owns its new location, the agent is a local agent of that rank afterwards and no longer a ghost there, even if that rank had requested it.", "quantifier": "all numbers of ranks, all bounded projections, all states of the ranks in which no agent is both, and all agents that move out of bounds", "why_tests_cant": "The case needs a request and a later movement across the bounds of two ranks; the tests request agents or move them, and never ask afterwards for both collections.", "anchors": ["src/repast4py/context.py: SharedContext.synchronize, move_agents, _process_recv_oob_data, _agents_moved", "src/repast4py/core.py: AgentManager.delete_ghost"]}
{"id": "C67", "title": "A data source that raises does not spoil the data set", "statement": "If reading a data source raises an exception during ReducingDataSet.log and the program catches it and goes on, then the rows logged before and after that call are still written by write and close, each with its own values, and write does not raise.", "quantifier": "all data sets of one process, all columns and buffer sizes, all histories of log and write in which any data sources raise at any calls", "why_tests_cant": "A test fixes one source, one failing call and one continuation; the claim is about every history before and after the exception.", "anchors": ["src/repast4py/logging.py: ReducingDataSet.log, ReducingDataSet.write, ReducingDataLogger.log, ReducingDataLogger.reduce"]}
{"id": "C68", "title": "A loop over the agents of a context may add and remove agents", "statement": "for a in context.agents(...) visits the agents that agents() lists when it is called, each once and in that order, and raises nothing, whatever the body of the loop adds to and removes from the context.", "quantifier": "every history of a context, every type, count and shuffle argument, every loop body (any sequence of add, remove and moves to other ranks, depending on anything that happened before)", "why_tests_cant": "whether a body disturbs the iteration depends on which agents it touches at which point of the loop; a body that is harmless with one agent, or for the last agent, raises with more", "anchors": ["/repo/src/repast4py/context.py: SharedContext.agents, add, remove", "/repo/src/repast4py/core.py: AgentManager._local_agents, add_local, delete_local, remove_local"]}
{"id": "C69", "title": "Agents that walk over a border keep their edges", "statement": "In a context with a shared space and a network, synchronize does not raise, and after it every edge between agents is present, with its attributes, on each rank that owns one of its ends, also when some of these agents have left the bounds of their rank and have been moved to another rank.", "quantifier": "all numbers of ranks, all shared spaces and buffer sizes, both orders in which the projections are added, all histories of adds, removals, moves in the space, edges, requests and synchronizations", "why_tests_cant": "Whether an edge survives depends on where its ends are, which rank added it, whether an end is in a buffer, and on what moves in the same tick and the ticks before; tests fix a few such cases, and the tests of the project use spaces and networks apart.", "anchors": ["src/repast4py/context.py: SharedContext.synchronize, _gather_oob_data, _agents_moved", "src/repast4py/network.py: SharedNetwork._agent_moving_rank, _agents_moved_rank, _post_agents_moved_rank, _sync_vertices, _pre_synch_ghosts", "src/repast4py/space.py: SharedGrid._pre_synch_ghosts, _process_recv_data", "src/repast4py/core.py: AgentManager.add_ghost, remove_ghost"]}
{"id": "C70", "title": "A projection may be added after the agents", "statement": "add_projection puts every agent that is in the context into the projection. A model that adds agents, moves and links them and then adds a projection has the same contexts, and the same behaviour from then on, as one that has added the projection before all this.", "quantifier": "all numbers of ranks, all contexts with any number of shared spaces and networks, all histories before and after the call", "why_tests_cant": "The call changes the reference counts of the ghosts, which decide calls of synchronize much later; whether they are right depends on the history before and after.", "anchors": ["src/repast4py/context.py: SharedContext.add_projection, add, remove, synchronize", "src/repast4py/core.py: AgentManager.add_ghosts_to_projection", "src/repast4py/space.py: SharedGrid.add, SharedCSpace.add", "src/repast4py/network.py: SharedNetwork.add"]}
{"id": "C71", "title": "Projections are found by their names", "statement": "get_projection returns the projection that has been added with the name, and raises a KeyError if there is none. add_projection raises a ValueError exactly if there is a projection with this name, changes nothing then, and otherwise changes what get_projection returns for this name only.", "quantifier": "all sequences of calls, all names, all kinds of projections", "why_tests_cant": "The claim is about every order in which projections are added, including calls that raise in between.", "anchors": ["src/repast4py/context.py: SharedContext.add_projection, get_projection"]}
{"id": "C72", "title": "Ranks may run at any speed", "statement": "The ranks run at their own speed and wait for each other only in the calls of MPI. If all ranks call synchronize (with the same sync_ghosts), request_agents and move_agents in the same order, then, whatever the speed of the ranks, they do not wait for each other for ever, and unless a rank raises an exception each of them finishes with the context that it has when the ranks take turns: the result does not depend on how the steps of the ranks interleave.", "quantifier": "all numbers of ranks, all models (what a rank does may depend on what it finds in its context), all interleavings of the steps of the ranks", "why_tests_cant": "A test runs with one interleaving out of a number that grows exponentially; a collective call that only some of the ranks reach shows up as a deadlock only in particular states.", "anchors": ["src/repast4py/context.py: SharedContext.synchronize, request_agents, move_agents, _agents_moved, _update_ghosts", "src/repast4py/network.py: SharedNetwork._synch_ghosts, _pre_synch_ghosts, _agents_moved_rank, _post_agents_moved_rank", "src/repast4py/space.py: SharedGrid._synch_ghosts, SharedCSpace._synch_ghosts"]}
{"id": "C73", "title": "Ranks that schedule their stop at the same tick stop together", "statement": "If every rank calls runner.schedule_stop(T) with the same T before runner.execute(), that stop is not voided and nobody stops earlier, then the run never hangs: at any moment either every rank has returned from execute() or some rank can go on; no rank executes a tick after T and every rank that leaves execute()'s loop has executed tick T. If the ranks do not stop at the same tick, the ones that would stop later are left waiting for ever: no rank goes beyond the tick of the first stop, and a rank that only stops later never returns.", "quantifier": "every number of ranks, every schedule on each rank, every callback (including callbacks that schedule, void and stop), every interleaving of the ranks, every state reachable in any number of steps", "why_tests_cant": "Whether ranks wait for each other for ever depends on the interleaving and on what each rank's callbacks do; a test can only see that one run ended, not that no run of any model hangs, and a hang is not observable in finite time.", "anchors": ["src/repast4py/schedule.py: SharedScheduleRunner.schedule_stop, stop, execute, Schedule.next_tick, Schedule.execute"]}
{"id": "C74", "title": "Events that synchronize do not make the ranks wait for ever", "statement": "If all ranks schedule the events that call collective functions (synchronize, request_agents, move_agents) and the stops alike, then runner.execute() never waits for ever, whatever else each rank schedules for itself, whatever its other events do, and whatever speeds the ranks have: all ranks get through every iteration of its loop and through the end events, unless an exception is raised, with results that do not depend on the speeds.", "quantifier": "for every number of ranks, all calls that schedule collective events alike on all ranks, all other calls of each rank, all random numbers, all callables, all interleavings of the ranks", "why_tests_cant": "A test runs a few schedules at the speeds that the machine happens to have; whether the reductions of the runner and the operations of the events pair up on all ranks depends on every event, every random order within a tick and every interleaving.", "anchors": ["src/repast4py/schedule.py:SharedScheduleRunner.execute", "src/repast4py/schedule.py:Schedule.execute", "src/repast4py/schedule.py:ScheduleGroup.sort", "src/repast4py/context.py:SharedContext.synchronize", "src/repast4py/context.py:SharedContext.request_agents"]}
{"id": "C75", "title": "Loggers work whatever the speeds of the ranks, and beside each other", "statement": "Any number of data sets and tabular loggers may be created and used in any order in one model: if all ranks do the same calls of their collective functions, then, whatever the speeds of the ranks and whether or not MPI makes the ranks other than 0 wait in the reductions and gathers, all ranks get through all calls without waiting for ever, each logger writes to a file of its own that did not exist before, and each file holds the rows of its own logger as if it were the only one.", "quantifier": "for every number of ranks, every file system, every history of creating, logging and writing of any number of data sets and tabular loggers, all values, all interleavings of the ranks, also those in which a rank is many writes ahead of rank 0", "why_tests_cant": "A test has a few ranks on one machine with one MPI library; in which order the ranks get through the reductions, and how far the ranks other than 0 run ahead, depends on the library and on the machine.", "anchors": ["src/repast4py/logging.py:ReducingDataSet", "src/repast4py/logging.py:ReducingDataLogger.reduce", "src/repast4py/logging.py:TabularLogger", "src/repast4py/util.py:find_free_filename"]}
{"id": "C76", "title": "Agents, value layers and loggers of a whole model do not disturb each other", "statement": "A model may use a context with spaces and networks, value layers that belong to the context, data sets and tabular loggers together, in any order, and what a rank does may depend on anything it has (its agents, edges, places, values, rows). If all ranks call the same collective functions, then, whatever the speeds of the ranks, all get through all calls; the agents, places and edges are what they would be without value layers and loggers, each value layer is what it would be without agents and other layers, and the files hold what they would hold without either. `synchronize` and `move_agents` synchronize each value layer. Exceptions are those of the parts.", "quantifier": "for every number of ranks, all spaces, networks, value layers, data sets and tabular loggers, every sequence of calls with arguments that depend on what the rank has, every interleaving of the ranks, also those in which ranks other than 0 do not wait in reductions and gathers", "why_tests_cant": "The collective calls of value layers come in between those of the context in `synchronize` and `move_agents`, and those of loggers anywhere; a test runs a few models with one interleaving each.", "anchors": ["src/repast4py/context.py:SharedContext.synchronize", "src/repast4py/context.py:SharedContext._synch_ghosts", "src/repast4py/context.py:SharedContext.move_agents", "src/repast4py/context.py:SharedContext.add_value_layer", "src/repast4py/value_layer.py:SharedValueLayer._synch_ghosts", "src/repast4py/logging.py:ReducingDataSet", "src/repast4py/logging.py:TabularLogger"]}
{"id": "C77", "title": "Shared value layers are one matrix; read/write layers show what was written before the swap", "statement": "If the ranks set only locations in their own bounds, then on the rank that owns a location `get` returns the last value that it was given, and on a rank that has it in its buffer the last value that it was given before the last synchronization. `get_nghs` of a location in the local bounds returns the locations around it in the whole layer, those of other ranks too, with the values that `get` returns. For a `ReadWriteValueLayer` on several ranks, after all ranks swap and synchronize, in either order, all ranks read what the owners have written, and before that what was there; this holds for whatever each rank does, at any speed. A read/write layer that is added to a context is synchronized with it.", "quantifier": "for every number of ranks, extents, buffer sizes, every sequence of get, set, get_nghs, swap_layers on any ranks and of synchronizations, every speed of the ranks", "why_tests_cant": "What a rank reads depends on all writes of all ranks, on the synchronizations and swaps in between and on the decomposition; a test has a few of them.", "anchors": ["src/repast4py/value_layer.py:SharedValueLayer", "src/repast4py/value_layer.py:SharedValueLayer._synch_ghosts", "src/repast4py/value_layer.py:ReadWriteValueLayer", "src/repast4py/value_layer.py:ReadWriteValueLayer.swap_layers", "src/repast4py/value_layer.py:ReadWriteValueLayer._synch_ghosts", "src/repast4py/context.py:SharedContext.add_value_layer", "src/repast4py/context.py:SharedContext._synch_ghosts"]}
{"id": "C78", "title": "End events run once each, also if one raises or execute is called again", "statement": "Every end event that is not voided runs exactly once in the life of a runner: if one of them raises an exception the others still run, at the latest when the model catches the exception and calls `execute` again, and those that have run do not run again then, or when `execute` is called again after it has returned. No tick and no other event runs after the runner has been stopped, however often `execute` is called.", "quantifier": "for every schedule, every choice of end events that raise, every sequence of API calls, exceptions and further calls to execute", "why_tests_cant": "Which end event raises, what is scheduled or voided in between and how often execute is called again is unbounded; the tests call execute once and nothing raises.", "anchors": ["src/repast4py/schedule.py:SharedScheduleRunner.execute", "src/repast4py/schedule.py:SharedScheduleRunner.schedule_end_event", "src/repast4py/schedule.py:SharedScheduleRunner.stop"]}
{"id": "C79", "title": "A topology divides the space evenly and tells each rank where it is", "statement": "The parts of a space that the ranks get are equally large, up to one, in each dimension; the parts of ranks next to each other are next to each other, the first begins and the last ends where the space does. `procs_per_dim` has one entry for each dimension and their product is the number of ranks. `coordinates` has one entry for each dimension, and is the place of the rank in the grid of processes: different for different ranks.", "quantifier": "for every space of one to three dimensions, extents and origin, every grid of processes, every pair of ranks and every content of uninitialized memory", "why_tests_cant": "It has to hold for all extents and process grids, including those where the extents are no multiples of the number of processes; what is in uninitialized memory is different from run to run.", "anchors": ["src/repast4py/distributed_space.cpp:CartesianTopology::getBounds", "src/repast4py/distributed_space.cpp:CartesianTopology::getCoords", "src/repast4py/spacemodule.cpp:CartesianTopology_getCartCoords", "src/repast4py/spacemodule.cpp:CartesianTopology_procsPerDim", "src/repast4py/spacemodule.cpp:CartesianTopology_getLocalBounds"]}
{"id": "C80", "title": "A space keeps the agents in it alive, and only these", "statement": "A grid or continuous space identifies agents by their unique id: calls with any object of an agent are about that agent. As long as an agent is in the space, the space keeps the object that was added alive; when it was removed, the space has no reference to it any more. All objects that `get_agent` and `get_agents` return are agents in the space.", "quantifier": "for every sequence of calls of the methods of a space, every assignment of unique ids to objects, every kind of borders and occupancy", "why_tests_cant": "A reference that is not dropped shows only as memory that grows; one dropped too many shows as a crash at some other place. That counts are right has to hold after every history of adds, moves and removes.", "anchors": ["src/repast4py/space.h:BaseSpace::add", "src/repast4py/space.h:BaseSpace::remove", "src/repast4py/grid.h:BaseGrid::move", "src/repast4py/cspace.h:BaseCSpace::move", "src/repast4py/occupancy.h:MultiOccupancyAccessor", "src/repast4py/occupancy.h:SingleOccupancyAccessor"]}
{"id": "C81", "title": "Repeating events keep to their multiples, and time goes on, for fractional ticks", "statement": "A repeating event that starts at tick s and has interval i runs at the ticks s, s + i, s + 2i, ... as numbers: run n is in the same tick as the events scheduled for the number s + n*i, and before a stop scheduled after it. Each run is at a later tick than the one before, and events scheduled for later ticks are reached.", "quantifier": "every start and interval that are doubles, every n, every history of calls and callbacks", "why_tests_cant": "Ticks are doubles and each addition rounds; whether run n is at the number expected depends on all roundings before it, and a tick at which adding the interval has no effect is far beyond those that tests use.", "anchors": ["src/repast4py/schedule.py: RepeatingEvent.reschedule", "src/repast4py/schedule.py: Schedule.schedule_repeating_event", "src/repast4py/schedule.py: Schedule.execute"]}
{"id": "C82", "title": "A run with a stop ends", "statement": "If every rank calls schedule_stop(T) before execute(), execute() returns on all ranks after finitely many steps, in whatever order the ranks go on, when repeating events move on in time and callbacks do not keep scheduling events for their own tick or end events for ever.", "quantifier": "every number of ranks, every setup, every history of callbacks and random draws, every interleaving of the ranks", "why_tests_cant": "A test that passes shows that one interleaving of one model ends; that no order of the steps of the ranks goes on for ever, and which callbacks make it do so, concerns unboundedly long executions.", "anchors": ["src/repast4py/schedule.py: SharedScheduleRunner.execute", "src/repast4py/schedule.py: SharedScheduleRunner.schedule_stop", "src/repast4py/schedule.py: Schedule.execute", "src/repast4py/schedule.py: ScheduleGroup.execute"]}
{"id": "C83", "title": "When execute() has returned, everything that was due has been done", "statement": "If a rank calls schedule_stop(T) before execute(), and is not stopped earlier, then when execute() has returned there, whatever the other ranks do, the clock is at T, every accepted one-time event that was not voided has run exactly once at its tick if that is not after T and not at all otherwise, every repeating event has run exactly at those of its ticks that are not after T, and every end event that was not voided has run once, in the order in which they were scheduled.", "quantifier": "every number of ranks, every setup, every history of callbacks and random draws, every interleaving of the ranks", "why_tests_cant": "It relates each event of an arbitrary history, including those scheduled by callbacks, to the final state, for every interleaving of the ranks.", "anchors": ["src/repast4py/schedule.py: SharedScheduleRunner.execute", "src/repast4py/schedule.py: Schedule.execute", "src/repast4py/schedule.py: ScheduleGroup.execute", "src/repast4py/schedule.py: RepeatingEvent.reschedule", "src/repast4py/schedule.py: SharedScheduleRunner.schedule_end_event"]}
{"id": "C84", "title": "The speeds of the ranks do not change what a run does", "statement": "The ranks execute their schedules independently between the reductions that agree on the next tick. For callbacks that depend on what has happened on their own rank and on its random draws, the order in which the ranks take their steps does not matter: if execute() returns on all ranks in one order, it does so in every order, and on each rank exactly the same events have run at the same ticks in the same order, with the same draws. At every moment on the way, what has happened on a rank is a beginning of that.", "quantifier": "every number of ranks, every setup, every callbacks and random draws, every two interleavings of the ranks", "why_tests_cant": "A test runs with the interleaving that the machine happens to choose; reproducibility says that all of the exponentially many interleavings have the same result.", "anchors": ["src/repast4py/schedule.py: SharedScheduleRunner.execute", "src/repast4py/schedule.py: Schedule.execute", "src/repast4py/schedule.py: ScheduleGroup.execute"]}
{"id": "C85", "title": "Other ranks make a rank wait and do nothing else to it", "statement": "What happens on a rank, that is which events run at which ticks in which order with which draws, is determined by the calls made on that rank, its callbacks and its random draws. Other ranks, their number, what they schedule and when they stop have no influence on it, except that they can make it wait for ever: in any two runs that have such a rank in common, one of its histories is a beginning of the other, and they are equal if execute() has returned on it in both. In particular a rank does the same beside others as alone.", "quantifier": "every two runs with any numbers of ranks, every setup, every callbacks and random draws, every interleaving, at every moment", "why_tests_cant": "It compares a run with all runs that have other ranks beside one, of which there are infinitely many; a value taken from another rank where it happens to be equal to one's own shows in none of the tests.", "anchors": ["src/repast4py/schedule.py: SharedScheduleRunner.execute", "src/repast4py/schedule.py: Schedule.execute", "src/repast4py/schedule.py: Schedule.next_tick"]}
{"id": "C86", "title": "When a rank crashes, the others do not run ahead", "statement": "If a rank takes no further step, because its process has crashed, an exception has ended it or a callback does not return, then no other rank goes on with later ticks: however long it runs, another rank starts only the tick on which the ranks have already agreed, and one more if the rank crashed while it was taking part in the agreement. What it has done then is a beginning of what it would have done without the crash, and in the end it has returned from execute() or waits for the crashed rank.", "quantifier": "every number of ranks, every setup, every callbacks and random draws, every interleaving, every crash point and every continuation of the other ranks", "why_tests_cant": "It is about all crash points and all unboundedly long continuations of the surviving ranks; a test would have to kill a rank at each of them and wait for ever.", "anchors": ["src/repast4py/schedule.py: SharedScheduleRunner.execute", "src/repast4py/schedule.py: Schedule.execute"]}
