# Formal model of repast4py in Lean 4 — design

The properties are listed in `properties.jsonl` (C01 …). The Lean project is in `lean/`; the mapping from properties to
theorems is `MANIFEST.json`; seeded-bug experiments are logged in `seeded/LOG.jsonl`.

## Conventions

* One folder per area under `lean/Verif/`: `Model.lean` (definitions, each citing the `/repo` lines it models),
  `Lemmas*.lean` (helpers), `Spec.lean` where a property needs vocabulary of its own, `Props.lean` (the property theorems
  with non-vacuity `example`s).
* All definitions are total and computable; Python/C++ exceptions are values (`Option`/`Except`), pointers and mutation become
  returned state, loops become structural recursion or, where they may not terminate, are iterated an arbitrary number `n` of
  times with the theorem quantified over `n`.
* User callbacks are arbitrary: a callback is a function from the observable history to a list of API calls.
* The random generator is arbitrary: every draw is a parameter (oracle); theorems quantify over it.
* MPI collectives are modelled by their defining equations (allreduce MIN, alltoall = transpose, gather = concatenation in rank order). In the models of contexts all ranks take part in a collective call at once; C72 shows that ranks that run at their own speed and wait for each other only in these calls do the same.
* Ticks, priorities and continuous coordinates are used by the code through comparisons and (for repeating events) an addition.
  The finite and infinite IEEE doubles are order-isomorphic to a finite set of integers (±0 identified), so tick *order* is modelled by `Int`
  and the rounding addition `at += interval` by an arbitrary function `adv : Int → Int → Int`; NaN is `none : Option Int`.

* Continuous coordinates are exact rationals (`Rat`); the theorems `C50_rounding_*` show what double rounding adds.
* Text is `List Char`; dictionaries are association lists in insertion order, as in Python; objects with identity (agents as nodes of a
  networkx graph, attribute dictionaries shared by references) are numbered, because the code compares and shares them by identity.
* An exception (or C++ undefined behaviour) anywhere makes the whole model step `none`. Theorems that say "succeeds" show that it is `some`;
  theorems about histories that may raise say what holds after the last operation that did not.
* If the code violates a property, a theorem `Cxx_violation…` (or another name without `_partial`) shows it for a concrete history, usually for
  all values that do not matter; the theorem with the suffix `_partial` says what does hold, and its hypotheses exclude the violations.

## Properties: what is modelled, and how it is proved

| Id | Model | Modules (`lean/Verif/`) | Proof shape |
|---|---|---|---|
| C01–C11 | `Schedule`, `ScheduleGroup`, events, `SharedScheduleRunner` as a state machine with arbitrary callbacks | `Schedule/` | invariants by induction over histories |
| C12–C13 | ranks running `SharedScheduleRunner.execute`, interleaved in any order, which wait for each other in the reduction only | `Schedule/World*` | invariant; violations for `schedule_stop` and empty schedules |
| C14 | `heapq.heappush/heappop` on arrays | `Heapq/` | refinement to a sorted list |
| C15–C17, C51 | `save_schedule`/`restore_schedule` | `Checkpoint/Model, Lemmas, Props, During` | round trip |
| C18 | `save_agents`/`restore_agents` | `Checkpoint/Agents` | round trip |
| C19 | `save_space`/`restore_space` for grids and continuous spaces | `Checkpoint/Space, CSpace` | round trip after every history |
| C20 | `save_network`/`restore_network` | `Checkpoint/Network*` | round trip between specification states of C43 |
| C21–C23 | `AgentManager` and `SharedContext` on one rank | `Context/Dict, Model, Views, LocalProps, Requested`, `Network/Requested` | invariants, refinement to an abstract population |
| C24–C26, C52 | several ranks with alltoall, grids | `Context/World, WorldProps, Violations` | invariants over exchanges |
| C24–C26, C36, C52 | contexts with one shared space on several ranks | `Context/Kind` (what is required of a space), `OneRank … OneProps` (any such space), `GridKind, OneGrid` (grids), `CSpace, CSpaceView, CSpaceKind, OneCSpace` (continuous spaces) | simulation of a specification (`Sit`) that only knows each agent's rank, state and location |
| C24–C26, C36, C52 | contexts with several shared spaces on several ranks | `Context/ManyKind` (what is required of the first space and of the others), `GridLoose` (grids that agents are left behind in), `ManyRank … ManyProps` (any such spaces), `SumSpace, ManyContext` (grids and continuous spaces in one context) | simulation of a specification (`Many`) that only knows each agent's rank, state and locations |
| C55 | `get_random_local_pt` | `Context/RandomPt` | arithmetic on bounds |
| C56 | `get_agents` iterators on the agent lists of a space, and lists of pointers without references, with calls in the loop | `Space/Iter*`, `Space/Snapshot` | refinement of the heap of lists to the model of C29, induction over the rest of the list that the iterator has not visited |
| C57 | memory of an agent id, constructor, `agent_id_comp`, `PointComp` | `Core/Agent` | arithmetic modulo 2^32, strict weak orders |
| C58, C60 | `random.init`, `save_random`, `restore_random`, `save`, `restore`, with generators as arbitrary machines and objects on a heap | `Checkpoint/Random` | simulation of the two processes |
| C59 | `DCDataSource`, `create_loggers`, with the data set of C46 | `Files/Sources` | composition with C46 |
| C61 | a space with its point objects, and programs that keep, pass and change points | `Space/Points` | refinement to the model of C29 with values |
| C62 | `get_num_agents` | `Space/Count` | from C29 |
| C63 | `richcmp` with Python's `==` and `!=`, `_reset_from_array` on arrays in memory | `Core/Point` | case analysis |
| C64 | `request_agents` with the lists it returns | `Context/Returned` | induction over the requests and the messages |
| C65 | exceptions in events | `Schedule/Raise`: `execute_evts` and `execute` with callables that raise | the executing flag is an invariant after an exception |
| C66 | agents that arrive where they are ghosts | `Context/Apart`, `Context/ApartMove` | invariant (no agent is both) of the steps of `synchronize` and, with nobody out of bounds, of `move_agents`; a concrete violation for `move_agents` |
| C67 | `ReducingDataSet` of one process with data sources that raise | `Files/Raise` | invariant: a column with fewer values than ticks, kept by every call |
| C68 | `Verif/Context/Loops.lean`: the iterator of an OrderedDict (next key, modification count) as in CPython, loops with arbitrary bodies over the context model; induction over the loop. Violated by bodies that remove agents; the exact condition is proved. |
| C69 | `Verif/Mixed`: contexts with shared spaces and networks, composed of the models of `Verif/Network` (agent manager, networks) and `Verif/Context` (spaces), in both orders of the projections; `synchronize`, `request_agents` and `move_agents` (`Mixed/MoveInv`, `MoveProps`, for C24 and C54). Violated, concrete histories. For the agents and their locations: invariant over histories of calls that do not raise (`C24_grid_networks_partial`, `C52_grid_networks_partial`). Without a buffer: the world restricted to agents and networks is the one of `Verif/Network` with `move_agents` for each agent that walks over a border (`Verif/Mixed/Lift`, `Walk`, `Roam`), so the invariant of C54 applies. |
| C70 | `Verif/Mixed/Late`, `Verif/Mixed/LateBoth` (grids and continuous spaces in one context): `add_projection` of a network or space to the contexts of `Verif/Mixed`. Simulation: adding the projection commutes with every call before the first `synchronize` (`Ext`, `run_ext`), so it can be brought to the beginning. Violated with ghosts in buffers, concrete histories. |
| C71 | `Verif/Mixed/Names`: the dictionaries of projections. Invariant over sequences of calls. |
| C72 | Ranks are programs that stop at each MPI call of the source (named by file and line) and continue with the contributions of all ranks; a step lets any one rank enter or leave a call. For ranks whose calls match, by induction on the rounds of calls: every interleaving is bounded, ends only when all have finished, and has the results of the model in which all ranks take part in a call at once. The programs of `synchronize`, `request_agents`, `move_agents` are then shown to match, and to have the results of the world functions of `Verif/Network`, `Verif/Mixed` and `Verif/Context`. |
| C73 | Schedule/Stop, Schedule/StopProps: world of n ranks of C12/C13; invariant 'nobody has got T yet, or everybody has T, is executing T or is stopped at T', from C02 (the stop event runs at its tick); deadlock freedom by cases; violation by a two-rank witness and the theorem that a waiting rank stays when another has left |
| C74 | `Mpi/Runner`: `execute` (schedule.py:612-624) as a program with collective operations, whose events run the programs of C72; induction over the iterations with the invariant that the collective events that are queued are the same on all ranks (`Mpi/RunRanks`), which one tick keeps whatever else a rank does (`Schedule/Collective`); if collective events schedule more of them, what the ranks have in common is followed step by step (`Board` in `Mpi/RunMore`); then C72's theorem about programs that call the same operations in the same order. `Mpi/WholeRun` does the same for the whole models of C76: what a rank does by itself keeps the shape of its value layers and loggers. Violations by concrete runs in which two ranks are in different operations. |
| C75 | `Mpi/Logs`: the functions of `ReducingDataSet` and `TabularLogger` as programs of one rank (logging.py:125-143, 260-411); the state of all ranks together is that of C46 and C47 for any number of loggers. `Mpi/Rooted`: operations with a root, in which the ranks other than 0 need not wait; theorem: programs that call the same operations in the same order finish with the same results at any pace. Then: files of different loggers are different, so each logger does what it does alone, and C46/C47 give the contents. |
| C76 | `Mpi/Layers`: `SharedValueLayer.__init__` and `_synch_ghosts` as programs of one rank. `Mpi/MixFront`: `move_agents` up to the synchronization of the value layers. `Mpi/Whole`: the state of a rank is its context, value layers and loggers; turns of all three, whose arguments depend on the whole state; each turn is in step (`Lock`) with the functions of the three parts one after the other. Then: projections of histories to contexts, layers and files. |
| C77 | `ValueLayer/Matrix`: what each rank should have where is a function of the history (`wants`, `rwWants`; `lastSet` and `synched` for layers in which owners write); `Has` is the refinement, kept by each call and by `_synch_ghosts` (from C40). `nghsOf_buf`: neighbourhoods in the buffered bounds are those of the whole layer. `Mpi/ReadWrite`: read/write layers as programs of one rank, in step (`Lock`) with the functions on all ranks. |
| C78 | end events that raise, `execute` called again | `Schedule/Again`: the steps of `Schedule/Model` with end events that raise and with further calls to `execute` | `Later`: what a step can do once the runner has stopped; `pass`: a pass over the end events that comes to its end has called all; `Blocks`: an invariant for those behind one that raises |
| C79 | `Topology/Attributes`: the attributes of `CartesianTopology`; a vector is its size, its capacity and the memory from its beginning on, with arbitrary content. Arithmetic of the cuts of C33. |
| C80 | `Space/Refs`: a space of objects, each with a unique id, and a counter of references per object; simulation by the space of unique ids (`Same`), and an invariant relating the counters to it (`Counted`). |
| C81 | `Schedule/Doubles`: the values of bit patterns are an order embedding that is onto the results of rounded sums; C03 instantiated with rounded addition; `Tree/RoundBounds` for the rounding. |
| C82 | the ranks of C12–C13, with possible steps | `Schedule/Ends` | a measure on the states of all ranks (ticks left, calls that lengthen a loop left, place in the loop, end events left) that every possible step decreases; the reduction decreases it because some rank enters the tick, for which nothing is pending at the current tick (`Late`) |
| C83 | the same | `Schedule/Done` | C02, C03 and C11 at the final state of a rank; its clock is at T because the stop is pending until T (`own_notPast`) |
| C84 | the same | `Schedule/Confluent` | two steps that can both be taken are of different ranks and commute (`diamond`); the usual argument from this to one final state and one length (`Path.first`, `Path.rest`) |
| C85 | the same | `Schedule/Alone` | all steps of a runner respect equality up to `next_tick` (`step_eqn`); each rank is on the orbit of its own deterministic steps (`on_orbit`), on which the history only grows and a finished runner stays |
| C86 | the same, with a rank that takes no more steps | `Schedule/Crash` | ticks started plus ticks that may still be started (`left`) do not grow in any step of another rank |
| C27–C28, C50 | `StickyBorders`, `PeriodicBorders` | `Space/Geom, BorderProps`, `Tree/Model, Rounding` | arithmetic |
| C29–C32 | `BaseSpace`, `BaseGrid`, occupancy accessors | `Space/` | refinement to a map from agents to locations |
| C33–C36 | `CartesianTopology`, `DistributedCartesianSpace`, buffers | `Topology/`, `Context/CSpaceQueue` | arithmetic on bounds; invariant for the out-of-bounds queue |
| C37 | `CPSpatialTree` with SO/MO items, `BaseCSpace` | `Tree/` | tree invariant, refinement to a map from agents to points |
| C38 | `geometry.py` finders | `Geometry/` | list characterisations |
| C39–C41 | value layers | `ValueLayer/` | arithmetic, frame properties |
| C42 | `SharedNetwork` family on one rank | `Network/Graph*, Model` | refinement to edge sets |
| C43, C25, C54 | networks on several ranks | `Network/Net*, Rank*, Merge, Violations` | simulation: every rank has the view that the specification `sstep` says, for the histories of `Legal` (`NetSpec.lean`), and with movements of `Covered` (`NetHist.lean`) |
| C26, C25, C43 | networks on several ranks, with removals | `Network/Bury*` | simulation by steps: what the ranks have is what they would have if the removed agent had vanished from all ranks at once, plus what is left of it (ghosts, nodes, edges, bookkeeping) until `synchronize` removes it |
| C44 | `write_network`/`read_network` on text | `Network/File*, Dup*` | round trip |
| C45 | rank assignment from a partition | `Network/Partition` | counting |
| C46–C48, C53 | loggers, `find_free_filename` | `Files/Model, Logging, Free` | induction over histories |
| C49 | `init_params` | `Files/Params` | decision logic |

## Results

For each property: the status, what is missing or violated, and the theorems with the axioms they depend on
(p = `propext`, c = `Classical.choice`, q = `Quot.sound`, - = none). Written by `tools/design.py`.

<!-- results -->

### C01 Simulated time never goes backwards: proved

Under the interval hypothesis of the statement; C01_negative_interval shows the hypothesis is needed.

* `Repast.Schedule.C01_time_monotone` [cqp]
* `Repast.Schedule.C01_runs_at_own_tick` [cqp]
* `Repast.Schedule.C01_negative_interval` [qp]

### C02 A one-time event runs exactly once, at its tick: proved

C02_one_time covers events for a future tick and events added by a running event.

* `Repast.Schedule.C02_one_time` [cqp]
* `Repast.Schedule.C02_at_most_once` [cqp]
* `Repast.Schedule.C02_nothing_else` [cqp]

### C03 A repeating event runs at start, start+interval, start+2*interval, ...: proved

Occurrence times are iterated float addition (Env.adv).

* `Repast.Schedule.C03_repeating` [cqp]
* `Repast.Schedule.C03_all_due` [cqp]

### C04 Events scheduled in the past are ignored: proved

* `Repast.Schedule.C04_no_effect` [qp]
* `Repast.Schedule.C04_no_effect_stop` [qp]
* `Repast.Schedule.C04_never_runs` [cqp]
* `Repast.Schedule.C04_accepted_not_past` [cqp]

### C05 FIRST before RANDOM/BY_PRIORITY before LAST within a tick; FIRST and LAST in scheduling order: proved

C05_known says which events are not known when the earlier one ran.

* `Repast.Schedule.C05_class_order` [cqp]
* `Repast.Schedule.C05_known` [cqp]

### C06 BY_PRIORITY events run in priority order: partial

The code violates the property after a same-tick interruption with RANDOM events left over (C06_violation); proved for ticks without such an addition or without NaN priorities.

* `Repast.Schedule.C06_priority_order_partial` [cqp]
* `Repast.Schedule.C06_violation` [qp]
* `Repast.Schedule.C06_sort_forced` [p]

### C07 RANDOM events: every event of the tick runs, whatever the random generator returns: proved

Exactly-once for every generator outcome is C02_one_time/C03_repeating (they quantify over the generator); C07_every_order is the existence part, for callables that make no API calls.

* `Repast.Schedule.C07_every_order` [cqp]

### C08 An event scheduled by a running event for the current tick runs in that tick: proved

* `Repast.Schedule.C08_same_tick` [cqp]

### C09 A voided event never runs again: proved

* `Repast.Schedule.C09_voided_never_runs` [cqp]
* `Repast.Schedule.C09_not_rescheduled` [qp]

### C10 No accepted event is ever dropped: partial

The code drops events accepted for the current tick outside execution (C10_dropped); everything else is never dropped (C10_never_dropped_partial).

* `Repast.Schedule.C10_never_dropped_partial` [cqp]
* `Repast.Schedule.C10_progress` [qp]
* `Repast.Schedule.C10_dropped` [cqp]

### C11 stop(): the current tick is completed, then end events run exactly once, in order: proved

* `Repast.Schedule.C11_no_later_tick` [cqp]
* `Repast.Schedule.C11_tick_completed` [cqp]
* `Repast.Schedule.C11_end_events` [cqp]
* `Repast.Schedule.C11_all_end_events` [cqp]

### C12 No rank's schedule runs ahead of another rank's: partial

False if a rank's last scheduling call before execute() is schedule_stop for a tick before all its events (C12_violation); proved otherwise, for non-negative intervals.

* `Repast.Schedule.C12_global_order_partial` [cqp]
* `Repast.Schedule.C12_no_rank_ahead_partial` [cqp]
* `Repast.Schedule.C12_violation` [qp]

### C13 Global progress: while some rank has pending events the simulation advances: partial

False when a rank has nothing scheduled: no rank ever executes anything (C13_starvation); proved when every rank has a pending event.

* `Repast.Schedule.C13_progress_partial` [cqp]
* `Repast.Schedule.C13_starvation` [cqp]

### C14 The priority queue always yields the earliest event, ties in scheduling order: proved

Refinement of CPython's heapq array operations to the sorted list used by the schedule model.

* `Repast.Heapq.C14_push` [cqp]
* `Repast.Heapq.C14_pop` [cqp]
* `Repast.Heapq.C14_history` [cqp]
* `Repast.Schedule.C14_events` [cqp]
* `Repast.Schedule.C14_head` [cqp]
* `Repast.Schedule.C14_push_refines` [cqp]
* `Repast.Schedule.C14_pop_refines` [cqp]
* `Repast.Schedule.C14_tick_refines` [cqp]

### C15 Checkpointed schedule resumes with the same future: partial

Proved for checkpoints between ticks with no pending event for the current tick and none voided (C15_same_future_partial; with tags, restoring once for each tag in any order, C15_tags_partial). A zero-interval event pending for the current tick is lost (C15_zero_interval_lost). Pending voided RANDOM events take part in the shuffle but are not saved, so that the others run in a different order (C15_violation_voided).

* `Repast.Checkpoint.C15_pending_partial` [cqp]
* `Repast.Checkpoint.C15_zero_interval_lost` [qp]
* `Repast.Checkpoint.C15_same_future_partial` [cqp]
* `Repast.Checkpoint.C15_tags_partial` [cqp]
* `Repast.Checkpoint.C15_violation_voided` [qp]

### C16 Restoring by tag partitions the saved events: partial

C16_tagged and C16_disjoint are the partition part in full. Order indices can collide when events are scheduled between two restore calls (C16_collision); no collision otherwise (C16_no_collision_partial).

* `Repast.Checkpoint.C16_tagged` [qp]
* `Repast.Checkpoint.C16_disjoint` [p]
* `Repast.Checkpoint.C16_no_collision_partial` [cqp]
* `Repast.Checkpoint.C16_collision` [p]

### C17 restore_stop_at controls whether the saved stop event is restored: partial

False: the flag is ignored (C17_flag_ignored, C17_violation). The restore_stop_at=True half is C17_restored_partial.

* `Repast.Checkpoint.C17_flag_ignored` [qp]
* `Repast.Checkpoint.C17_violation` [qp]
* `Repast.Checkpoint.C17_restored_partial` [qp]

### C18 Agents survive a checkpoint round trip: proved

Assumes that restore_agent inverts save, that saved tuples are not mutated, and that pickling is faithful. C18_used_again: a Checkpoint that is used twice yields the agents of both saves.

* `Repast.Checkpoint.C18_round_trip` [qp]
* `Repast.Checkpoint.C18_population` [cqp]
* `Repast.Checkpoint.C18_used_again` [qp]

### C19 Locations survive a checkpoint round trip: partial

Proved for grids (sticky or periodic borders, single or multiple occupancy) and for continuous spaces of two or three dimensions (exact arithmetic; C19_continuous_sticky_partial, C19_continuous_periodic_partial) after every history if every agent of the context has a location and nothing moves before the checkpoint is pickled. Otherwise violated: save_space raises for an agent without a location; it stores the live coordinate arrays, so later moves change the checkpoint; stale coordinates in periodic grids (C30) are not restored.

* `Repast.Checkpoint.C19_sticky_partial` [qp]
* `Repast.Checkpoint.C19_periodic_partial` [cqp]
* `Repast.Checkpoint.C19_violation_unplaced` [qp]
* `Repast.Checkpoint.C19_violation_moved` [qp]
* `Repast.Checkpoint.C19_violation_periodic` [qp]
* `Repast.Checkpoint.C19_continuous_sticky_partial` [cqp]
* `Repast.Checkpoint.C19_continuous_periodic_partial` [cqp]
* `Repast.Checkpoint.C19_violation_continuous` [cqp]

### C20 Networks survive a checkpoint round trip: partial

Violated: restoring a directed network with an edge from an agent of another rank raises (C20_violation_directed); in a restored undirected network edges between ranks can not be updated or removed after the next synchronize (C20_violation_update). Proved for every history that Legal (NetSpec.lean) describes, any number of ranks: undirected networks, and directed ones in which no rank has an edge from a remote to a local agent. save_network puts the dictionaries of the graph into the checkpoint, not copies: if edges are updated before it is pickled, they are restored with the new attributes, and the ranks can have different ones (C20_violation_changed); if nothing is updated in between, whatever agents and edges are added or removed, what was saved is restored (C20_later_partial). With several networks it depends on the order of the calls whether they can be restored: a directed network with an edge from another rank can, if its ghosts were requested for a network that was restored before (C20_violation_order). Missing: several networks, positively.

* `Repast.Network.C20_violation_order` [qp]
* `Repast.Network.C20_violation_directed` [qp]
* `Repast.Network.C20_violation_update` [qp]
* `Repast.Network.C20_restored_partial` [cqp]
* `Repast.Network.C20_later_partial` [cqp]
* `Repast.Network.C20_violation_changed` [qp]

### C21 The local population views agree: partial

Proved for every history of the operations of a context (C21_population, C21_views_partial): the population, the enumeration, the enumeration by type, contains_type and size agree. What is missing: agents(t) and size([t]) raise a KeyError for a type that was never added (C21_violation_type) instead of reporting no agents.

* `Repast.Context.C21_population` [cqp]
* `Repast.Context.C21_views_partial` [cqp]
* `Repast.Context.C21_violation_type` [qp]

### C22 agents() enumerates each agent once, in insertion order, shuffled only on request: partial

C22_agents_partial: agents(...) lists exactly the local agents of the type, each once, in insertion order, a permutation if shuffled, a prefix if counted; for types seen before (otherwise KeyError, C21_violation_type).

* `Repast.Context.C22_agents_partial` [cqp]

### C23 Ghost reference counting: proved

Every sequence of the operations of the reference counts (C23_counted, C23_requested, C23_deleted). A requested ghost stays in every history that raises nothing, on any number of ranks, until the agent is removed or comes to the rank itself: with any spaces (C23_spaces) and with any networks (C23_network).

* `Repast.Network.C23_network` [qp]
* `Repast.Context.C23_spaces` [qp]
* `Repast.Context.C23_counted` [qp]
* `Repast.Context.C23_requested` [qp]
* `Repast.Context.C23_deleted` [qp]

### C24 Moving agents between ranks conserves the population: partial

Proved for every history of adds, removals, state changes, requests, moves and synchronisations of a context without projections. For contexts with one shared grid (single or multiple occupancy), or one shared continuous space of two or three dimensions (exact arithmetic), on any number of ranks, it is proved after every history of Sit.ValidRun (OneSpace.lean): no exception, and the population with its states is conserved by synchronize and move_agents (C24_one_grid_partial, C24_one_cspace_partial and those after them). In other histories with a grid move_agents raises a KeyError for an agent in the destination's buffer (C24_violation_move), and synchronize(sync_ghosts=False) sends ghosts back to their owner (C24_violation_no_ghosts). On a one-dimensional continuous space the first move of an agent crashes (C24_cspace_one_dim). With several spaces, of which the first is any of these and the others are grids with multiple occupancy, it is proved after every history of Many.ValidRun (ManySpace.lean), in which the locations of each agent are within the bounds of the same rank when synchronize is called: C24_spaces_partial, C24_spaces_synchronize_partial, C24_spaces_move_partial. If they are within the bounds of different ranks, synchronize can raise (C24_violation_two_ranks). With one space and any networks, a synchronize that does not raise preserves the agents and their states after every history of LegalRun (Mixed/Run.lean), which includes edges and requests: C24_grid_networks_partial, C24_cspace_networks_partial. A move_agents that does not raise, of any agents to any ranks, preserves them too, in histories in which the space has no buffer (size 0): C24_grid_networks_move_partial, C24_cspace_networks_move_partial (the moved agents are on their new ranks without a location, the others keep theirs). With a buffer it can raise (C54_violation_buffered).

* `Repast.Mixed.C24_grid_networks_partial` [cqp]
* `Repast.Mixed.C24_cspace_networks_partial` [cqp]
* `Repast.Mixed.C24_grid_networks_move_partial` [cqp]
* `Repast.Mixed.C24_cspace_networks_move_partial` [cqp]
* `Repast.Context.C24_one_grid_partial` [cqp]
* `Repast.Context.C24_one_grid_synchronize_partial` [cqp]
* `Repast.Context.C24_one_grid_move_partial` [cqp]
* `Repast.Context.C24_spaces_partial` [cqp]
* `Repast.Context.C24_spaces_synchronize_partial` [cqp]
* `Repast.Context.C24_spaces_move_partial` [cqp]
* `Repast.Context.C24_violation_two_ranks` [qp]
* `Repast.Context.C24_one_cspace_partial` [cqp]
* `Repast.Context.C24_one_cspace_synchronize_partial` [cqp]
* `Repast.Context.C24_one_cspace_move_partial` [cqp]
* `Repast.Context.C24_cspace_one_dim` [cqp]
* `Repast.Context.C24_violation_move` [qp]
* `Repast.Context.C24_violation_no_ghosts` [qp]
* `Repast.Context.C24_no_projections_partial` [cqp]
* `Repast.Context.C24_move_partial` [cqp]

### C25 Ghost state equals owner state after synchronize: partial

Proved for every history of a context without projections. For contexts with one shared grid (single or multiple occupancy), or one shared continuous space of two or three dimensions (exact arithmetic), on any number of ranks, it is proved after every history of Sit.ValidRun (OneSpace.lean): every ghost has its owner's state and location after synchronize (C25_one_grid_partial, C25_one_cspace_partial). In other histories with a grid ghosts go stale: requesting a buffered agent (C25_violation_request), a requested agent that comes and goes (C25_violation_moved), adding a projection while there are ghosts (C25_violation_add_projection). With a network, removing one of two edges of an agent to a rank leaves a stale ghost (C25_violation_edge_removed); so does a requested ghost whose last edge is removed by its owner (C25_violation_requested). For contexts with one network and the histories that Legal (NetSpec.lean) describes, ghosts have the states of their owners after synchronize (C25_network_partial); also with removals of agents, for the histories of LegalRunRm (BurySpec.lean): C25_network_removals_partial. With several spaces, of which the first is any of these and the others are grids with multiple occupancy, it is proved after every history of Many.ValidRun (ManySpace.lean), in which the locations of each agent are within the bounds of the same rank when synchronize is called: C25_spaces_partial.

* `Repast.Network.C25_violation_requested` [qp]
* `Repast.Network.C25_network_removals_partial` [cqp]
* `Repast.Network.C25_violation_edge_removed` [qp]
* `Repast.Network.C25_network_partial` [cqp]
* `Repast.Context.C25_one_grid_partial` [cqp]
* `Repast.Context.C25_spaces_partial` [cqp]
* `Repast.Context.C25_one_cspace_partial` [cqp]
* `Repast.Context.C25_violation_request` [qp]
* `Repast.Context.C25_violation_moved` [qp]
* `Repast.Context.C25_violation_add_projection` [qp]
* `Repast.Context.C25_no_projections_partial` [cqp]
* `Repast.Context.C25_synchronize_partial` [cqp]

### C26 Ghosts of removed agents disappear: partial

Proved for every history of a context without projections. For contexts with one shared grid (single or multiple occupancy), or one shared continuous space of two or three dimensions (exact arithmetic), on any number of ranks, it is proved after every history of Sit.ValidRun (OneSpace.lean): a removed agent is nowhere after synchronize (C26_one_grid_partial, C26_one_cspace_partial). Violated when a buffered agent is requested (C26_violation_request). With one network, directed or not, on any number of ranks, it is proved for the histories of LegalRunRm (BurySpec.lean), in which an agent that is removed has no edges to other ranks that were added, updated or removed since the last synchronize, no unique id is used again and clear_edges is not used after a removal: nothing raises, no rank has the agent, a ghost, its node or an edge of it after synchronize (C26_network_partial), and the other agents and edges do not change (C26_network_others_partial). In other histories with networks synchronize raises if a removed agent had a new or removed edge to a ghost (C26_violation_new_edge, C26_violation_removed_edge), or an edge in one of two networks (C26_violation_two_networks). With several spaces, of which the first is any of these and the others are grids with multiple occupancy, it is proved after every history of Many.ValidRun (ManySpace.lean), in which the locations of each agent are within the bounds of the same rank when synchronize is called: C26_spaces_partial (no agent, no ghost and nothing in the first space).

* `Repast.Network.C26_network_partial` [cqp]
* `Repast.Network.C26_network_others_partial` [cqp]
* `Repast.Network.C26_violation_new_edge` [qp]
* `Repast.Network.C26_violation_two_networks` [qp]
* `Repast.Network.C26_violation_removed_edge` [qp]
* `Repast.Context.C26_one_grid_partial` [cqp]
* `Repast.Context.C26_spaces_partial` [cqp]
* `Repast.Context.C26_one_cspace_partial` [cqp]
* `Repast.Context.C26_violation_request` [qp]
* `Repast.Context.C26_no_projections_partial` [cqp]

### C27 Sticky borders clamp: proved

Integer coordinates (grids).

* `Repast.Space.C27_sticky` [cqp]
* `Repast.Space.C27_sticky_inside` [cqp]

### C28 Periodic borders wrap: partial

Integer coordinates (grids). The code computes the remainder with fmod on doubles: proved for extents and distances up to 2^53 (C28_rounding_partial), and that the result is in bounds for every point (C28_rounding_bounds); violated beyond (C28_violation_large).

* `Repast.Tree.C28_rounding_partial` [cqp]
* `Repast.Tree.C28_rounding_bounds` [cqp]
* `Repast.Tree.C28_violation_large` [cqp]
* `Repast.Space.C28_periodic` [cqp]
* `Repast.Space.C28_periodic_inside` [cqp]
* `Repast.Space.C28_periodic_congruent` [cqp]
* `Repast.Space.C28_border_object` [-]

### C29 get_location / get_agents agreement: partial

Agreement and refinement proved for histories without a repeated add of an agent already in the space, for which the code violates it (C29_double_add). Also for continuous spaces (C29_continuous_partial).

* `Repast.Tree.C29_continuous_partial` [cqp]
* `Repast.Space.C29_agreement_partial` [cqp]
* `Repast.Space.C29_refines_sticky_partial` [cqp]
* `Repast.Space.C29_refines_periodic_partial` [cqp]
* `Repast.Space.C29_double_add` [qp]

### C30 Where move puts an agent depends only on the requested point: partial

Full for sticky borders and 3-dimensional periodic spaces. False for 1/2-dimensional periodic spaces after queries with non-zero unused coordinates (C30_violation).

* `Repast.Space.C30_sticky` [qp]
* `Repast.Space.C30_periodic_partial` [cqp]
* `Repast.Space.C30_violation` [qp]

### C31 Single occupancy exclusivity: proved

For every history, any borders; for grids, shared grids (also out of bounds) and continuous spaces made with single occupancy.

* `Repast.Tree.C31_continuous` [cqp]
* `Repast.Topology.C31_grid` [qp]
* `Repast.Topology.C31_shared` [qp]
* `Repast.Space.C31_exclusive` [qp]
* `Repast.Space.C31_occupied` [qp]

### C32 Removed agents leave no trace; move of an unknown agent is an error: partial

False after a repeated add (C32_double_add); C32_unknown is the second half in full.

* `Repast.Space.C32_removed_partial` [cqp]
* `Repast.Space.C32_unknown` [qp]
* `Repast.Space.C32_double_add` [qp]

### C33 Rank bounds partition the global space: partial

Proved when there are at least as many rows (and layers) as processes in that dimension; otherwise a rank with an empty range ignores the dimension and takes points of others (C33_violation). For points with integer coordinates and for continuous points (C33_continuous_partial).

* `Repast.Topology.C33_partition_partial` [cqp]
* `Repast.Topology.C33_violation` [-]
* `Repast.Context.C33_continuous_partial` [cqp]

### C34 An agent that leaves local bounds is addressed to the rank owning its location: partial

C34_addressed_partial: queue = last successful move out of bounds, to the unique owner; C34_location_partial relates queue and locations. Same hypothesis as C33; add of a present agent excluded in the second. C34_continuous_partial is the same for continuous spaces of two or three dimensions.

* `Repast.Topology.C34_addressed_partial` [cqp]
* `Repast.Topology.C34_location_partial` [cqp]
* `Repast.Context.C34_continuous_partial` [cqp]

### C35 Neighbour enumeration is correct: partial

Proved except for a 1-dimensional periodic space of one process, which lists itself twice (C35_violation).

* `Repast.Topology.C35_neighbors_partial` [cqp]
* `Repast.Topology.C35_symmetric_partial` [cqp]
* `Repast.Topology.C35_violation` [-]

### C36 Buffer zones: every agent within buffer distance of a neighbour is visible there as a ghost: partial

Proved for the send side of the ghost exchange, and with it for whole contexts with one grid or one continuous space of two or three dimensions: after synchronize a rank has a ghost of exactly the agents within the buffer (C36_one_grid_partial, C36_one_cspace_partial). Holds for all non-periodic process grids and the periodic ones of GoodGrid. The code fails on periodic n x 1 grids (C36_crash), 2 x 1 (C36_twice), 3-D grids with two dimensions of two processes (C36_missing), and buffers over half of the local bounds (C36_overlap). On continuous spaces an agent that shared its location may not be sent (C36_cspace_lost). With several spaces, of which the first is any of these and the others are grids with multiple occupancy, it is proved after every history of Many.ValidRun (ManySpace.lean), in which the locations of each agent are within the bounds of the same rank when synchronize is called: C36_spaces_partial, C36_spaces_locations_partial.

* `Repast.Topology.C36_sent_partial` [cqp]
* `Repast.Topology.C36_only_local_partial` [cqp]
* `Repast.Topology.C36_crash` [qp]
* `Repast.Topology.C36_twice` [qp]
* `Repast.Topology.C36_missing` [qp]
* `Repast.Topology.C36_overlap` [qp]
* `Repast.Context.C36_one_grid_partial` [cqp]
* `Repast.Context.C36_spaces_partial` [cqp]
* `Repast.Context.C36_spaces_locations_partial` [cqp]
* `Repast.Context.C36_one_cspace_partial` [cqp]
* `Repast.Context.C36_cspace_lost` [cqp]

### C37 get_agents_within returns exactly the agents in the box: partial

Proved without conditions for single occupancy, and for multiple occupancy for the histories of Tame (in particular when agents never share a location). The code violates it for multiple occupancy (C37_lost, C37_twice, C37_crash, C37_split), for boxes of lower dimension (C37_flat_query) and one-dimensional spaces (C37_one_dim).

* `Repast.Tree.C37_within_partial` [cqp]
* `Repast.Tree.C37_single` [cqp]
* `Repast.Tree.C37_never_shared_partial` [cqp]
* `Repast.Tree.C37_lost` [cqp]
* `Repast.Tree.C37_twice` [cqp]
* `Repast.Tree.C37_crash` [cqp]
* `Repast.Tree.C37_split` [cqp]
* `Repast.Tree.C37_flat_query` [cqp]
* `Repast.Tree.C37_one_dim` [cqp]

### C38 Neighbourhood finders return the Moore neighbourhood: proved

* `Repast.Geometry.C38_sticky_1d` [cqp]
* `Repast.Geometry.C38_sticky_2d` [cqp]
* `Repast.Geometry.C38_sticky_3d` [cqp]
* `Repast.Geometry.C38_periodic_1d` [cqp]
* `Repast.Geometry.C38_periodic_2d` [cqp]
* `Repast.Geometry.C38_periodic_3d` [cqp]
* `Repast.Geometry.C38_periodic_small` [-]
* `Repast.Geometry.C38_num_dims` [cqp]

### C39 Value layer read-your-writes: proved

* `Repast.ValueLayer.C39_place` [cqp]
* `Repast.ValueLayer.C39_layer` [cqp]
* `Repast.ValueLayer.C39_read_your_writes` [cqp]

### C40 Shared value layers: buffers mirror the neighbours' values: partial

Sticky borders with origin 0, one or two dimensions, any number of ranks with at least two in the first dimension, any buffer that fits, any contents and history: creation and synchronization succeed and every location in reach has the owner's value (C40_create_partial, C40_mirror_partial). Periodic borders with origin 0, at least three ranks in each dimension and a buffer smaller than the local bounds: creation and synchronizations succeed and each entry of each tensor is the owner's, across the borders and corners (C40_periodic_partial); in two dimensions get returns it for locations that are not below the origin (C40_periodic_get_partial). Violated by get with periodic borders (C40_violation_periodic1, _first), with periodic borders and one or two ranks in a dimension (C40_violation_two, _pairs, _slab, _self) or a buffer as large as the local bounds (C40_violation_wide), with one process in the first dimension of several (C40_violation_column), with another origin (C40_violation_origin, _origin_periodic) and on a single rank (C40_violation_single, _single_periodic).

* `Repast.ValueLayer.C40_periodic_partial` [cqp]
* `Repast.ValueLayer.C40_periodic_get_partial` [cqp]
* `Repast.ValueLayer.C40_violation_wide` [qp]
* `Repast.ValueLayer.C40_violation_pairs` [qp]
* `Repast.ValueLayer.C40_violation_slab` [qp]
* `Repast.ValueLayer.C40_violation_self` [qp]
* `Repast.ValueLayer.C40_violation_origin_periodic` [qp]
* `Repast.ValueLayer.C40_violation_column` [qp]
* `Repast.ValueLayer.C40_create_partial` [cqp]
* `Repast.ValueLayer.C40_mirror_partial` [cqp]
* `Repast.ValueLayer.C40_violation_periodic1` [qp]
* `Repast.ValueLayer.C40_violation_single` [qp]
* `Repast.ValueLayer.C40_violation_single_periodic` [qp]
* `Repast.ValueLayer.C40_violation_two` [qp]
* `Repast.ValueLayer.C40_violation_first` [qp]
* `Repast.ValueLayer.C40_violation_origin` [qp]
* `Repast.ValueLayer.C40_far` [qp]

### C41 Read/write value layer isolation: partial

get, set and swap in full for layers of one rank; the isolation for all layers (C41_isolated). get_nghs always raises AttributeError (C41_nghs). Read/write layers on several ranks, with synchronizations and swaps at any speed: C77.

* `Repast.ValueLayer.C41_maps_partial` [cqp]
* `Repast.ValueLayer.C41_isolated` [p]
* `Repast.ValueLayer.C41_nghs` [-]
* `Repast.ValueLayer.C41_swap` [cqp]

### C42 Graph operations: partial

C42_edges: after every history without exception the network shows exactly the nodes, edges and attributes of the history. C42_exceptions_partial: calls on local agents raise exactly if the node or edge is missing, except the removal of an undirected self-loop (C42_violation_self_loop). num_edges counts a directed self-loop twice (C42_violation_num_edges).

* `Repast.Network.C42_edges` [cqp]
* `Repast.Network.C42_exceptions_partial` [cqp]
* `Repast.Network.C42_violation_self_loop` [qp]
* `Repast.Network.C42_violation_num_edges` [qp]

### C43 Cross-rank edges are mirrored: partial

Violated in several ways: an edge between a local agent and a ghost cannot be removed before the next synchronize or on the other rank, updating it on the other rank makes the next synchronize raise, both ranks adding or removing it, clear_edges with edges of other ranks or with new edges that were updated (C43_violation_clear_received, C43_violation_clear_updated), requested ghosts of agents that were moved. For the histories that Legal (NetSpec.lean) describes, any number of ranks, directed or not, it is proved that nothing is raised, that added and updated edges have the same attributes on both ranks after synchronize, that removed edges and those cleared by clear_edges are on no rank, and that other edges do not change. With removals of agents the same is proved for the histories of LegalRunRm (BurySpec.lean): C43_agree_removals_partial and the like. With two networks, the removal of an edge of one network drops the ghost although there is an edge of the other one, and updating that one makes synchronize raise (C43_violation_two_networks). Missing: moving agents (see C54), more than one network and the other uses that are violations, such as clear_edges after a removal, which raises at the next synchronize (C43_violation_clear_buried). In a context with a grid beside the network, an edge to a ghost in a buffer makes synchronize raise (C43_violation_buffered).

* `Repast.Network.C43_agree_removals_partial` [cqp]
* `Repast.Network.C43_added_removals_partial` [cqp]
* `Repast.Network.C43_updated_removals_partial` [cqp]
* `Repast.Network.C43_removed_removals_partial` [cqp]
* `Repast.Network.C43_kept_removals_partial` [cqp]
* `Repast.Network.C43_ends_removals_partial` [cqp]
* `Repast.Network.C43_violation_remove_new` [qp]
* `Repast.Network.C43_violation_remove_mirrored` [qp]
* `Repast.Network.C43_violation_update_mirrored` [qp]
* `Repast.Network.C43_violation_attributes` [qp]
* `Repast.Network.C43_violation_remove_both` [qp]
* `Repast.Network.C43_violation_clear_edges` [qp]
* `Repast.Network.C43_violation_clear_received` [qp]
* `Repast.Network.C43_violation_clear_updated` [qp]
* `Repast.Network.C43_violation_two_networks` [qp]
* `Repast.Network.C43_violation_moved_ghost` [qp]
* `Repast.Network.C43_agree_partial` [cqp]
* `Repast.Network.C43_added_partial` [cqp]
* `Repast.Network.C43_updated_partial` [cqp]
* `Repast.Network.C43_removed_partial` [cqp]
* `Repast.Network.C43_cleared_partial` [cqp]
* `Repast.Network.C43_kept_partial` [cqp]
* `Repast.Network.C43_ends_partial` [cqp]
* `Repast.Network.C43_violation_clear_buried` [qp]
* `Repast.Mixed.C43_violation_buffered` [qp]

### C44 Network file round trip: partial

C44_read_partial: for every graph, rank assignment and number of ranks that meets `Written` (name without spaces, distinct nodes, no negative agent types, attributes without nested dictionaries, at most one edge between two nodes), the written file is read back; each rank has exactly the agents of its nodes, each as one node, exactly the edges of these with their attributes, and exactly the ghosts they need with their owners' states. C44_violation_*: two edges to the same remote agent give the network two nodes for this ghost; nested dictionaries and names with spaces can be written but not read.

* `Repast.Network.C44_read_partial` [cqp]
* `Repast.Network.C44_violation_twice` [cqp]
* `Repast.Network.C44_violation_nested` [cqp]
* `Repast.Network.C44_violation_name` [cqp]

### C45 Random partition is balanced and total: proved

* `Repast.Network.C45_random_partition` [cqp]
* `Repast.Network.C45_no_ranks` [p]

### C46 Logged data sets are complete and independent of buffer size: proved

For data sets with at least one column (log raises an IndexError without columns). The reduction is an arbitrary function of the values of the ranks.

* `Repast.Files.C46_rows` [cqp]
* `Repast.Files.C46_prefix` [cqp]

### C47 Tabular logging loses nothing: proved

* `Repast.Files.C47_rows` [cqp]

### C48 Log files never overwrite existing files: proved

* `Repast.Files.C48_find_free` [cqp]
* `Repast.Files.C48_data_set` [cqp]
* `Repast.Files.C48_tabular` [cqp]

### C49 Parameter override: partial

Proved for parameter files that are not empty; an empty file is an exception (C49_violation_empty_file). Parsing of YAML and JSON is not modelled.

* `Repast.Files.C49_override_partial` [cqp]
* `Repast.Files.C49_dump_partial` [cqp]
* `Repast.Files.C49_violation_empty_file` [cqp]

### C50 Continuous borders land in bounds: partial

Proved in exact arithmetic. With double rounding the code violates it: the upper bound is reached (C50_rounding_periodic, C50_rounding_sticky) and a coordinate inside is moved to the other end (C50_rounding_jump). Proved with rounding: results are never below the lower bound or beyond the upper bound (C50_rounding_closed_partial), sticky borders up to 2^26, periodic borders up to a relative error of 2^-53, exactly for coordinates with few binary digits and for coordinates inside dimensions that start at 0.

* `Repast.Tree.C50_sticky_partial` [cqp]
* `Repast.Tree.C50_periodic_partial` [cqp]
* `Repast.Tree.C50_rounding_closed_partial` [cqp]
* `Repast.Tree.C50_rounding_sticky_partial` [cqp]
* `Repast.Tree.C50_rounding_periodic_partial` [cqp]
* `Repast.Tree.C50_rounding_inside_partial` [cqp]
* `Repast.Tree.C50_rounding_jump` [cqp]
* `Repast.Tree.C50_rounding_dyadic_partial` [cqp]
* `Repast.Tree.C50_rounding_periodic` [cqp]
* `Repast.Tree.C50_rounding_sticky` [cqp]

### C51 A checkpoint taken by an event contains the pending events: partial

Events of later ticks are saved; the events of the tick that is being executed, including all of its repeating events, are not (C51_violation).

* `Repast.Checkpoint.C51_later_partial` [qp]
* `Repast.Checkpoint.C51_violation` [qp]

### C52 Synchronize keeps the location of every agent: partial

Proved for contexts with one shared grid (single or multiple occupancy), or one shared continuous space of two or three dimensions (exact arithmetic), on any number of ranks, after every history of Sit.ValidRun (OneSpace.lean): C52_one_grid_partial, C52_one_cspace_partial. Violations: synchronize(sync_ghosts=False) reverts movements of buffered agents (C52_violation_no_ghosts), two agents that move to the same cell with single occupancy (C52_violation_occupied), two grids (C52_violation_two_grids, C52_violation_both_grids). With several spaces, of which the first is any of these and the others are grids with multiple occupancy, it is proved after every history of Many.ValidRun (ManySpace.lean), in which the locations of each agent are within the bounds of the same rank when synchronize is called: C52_spaces_partial. An agent is left behind in the second grid of its old rank, where it blocks a cell if there is single occupancy (C52_violation_left_behind). With one space and any networks it is proved of every synchronize that does not raise, after every history of LegalRun (Mixed/Run.lean): C52_grid_networks_partial, C52_cspace_networks_partial.

* `Repast.Mixed.C52_grid_networks_partial` [cqp]
* `Repast.Mixed.C52_cspace_networks_partial` [cqp]
* `Repast.Context.C52_one_grid_partial` [cqp]
* `Repast.Context.C52_spaces_partial` [cqp]
* `Repast.Context.C52_violation_left_behind` [qp]
* `Repast.Context.C52_one_cspace_partial` [cqp]
* `Repast.Context.C52_violation_no_ghosts` [qp]
* `Repast.Context.C52_violation_occupied` [qp]
* `Repast.Context.C52_violation_two_grids` [qp]
* `Repast.Context.C52_violation_both_grids` [qp]

### C53 A logger can be created for every writable path: partial

Proved for paths with a directory. Violated for file names without a directory (C53_violation_data_set), for the tabular logger also for ./name (C53_violation_tabular): os.makedirs('') raises.

* `Repast.Files.C53_data_set_partial` [cqp]
* `Repast.Files.C53_violation_data_set` [cqp]
* `Repast.Files.C53_tabular_partial` [cqp]
* `Repast.Files.C53_violation_tabular` [cqp]

### C54 move_agents keeps the edges of moved agents: partial

Proved for every history in which agents are moved one at a time (Covered: no ghost of the agent on its new rank, everything synchronized, the edges with agents of other ranks were added by those ranks, their ghosts are not there on request and were not moved before): move_agents raises nothing, the agent and its state are on the new rank only, its edges with attributes are on each rank that owns an end and on no other (C54_moved_partial), each owner of a neighbour can update the edge (C54_used_partial), and edges that are added, updated or removed later are mirrored (C54_added/updated/removed/agree_partial). Otherwise violated: the ends of an edge that move together (C54_violation_together), undirected networks when the agent moves to the rank of a neighbour (C54_violation_undirected), edges of ghosts that were requested (C54_violation_requested), linked agents that move one after the other (C54_violation_one_after_the_other). Missing: directed networks when the agent moves to the rank of a neighbour; several agents at once. In contexts with one shared space without a buffer (size 0) and one network, the agent also leaves the space and every other agent keeps its location (C54_grid_partial, C54_cspace_partial), if nobody is out of bounds at the call. Otherwise violated: move_agents raises if an agent with an edge is out of bounds, though nobody is to be moved (C54_violation_out_of_bounds), or if the agent is a ghost in the buffer of its new rank (C54_violation_buffered).

* `Repast.Network.C54_moved_partial` [cqp]
* `Repast.Network.C54_agree_partial` [cqp]
* `Repast.Network.C54_added_partial` [cqp]
* `Repast.Network.C54_updated_partial` [cqp]
* `Repast.Network.C54_removed_partial` [cqp]
* `Repast.Network.C54_cleared_partial` [cqp]
* `Repast.Network.C54_used_partial` [cqp]
* `Repast.Network.C54_violation_together` [qp]
* `Repast.Network.C54_violation_undirected` [qp]
* `Repast.Network.C54_violation_requested` [qp]
* `Repast.Network.C54_violation_one_after_the_other` [qp]
* `Repast.Mixed.C54_grid_partial` [cqp]
* `Repast.Mixed.C54_cspace_partial` [cqp]
* `Repast.Mixed.C54_violation_out_of_bounds` [qp]
* `Repast.Mixed.C54_violation_buffered` [qp]

### C55 A random local point is a local point: partial

Proved for grids with at least as many columns, rows and layers as processes, and for continuous spaces with exact arithmetic. A rank without a column or row raises a ValueError (C55_no_columns, C55_no_rows). With the rounding of doubles the point is in the local bounds or on their upper border (C55_rounding_closed_partial), never on it if the bounds start at 0 (C55_rounding_zero_partial); otherwise the border is drawn, which is local to another rank (C55_rounding_border).

* `Repast.RandomPt.C55_grid_partial` [cqp]
* `Repast.RandomPt.C55_grid_every_partial` [cqp]
* `Repast.RandomPt.C55_grid_stays_partial` [cqp]
* `Repast.RandomPt.C55_continuous_partial` [cqp]
* `Repast.RandomPt.C55_continuous_every_partial` [cqp]
* `Repast.RandomPt.C55_no_columns` [-]
* `Repast.RandomPt.C55_no_rows` [p]
* `Repast.RandomPt.C55_rounding_closed_partial` [cqp]
* `Repast.RandomPt.C55_rounding_zero_partial` [cqp]
* `Repast.RandomPt.C55_rounding_border` [cqp]

### C56 A loop over the agents at a location visits each of them once: partial

Proved for every space with multiple occupancy and every history that adds no agent twice, for loops whose body brings no agent to the location and takes none but the visited agent away from it (C56_loop_partial), in particular for loops that move away, remove or leave alone each agent (C56_usual_partial). Violations: taking away the agent that would be next is a use of freed memory (C56_violation_next); an agent that arrives is visited or not, depending on when (C56_violation_arrival); moving agents away and back never ends (C56_violation_endless); nested loops over the same result share one iterator (C56_violation_nested). Lists that get_agents of a space with single occupancy and get_agents_within make: all agents are visited if the body removes none but the visited one (C56_list_partial), and with single occupancy whatever the body does (C56_single_partial); but the list has no references: an agent that the body removes before it is visited is used after it is freed (C56_violation_freed).

* `Repast.Space.C56_list_partial` [cqp]
* `Repast.Space.C56_single_partial` [cqp]
* `Repast.Space.C56_violation_freed` [cqp]
* `Repast.Space.C56_loop_partial` [cqp]
* `Repast.Space.C56_usual_partial` [cqp]
* `Repast.Space.C56_violation_next` [-]
* `Repast.Space.C56_violation_arrival` [-]
* `Repast.Space.C56_violation_endless` [cqp]
* `Repast.Space.C56_violation_nested` [qp]

### C57 Agents are identified by the unique id they were created with: partial

Proved for ids of 64 bits, types of 32 bits that are not negative, and ranks of 32 bits; in general the rank is taken modulo 2^32 (C57_rank). Violations: ranks that do not fit are accepted but changed, so agents made with different ranks have the same uid (C57_violation_rank); a negative type with a rank of more than 32 bits uses an invalid pointer (C57_violation_crash); NaN coordinates break the order of locations (C57_violation_nan). The local rank is the one set last (C57_local_rank_partial) unless it does not fit into 32 bits (C57_violation_local_rank). Agents of subclasses that do not call super().__init__ have no unique id (C57_violation_uninitialized).

* `Repast.Core.C57_uid_partial` [cqp]
* `Repast.Core.C57_distinct_partial` [cqp]
* `Repast.Core.C57_default` [q]
* `Repast.Core.C57_order` [cqp]
* `Repast.Core.C57_points_partial` [cqp]
* `Repast.Core.C57_violation_rank` [-]
* `Repast.Core.C57_rank` [qp]
* `Repast.Core.C57_local_rank_partial` [qp]
* `Repast.Core.C57_violation_local_rank` [p]
* `Repast.Core.C57_violation_crash` [-]
* `Repast.Core.C57_violation_nan` [qp]
* `Repast.Core.C57_violation_uninitialized` [-]

### C58 The random state survives a checkpoint round trip: partial

Proved for all programs that use repast4py.random only. Violation: torch's generator, which init seeds too and value layers use, is neither saved nor restored (C58_violation_torch).

* `Repast.Rand.C58_resume_partial` [cqp]
* `Repast.Rand.C58_empty` [-]
* `Repast.Rand.C58_init` [qp]
* `Repast.Rand.C58_violation_torch` [-]

### C59 create_loggers logs the requested fields: partial

Proved except that numpy converts values to the annotated type of the field (C59_violation_type), and that names which are not fields are ignored if others are (C59_violation_typo).

* `Repast.Files.C59_columns` [qp]
* `Repast.Files.C59_raises` [cqp]
* `Repast.Files.C59_file_partial` [cqp]
* `Repast.Files.C59_violation_type` [cqp]
* `Repast.Files.C59_violation_typo` [cqp]

### C60 Values saved in a checkpoint are restored: partial

Proved with the value that the object has when the checkpoint is pickled; save keeps a reference, so a change between save and pickling changes what is restored (C60_violation_changed).

* `Repast.Rand.C60_restored_partial` [qp]
* `Repast.Rand.C60_unchanged_partial` [qp]
* `Repast.Rand.C60_violation_changed` [-]

### C61 Locations returned by a space are values: partial

Proved: with programs that change only points they made themselves, all results are (when returned) those of the model with values, so the theorems about spaces apply whatever points are passed (C61_values_partial); the program's own points are never changed (C61_own); a returned point always shows the current location of the agent (C61_live_partial, C61_changed). Violations: so it does not keep the coordinates (C61_violation_moved), and writing to its coordinates array corrupts the space (C61_violation_written).

* `Repast.Space.C61_values_partial` [qp]
* `Repast.Space.C61_own` [qp]
* `Repast.Space.C61_live_partial` [cqp]
* `Repast.Space.C61_violation_moved` [qp]
* `Repast.Space.C61_changed` [qp]
* `Repast.Space.C61_violation_written` [qp]

### C62 get_num_agents counts the agents at a location: partial

Proved for histories that add no agent twice; see C29_double_add.

* `Repast.Space.C62_count_partial` [cqp]
* `Repast.Space.C62_sum` [qp]

### C63 Points compare by their coordinates and can be reset from arrays: partial

== is proved (C63_eq_coordinates: the same coordinates). != compares identities: equal points that are different objects are == and != (C63_violation_ne). _reset_from_array is proved for contiguous arrays; for slices with a step it reads the wrong elements, or memory outside of the array (C63_violation_slice).

* `Repast.Core.C63_eq` [p]
* `Repast.Core.C63_ne` [p]
* `Repast.Core.C63_ne_partial` [p]
* `Repast.Core.C63_eq_coordinates` [p]
* `Repast.Core.C63_violation_ne` [p]
* `Repast.Core.C63_reset_partial` [qp]
* `Repast.Core.C63_reset_error` [p]
* `Repast.Core.C63_violation_slice` [qp]

### C64 request_agents returns the requested agents with their states: partial

C64_returned (the uids returned are a permutation of those requested, with any projections) and C64_raises are full. C64_states_partial: a returned agent has its owner's state only if it was not a ghost of the requesting rank before; otherwise the old ghost is returned unchanged, and C64_violation_stale shows a state that is out of date. In contexts with shared grids the requested agents are in each grid afterwards, with the location that they had there if they were ghosts, and nothing else changes in the grids (C64_projections_partial).

* `Repast.Context.C64_returned` [cqp]
* `Repast.Context.C64_projections_partial` [cqp]
* `Repast.Context.C64_states_partial` [cqp]
* `Repast.Context.C64_raises` [qp]
* `Repast.Context.C64_violation_stale` [qp]

### C65 An exception in an event leaves the schedule usable: partial

Violated by every exception: the group's executing flag stays set, so that all later events are put aside instead of executed, and no event ever runs again (C65_violation, for all schedules and continuations). What holds: until the exception everything is as without it (C65_until_partial), and the waiting events are still in the queue until the schedule is executed again (C65_waiting_partial). A step raises exactly if it invokes a user callback that raises (C65_raised). End events that raise are in C78.

* `Repast.Schedule.C65_until_partial` [qp]
* `Repast.Schedule.C65_waiting_partial` [qp]
* `Repast.Schedule.C65_violation` [qp]
* `Repast.Schedule.C65_raised` [cqp]

### C66 No agent is a local agent and a ghost on the same rank: partial

Proved for contexts with any bounded projections: after synchronize(sync_ghosts=False) (C66_arrived), and after synchronize with ghosts except for agents that another rank sends as being in the buffer (C66_buffers_partial; C36 says which these are). For move_agents the same holds if no agent is out of bounds in any space before (C66_moved_partial, any grids and continuous spaces). Otherwise it is violated: move_agents moves the agents that are out of bounds but does not remove their ghosts (C66_violation_move_agents).

* `Repast.Context.C66_moved_partial` [cqp]
* `Repast.Context.C66_arrived` [qp]
* `Repast.Context.C66_buffers_partial` [qp]
* `Repast.Context.C66_violation_move_agents` [qp]

### C67 A data source that raises does not spoil the data set: partial

Violated by every exception: the tick is noted before the sources are read, so that some column has fewer values than there are ticks; every later write raises an IndexError (C67_violation, for all histories before and after), values are written beside the wrong ticks and the last row is cut (example). What holds: the file only grows (C67_kept_partial), the next write has the i-th tick beside the i-th value that was read from each source, as long as all sources have one (C67_values_partial), and without exceptions of the sources nothing raises and all rows are written (C67_fine_partial). One process only.

* `Repast.Files.C67_values_partial` [cqp]
* `Repast.Files.C67_violation` [cqp]
* `Repast.Files.C67_kept_partial` [cqp]
* `Repast.Files.C67_fine_partial` [cqp]

### C68 A loop over the agents of a context may add and remove agents: partial

Proved with shuffle=True or a count, for every body (C68_copied). Without them agents() is a live iterator: C68_loop says exactly when the loop raises a RuntimeError (the body for an agent other than the last adds or removes an agent, of the type if there is one), what was visited and what the context is then; hence loops that do not (C68_quiet_partial), or only agents of other types (C68_other_types_partial), visit all. Violated by the loop that removes each agent it visits, for all contexts with at least two agents (C68_violation).

* `Repast.Context.C68_loop` [cqp]
* `Repast.Context.C68_quiet_partial` [cqp]
* `Repast.Context.C68_other_types_partial` [cqp]
* `Repast.Context.C68_copied` [qp]
* `Repast.Context.C68_violation` [cqp]

### C69 Agents that walk over a border keep their edges: partial

Violated: an edge to a ghost in a buffer is lost when the agent walks on (C69_violation_lost); synchronize raises if an agent walks to the rank of a ghost in the buffer to which it has just added an edge (C69_violation_new_edge), if both ends of an edge walk to another rank in the same tick (C69_violation_together), and, one call later, if one end of an edge walks to another rank and the other end stays in the buffer of that rank (C69_violation_left_behind). What is proved of such contexts is that calls that do not raise preserve the agents, their states and their locations (C24_grid_networks_partial, C52_grid_networks_partial and those for continuous spaces). Without a buffer (size 0) and with one network the claim is proved, for grids and for continuous spaces: an agent with edges walks over the border, synchronize does not raise, the agent is on its new rank with its state and location, and its edges with their attributes are on each rank that owns one of the ends (C69_walk_grid_partial, C69_walk_cspace_partial), after any history in which agents leave, or are moved with move_agents, one per tick and that C54 covers; the ranks agree about the edges after each synchronize (C69_agree_grid_partial, C69_agree_cspace_partial). Missing: several agents that leave in the same tick, several networks or spaces, removals, and the conditions of C54 on which rank has added the edges.

* `Repast.Mixed.C69_walk_grid_partial` [cqp]
* `Repast.Mixed.C69_agree_grid_partial` [cqp]
* `Repast.Mixed.C69_walk_cspace_partial` [cqp]
* `Repast.Mixed.C69_agree_cspace_partial` [cqp]
* `Repast.Mixed.C69_violation_lost` [qp]
* `Repast.Mixed.C69_violation_new_edge` [qp]
* `Repast.Mixed.C69_violation_together` [qp]
* `Repast.Mixed.C69_violation_left_behind` [qp]

### C70 A projection may be added after the agents: partial

Violated: if a network or a grid is added when there are ghosts in a buffer, their reference counts never reach zero again: they keep an old state (C70_violation_stale) and stay after the agent has left the buffer (C70_violation_left; C70_violation_grid). Proved, for any number of ranks, grids or continuous spaces and networks: for a model that has not called synchronize or request_agents before, the contexts are equal to those of a model that has added the projection first (C70_network_partial, C70_grid_partial, C70_cspace_partial; contexts with grids and continuous spaces: C70_both_partial); at any time, the local agents and ghosts, and no other agents, are in the new projection (C70_nodes, C70_placed_grid, C70_placed_cspace, C70_placed_both). Missing: calls after the first synchronize without ghosts in buffers.

* `Repast.Mixed.C70_network_partial` [qp]
* `Repast.Mixed.C70_grid_partial` [qp]
* `Repast.Mixed.C70_cspace_partial` [cqp]
* `Repast.Mixed.C70_nodes` [qp]
* `Repast.Mixed.C70_placed_grid` [qp]
* `Repast.Mixed.C70_placed_cspace` [cqp]
* `Repast.Mixed.C70_violation_stale` [qp]
* `Repast.Mixed.C70_violation_left` [qp]
* `Repast.Mixed.C70_violation_grid` [qp]
* `Repast.Mixed.C70_both_partial` [cqp]
* `Repast.Mixed.C70_placed_both` [cqp]

### C71 Projections are found by their names: proved

For every sequence of calls from a new context, including calls that raise.

* `Repast.Mixed.Names.C71_get` [qp]
* `Repast.Mixed.Names.C71_add` [cqp]

### C72 Ranks may run at any speed: partial

Proved for any history, each rank doing its part at its own speed, and for models in which a rank's calls depend on its context: contexts with any number of networks (C72_networks, C72_networks_adaptive), with any number of shared spaces, that may be added later (C72_bounded, C72_bounded_adaptive), and with shared spaces and networks (C72_spaces, C72_spaces_adaptive), to which the ranks may add more spaces and networks at any time (C72_late); all of them with move_agents. It is needed that all ranks make the same calls with the same sync_ghosts and give a space buffers on all ranks or on none, and an exception on one rank leaves the others waiting (C72_violation_skipped, C72_violation_ghosts, C72_violation_buffers, C72_violation_raised). Data sets, tabular loggers and value layers beside spaces and networks: C76.

* `Repast.Mpi.Ctx.C72_bounded` [cqp]
* `Repast.Mpi.Ctx.C72_bounded_adaptive` [cqp]
* `Repast.Mpi.Ctx.C72_violation_buffers` [cqp]
* `Repast.Mpi.Mix.C72_late` [cqp]
* `Repast.Mpi.Mix.C72_spaces` [cqp]
* `Repast.Mpi.Mix.C72_spaces_adaptive` [cqp]
* `Repast.Mpi.Net.C72_networks` [cqp]
* `Repast.Mpi.Net.C72_networks_adaptive` [cqp]
* `Repast.Mpi.Net.C72_violation_skipped` [qp]
* `Repast.Mpi.Net.C72_violation_ghosts` [qp]
* `Repast.Mpi.Net.C72_violation_raised` [qp]

### C73 Ranks that schedule their stop at the same tick stop together: partial

Proved for any number of ranks and any callbacks: deadlock freedom, no tick after T, T executed by all (C73_stop_together_partial); one rank's stop bounds the ticks of all (C73_no_tick_after_partial), and its own ticks whatever the order of its calls (C73_own_stop_partial); a rank that stops later never finishes (C73_left_behind), and whoever is in allreduce when another rank has left the loop stays there for ever (C73_waits_for_ever). Partial because the code violates the general statement: schedule_stop does not refresh next_tick, so a rank whose stop is the only thing (or the earliest thing, and the last call made) executes its stop at the wrong moment and the others hang (C73_violation). The theorems therefore ask that an event not later than the stops, or an event after the last schedule_stop call, is scheduled on each rank (StopsFresh), and that intervals are not negative. That the run ends (rather than never hangs) is C82: events may reschedule themselves at the same tick for ever.

* `Repast.Schedule.C73_no_tick_after_partial` [cqp]
* `Repast.Schedule.C73_left_behind` [cqp]
* `Repast.Schedule.C73_stop_together_partial` [cqp]
* `Repast.Schedule.C73_waits_for_ever` [cqp]
* `Repast.Schedule.C73_violation` [cqp]
* `Repast.Schedule.C73_own_stop_partial` [cqp]

### C74 Events that synchronize do not make the ranks wait for ever: partial

Proved for contexts with spaces (C74_bounded_partial), networks (C74_network_partial) and both (C74_mixed_partial), and for whole models that have value layers, data sets and tabular loggers too and use them before and during the run (C74_whole_partial), if the collective events are scheduled before execute(), alike on all ranks, and no two of them that are neither FIRST nor LAST are due at one tick unless both are BY_PRIORITY with priorities, every BY_PRIORITY event of a rank has a priority and no event schedules anything for its own tick; otherwise each rank may schedule anything else. The collective events may stop the runners, at the same ticks on all ranks; a rank that stops alone makes the others wait for ever (C74_violation_stop). The collective events may also schedule more collective events, end events and stops for later ticks, alike on all ranks, while the other events of the ranks differ (C74_bounded_more_partial, C74_network_more_partial, C74_mixed_more_partial, C74_whole_more_partial); there all collective events are FIRST or LAST or have priorities. If ranks have identical schedules and random numbers, everything may be scheduled at any time (C74_bounded_same, C74_network_same, C74_mixed_same, C74_whole_same). The code violates the unrestricted claim: C74_violation_random (two RANDOM events of one tick are shuffled by each rank for itself), C74_violation_priority (events with different priorities, if an event of one rank schedules another for its own tick), and C74_violation_ticks shows that the events must be at the same ticks. Missing: events that are voided, and collective events that are scheduled by events that are not collective, on ranks whose other events differ.

* `Repast.Mpi.Run.C74_bounded_partial` [cqp]
* `Repast.Mpi.Run.C74_bounded_same` [cqp]
* `Repast.Mpi.Run.C74_network_partial` [cqp]
* `Repast.Mpi.Run.C74_network_same` [cqp]
* `Repast.Mpi.Run.C74_mixed_partial` [cqp]
* `Repast.Mpi.Run.C74_mixed_same` [cqp]
* `Repast.Mpi.Run.C74_violation_ticks` [cqp]
* `Repast.Mpi.Run.C74_violation_stop` [cqp]
* `Repast.Mpi.Run.C74_violation_random` [cqp]
* `Repast.Mpi.Run.C74_violation_priority` [cqp]
* `Repast.Mpi.Run.C74_whole_partial` [cqp]
* `Repast.Mpi.Run.C74_whole_same` [cqp]
* `Repast.Mpi.Run.C74_bounded_more_partial` [cqp]
* `Repast.Mpi.Run.C74_network_more_partial` [cqp]
* `Repast.Mpi.Run.C74_mixed_more_partial` [cqp]
* `Repast.Mpi.Run.C74_whole_more_partial` [cqp]

### C75 Loggers work whatever the speeds of the ranks, and beside each other: proved

C75_any_pace is about the programs of the single ranks with their Reduce and gather operations, in which ranks other than 0 may go on without waiting for the others (Mpi/Rooted). C75_data_set, C75_data_set_prefix and C75_tabular give the contents of the files that rank 0 has when it has finished, at any pace; C75_own_files that the files are different and that existing files stay as they are; C75_no_exception and C75_finish that the ranks do get there. Ranks that call different operations are not covered: C46 and C47 have the same restriction (the code leaves it to the user).

* `Repast.Mpi.Logs.C75_any_pace` [cqp]
* `Repast.Mpi.Logs.C75_no_exception` [cqp]
* `Repast.Mpi.Logs.C75_data_set` [cqp]
* `Repast.Mpi.Logs.C75_data_set_prefix` [cqp]
* `Repast.Mpi.Logs.C75_tabular` [cqp]
* `Repast.Mpi.Logs.C75_own_files` [cqp]
* `Repast.Mpi.Logs.C75_finish` [cqp]

### C76 Agents, value layers and loggers of a whole model do not disturb each other: proved

C76_any_pace is about the programs of the single ranks, with the collective operations of value layers (value_layer.py:533, 702, 794, 973) in between those of the context, and those of loggers, in which ranks other than 0 need not wait. C76_apart and C76_layer give the contexts, the files and each value layer as if they were alone, so that the results about each of them hold in whole models; C76_mirror and C76_mirror_periodic are C40 for them; C76_exceptions says where an exception comes from, and that value layers with sticky borders, or with periodic ones and enough processes, raise none in synchronizations; C76_finish that the ranks do get there. What the parts themselves violate (C24, C40 and others) is not repeated here.

* `Repast.Mpi.Whole.C76_any_pace` [cqp]
* `Repast.Mpi.Whole.C76_apart` [cqp]
* `Repast.Mpi.Whole.C76_layer` [cqp]
* `Repast.Mpi.Whole.C76_mirror` [cqp]
* `Repast.Mpi.Whole.C76_mirror_periodic` [cqp]
* `Repast.Mpi.Whole.C76_exceptions` [cqp]
* `Repast.Mpi.Whole.C76_finish` [cqp]

### C77 Shared value layers are one matrix; read/write layers show what was written before the swap: partial

Origin 0; sticky borders and at least two processes in the first dimension, as in C40 (whose violations are the reason), in one and two dimensions. C77_matrix_partial refines any calls on any ranks to a matrix for each rank (`wants`), C77_last_partial says what that means if ranks set only their own locations, C77_nghs_partial is about get_nghs. C77_periodic_partial is the case of periodic borders in two dimensions, with at least three processes in each and a buffer smaller than the local bounds, for locations that are not below the origin. C77_read_write_partial and C77_swap_partial are about read/write layers, C77_any_speed_partial about the programs of single ranks with one, at any speed. C77_violation_context: context.py:261 calls `_synch_ghosts` without arguments, but that of ReadWriteValueLayer needs two (value_layer.py:1100), so that `synchronize` raises a TypeError in any context with a read/write layer; C77_context_partial is the case without. `get_nghs` of read/write layers never works, see C41_nghs.

* `Repast.Mpi.ReadWrite.C77_any_speed_partial` [cqp]
* `Repast.ValueLayer.C77_matrix_partial` [cqp]
* `Repast.ValueLayer.C77_last_partial` [cqp]
* `Repast.ValueLayer.C77_nghs_partial` [cqp]
* `Repast.ValueLayer.C77_read_write_partial` [cqp]
* `Repast.ValueLayer.C77_swap_partial` [cqp]
* `Repast.ValueLayer.C77_violation_context` [qp]
* `Repast.ValueLayer.C77_context_partial` [cqp]
* `Repast.ValueLayer.C77_periodic_partial` [cqp]

### C78 End events run once each, also if one raises or execute is called again: partial

Violated in both directions. C78_violation_twice: `execute` starts from the first end event each time it is called (schedule.py:623), so an end event that has run runs again in the next call that returns, after an exception and after a call that returned. C78_violation_never: the end events scheduled after one that always raises never run, however often `execute` is called. What holds: until the first exception or second call everything is as in C11 (C78_until_partial); at the first exception exactly the end events scheduled before the one that raises have run, and it itself (C78_raise_partial); a call that returns has run every end event that is not voided (C78_returned_partial); no tick begins and no other event runs after the stop (C78_no_tick_partial).

* `Repast.Schedule.C78_until_partial` [qp]
* `Repast.Schedule.C78_raise_partial` [cqp]
* `Repast.Schedule.C78_no_tick_partial` [cqp]
* `Repast.Schedule.C78_returned_partial` [cqp]
* `Repast.Schedule.C78_violation_twice` [cqp]
* `Repast.Schedule.C78_violation_never` [cqp]

### C79 A topology divides the space evenly and tells each rank where it is: partial

C79_even_partial, C79_consecutive_partial and C79_procs_partial are that part in full. `coordinates`: getCoords only reserves memory for the vector (distributed_space.cpp:277), whose size stays 0, so that the attribute is always a tuple of three values; right in three dimensions (C79_coordinates_partial), otherwise the last value is read from memory behind the vector and can be anything, for every rank and topology (C79_violation_coordinates).

* `Repast.Topology.C79_even_partial` [cqp]
* `Repast.Topology.C79_consecutive_partial` [qp]
* `Repast.Topology.C79_procs_partial` [cqp]
* `Repast.Topology.C79_coordinates_partial` [cqp]
* `Repast.Topology.C79_violation_coordinates` [cqp]

### C80 A space keeps the agents in it alive, and only these: partial

C80_objects_partial: if each unique id is used with one object, all results are as if agents were their unique ids. C80_refs_partial: if also no agent is added that is in the space, the count is 1 for each agent in the space, 2 for each with a location and 0 for all other objects. Violated otherwise: an agent added again keeps a reference for ever (C80_violation_leak, for every later history); when another object with the same unique id is moved, the first one stays at the old location, and both are returned by get_agents even after the agent was removed (C80_violation_object); with single occupancy get_agent returns an object that was never added (C80_violation_single). The destructor of a space and the references held by the program are not modelled.

* `Repast.Space.C80_objects_partial` [qp]
* `Repast.Space.C80_refs_partial` [cqp]
* `Repast.Space.C80_violation_leak` [cqp]
* `Repast.Space.C80_violation_object` [qp]
* `Repast.Space.C80_violation_single` [qp]

### C81 Repeating events keep to their multiples, and time goes on, for fractional ticks: partial

Ticks as bit patterns of doubles with their values; sums are rounded to nearest, ties to even; overflow is not modelled. Proved: exact for starts and intervals with few binary digits (C81_exact_partial, e.g. all multiples of 2^-20 up to 2^33), with a relative error of n roundings in general (C81_near_partial), time does not go back and goes on if the interval is not too small (C81_time_partial). Violated: with interval 0.1 run 10 is not at 1, with interval 0.2 run 15 is after 3 (C81_violation_drift); at 2^53 with interval 1 the simulation does not get beyond that tick, in any history (C81_violation_stall).

* `Repast.Schedule.C81_exact_partial` [cqp]
* `Repast.Schedule.C81_near_partial` [cqp]
* `Repast.Schedule.C81_time_partial` [cqp]
* `Repast.Schedule.C81_violation_drift` [cqp]
* `Repast.Schedule.C81_violation_stall` [cqp]

### C82 A run with a stop ends: partial

Proved for any number of ranks, any callbacks and any order of steps: the number of steps that can be taken is bounded, with an explicit bound (C82_bounded_partial), and any sequence that takes a possible step whenever there is one reaches a state in which execute() has returned on all ranks (C82_ends_partial; it uses the deadlock freedom of C73). The conditions are those of C73 (StopsFresh, not negative intervals, the stop is not voided, nobody is stopped before T), that repeating events move on before T, and a bound on the events scheduled for the tick at which they are scheduled and on the end events. Both of the latter are needed: a callback that schedules an event for its own tick keeps the process in that tick for ever (C82_violation_same_tick), and a rank with a repeating event whose next tick is the same one never returns (C82_violation_stall; zero intervals, or intervals lost in rounding, see C81). Python's own limits, and callbacks that do not return, are not modelled. The bound counts ticks as doubles, so it says that the run ends, not how soon.

* `Repast.Schedule.C82_bounded_partial` [cqp]
* `Repast.Schedule.C82_ends_partial` [cqp]
* `Repast.Schedule.C82_violation_same_tick` [qp]
* `Repast.Schedule.C82_violation_stall` [cqp]

### C83 When execute() has returned, everything that was due has been done: partial

Proved for any number of ranks, any callbacks and any order of steps, with conditions on the rank itself only (C83_all_done_partial), from C01, C02, C03 and C11; the other ranks may do anything, and the order of the calls before execute() does not matter (unlike in C73). Partial because events scheduled for the current tick outside of a tick, for instance by an end event, never run (C10_dropped), because a repeating event must move on and intervals must not be negative (C82_violation_stall). That execute() does return is C82.

* `Repast.Schedule.C83_all_done_partial` [cqp]

### C84 The speeds of the ranks do not change what a run does: proved

Proved without any conditions on setup, callbacks or stops: two orders of possible steps after which nobody can go on give the same final state of every rank after the same number of steps (C84_same_result); if one order comes to such an end, every other order is a beginning of one with the same end (C84_on_the_way); if one order ends with execute() returned on all ranks, so does every other (C84_returns). It holds because a rank can go on in one way at most, a step of a rank reads and writes that rank only, and a reduction completes only when nobody else can go on. Callbacks are functions of the history of their own rank; callbacks that exchange data with other ranks are not part of this model (C72 is about those exchanges). Draws are per rank, as random.py has a generator per process.

* `Repast.Schedule.C84_same_result` [cqp]
* `Repast.Schedule.C84_on_the_way` [cqp]
* `Repast.Schedule.C84_returns` [cqp]

### C85 Other ranks make a rank wait and do nothing else to it: proved

Proved without any conditions on setup, callbacks or stops (C85_same_history, C85_returned): next_tick, the only thing that depends on the other ranks, is read by the reduction and by nothing else, so that up to next_tick each rank goes through the states that it goes through on its own. Callbacks are functions of the history of their own rank; callbacks that exchange data with other ranks are not part of this model. That a rank is not made to wait for ever is C73 and C82.

* `Repast.Schedule.C85_same_history` [qp]
* `Repast.Schedule.C85_returned` [qp]

### C86 When a rank crashes, the others do not run ahead: proved

Proved without conditions on setup, callbacks or stops: C86_no_run_ahead bounds the number of ticks another rank starts after the crash by 2, by 1 if the crashed rank was not in the reduction or the other had no result of one, and by 0 if neither; C86_others_wait: when nobody else can go on, each of the others has returned or is in the reduction; C86_beginning is C85 for this case. A crash is that a rank takes no more steps; steps of a rank are evaluations of the loop of a tick, so a crash between two callbacks of one such evaluation is the crash before it, as far as the other ranks can tell (C85). An MPI implementation that kills all ranks when one dies is the case in which the others take no more steps either.

* `Repast.Schedule.C86_no_run_ahead` [cqp]
* `Repast.Schedule.C86_others_wait` [qp]
* `Repast.Schedule.C86_beginning` [qp]
<!-- end results -->

## Wrong programs

`tools/mutate.py` copies the project, edits a definition of the model and lists the theorems that fail; `tools/addlog.py` appends the results to
`seeded/LOG.jsonl`. Theorems that should have failed and did not were strengthened; the log says which.

## Trusted base

* Lean 4.33.0's kernel; the axioms `propext`, `Classical.choice`, `Quot.sound` (see the results). No axioms of our own,
  no `sorry`, no `native_decide`, no `bv_decide`. `decide +kernel` is used for concrete histories only (violations and examples).
* The reading of the Python/C++ source: nothing is executed or extracted. Every definition cites the lines it models.
* Modelled by contract: CPython dictionaries, lists and `heapq` order, numpy arrays, networkx graphs (nodes and edges in insertion order, attribute
  dictionaries shared by reference), `json.dumps/loads` (arbitrary functions; hypotheses say what is needed), regular expressions of
  `network.py` (as a tokenizer), MPI collectives (above), `os.path`/`os.makedirs` on an abstract file system.
* Modelled files: `schedule.py`, `checkpoint.py`, `core.h`, `coremodule.cpp` and `core.py` (agent ids, agent iterators, `SharedProjection` hooks, managers), `context.py`, `space.py`
  and its C++ (`borders.h`, `space.h`, `grid.h`, `cspace.h`, `distributed_space.h`, `SpatialTree.h`, `occupancy`), `value_layer.py`, `network.py`, `geometry.py`,
  `logging.py`, `parameters.py`, `util.py` (`find_free_filename`), in the parts that the definitions cite.
* Not modelled: floating-point rounding except in borders (`Tree/Rounding.lean`, `RoundBounds`, `RoundGrid`), random points (`Context/RandomRound.lean`) and ticks (`Schedule/Doubles.lean`), 64-bit overflow, process crashes, exceptions raised by user callbacks other than scheduled events and data sources, re-entrant calls of
  `Schedule.execute` from a callback, torch tensors beyond indexing, random number generators beyond arbitrary draws, YAML/JSON parsing, file system races, performance,
  more than one space beside networks, and synchronisation of several spaces of which one after the first is a grid with single occupancy or a continuous
  space (only violations).
