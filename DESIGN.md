# Formal model of rust-ipv8 in Lean 4: design

The code in /repo is not built or run; the model was written by reading it. Layout:

* `lean/Verif/Model/*`  executable model, one file per Rust module, each definition citing file and lines.
* `lean/Verif/Spec.lean` small specification vocabulary used in statements, independent of the model's helpers.
* `lean/Verif/Lemmas/*` helper lemmas.
* `lean/Verif/Props/*`  property theorems and non-vacuity examples.
* `lean/Verif/Conformance.lean` the test vectors of the repository, run on the model (tests, not proofs).
* `seeded/LOG.jsonl` wrong programs tried against the theorems.

## Modelling choices

* A Rust call has an `Outcome`: `ok v`, `err e` or `panic`. Out-of-range slicing and `usize` underflow are `panic`.
* `&mut self` methods return the new state next to the outcome.
* serde + bincode (dependencies, version 1.1 semantics as documented) are modelled at the level the code uses them:
  a `Serialize` impl produces the list of primitive tokens it hands to the serializer, bincode writes tokens in
  big-endian (or little-endian) order, `serialized_size` adds up token sizes in a separate pass; a `Deserialize` impl is a
  reader over the remaining slice, and tuple/struct access carries bincode's element budget.
* ring (Ed25519, SHA-1), mio sockets, rayon and the OS are parameters or transition-system steps; their assumed behaviour is explicit
  (a structure of laws or the step relation) and listed under the trusted base.

## Plan per property

* **C01 Bits <-> byte bijection** - Model.Bits (8 booleans, from_u8/to_u8 as in bits.rs on UInt8). Whole finite domain, lifted over UInt8/Bits; bit i stated as Nat.testBit.
* **C02 ConnectionType flag coding** - Model.ConnType. Case analysis over the complete finite table.
* **C03 VarLen16 round-trip and wire layout** - Model.Varlen over the serde/bincode layer; induction on content; stated with Spec.be16 and arbitrary suffix.
* **C04 VarLen size limits are enforced exactly** - Size test in the Serialize impls, lifted to Packet.add.
* **C05 VarLen32 and VarLen64 round-trip and wire layout** - As C03 with 4- and 8-byte prefixes.
* **C06 Length-prefixed decoding never over-reads or invents bytes** - Exact success condition of the decoder by induction on the announced length.
* **C07 RawEnd captures exactly the rest of the packet** - rawLoop = identity on the remaining bytes (byte strings shorter than 2^64, the usize budget).
* **C08 IPv4 address wire format** - Address codec; generic big-endian lemmas.
* **C09 IPv6 addresses are refused atomically** - All four payload serializers; iff over all address fields.
* **C10 Header wire format and round-trip** - Header codec at the packet level.
* **C11 Header acceptance is exact** - Decoder iff.
* **C12 Any header accepted by Packet::new reads back unchanged** - FALSE of the code (mid length unchecked, type truncated, size not serialized): refutation witness plus _partial under the exact condition, shown necessary.
* **C13 Packet::new fails exactly on missing header fields** - Direct characterisation of Packet.new.
* **C14 Authentication payload round-trip** - Auth codec; FixedBytes 32.
* **C15 Reading an authentication payload from hostile bytes does not panic** - FALSE of the code: refutation witness plus _partial (inputs whose announced key length is >= 74).
* **C16 Exact outcome of reading an authentication payload** - Exact five-way characterisation.
* **C17 The cursor advances by exactly the bytes read** - FALSE for over-long authentication keys: witness, _partial for all other types, exact condition for auth.
* **C18 IntroductionRequest round-trip** - Codec lemma composed at packet level.
* **C19 IntroductionResponse round-trip up to the tunnel flag** - Same, tunnel erased.
* **C20 Introduction flag byte: unknown bits are ignored and canonicalised** - Decoder independence from ignored bits; canonicity iff.
* **C21 Puncture, puncture-request and time payload wire format** - Codec lemmas both directions.
* **C22 Nested packets round-trip at any depth** - Codec + induction on depth.
* **C23 Packet::add is append-only and atomic** - Generic over the Serialize class (all user types).
* **C24 Messages read back payload by payload** - Sum type of built-in self-delimiting payloads; induction over list.
* **C25 User-defined payload structs round-trip** - Universe of struct types (Sch) with derived serializer/deserializer; induction over types.
* **C26 serialized_size agrees with the bytes written** - Generic: token-level size vs bytes.
* **C27 Failed reads do not move the cursor; peeking is pure** - Generic over Deserialize class.
* **C28 Cursor safety for reading** - Op-sequence machine, invariant index <= length.
* **C29 Cursor monotonicity and prefix stability over all API histories** - Op-sequence machine including verify.
* **C30 Signing appends a signature over everything before it** - Crypto as parameters (ring), Packet.sign.
* **C31 A signed packet verifies with the signer's public key** - Scheme correctness as hypothesis.
* **C32 Authenticated messages verify and read back** - Composition of C24 + C14 + C31.
* **C33 Verification is sound** - Inversion of verify/verify_with; unforgeability as hypothesis for the corollary.
* **C34 verify_with strips exactly the signature, or panics** - Exact characterisation; induction on the number of calls.
* **C35 Verifying and then reading a received packet does not panic** - FALSE of the code: witness, exact condition, _partial.
* **C36 Payloads added after signing are not covered by the old signature** - Byte-list argument on drop/take.
* **C37 as_fixed_size accepts exactly the right length** - as_fixed_size with size and alignment; [u8;N] instance.
* **C38 Key construction yields usable, matching keys** - ring constructors as parameters with stated laws.
* **C39 The registry is a last-write-wins map** - Refinement of association list to function; induction over history.
* **C40 Messages are routed to exactly the right community, once** - Trace-producing forward_message.
* **C41 Legacy message types are swallowed** - receive: all 256 bytes, and all u64 values.
* **C42 Undeliverable messages are reported and have no effect** - iff over outcomes.
* **C43 Every receiver sees every handled datagram exactly once, in order, unaltered** - Small-step transition system of the listen loop; invariant over all reachable states.
* **C44 Datagrams are handled one at a time** - Same system.
* **C45 Oversized datagrams are cut to the buffer size, others are intact** - recv_from into a reused buffer: model the buffer contents explicitly.
* **C46 The listener only dies on I/O errors or receiver panics** - Same system with the invariant ready + pending <= queued.
* **C47 Every arriving datagram is eventually delivered** - FALSE under edge-triggered readiness: reachable state from which no arrival-free execution delivers; _partial when the queue has been drained.
* **C48 Starting IPv8 delivers packets to registered communities** - FALSE of the code: IPv8::new registers no receiver; theorem for all histories; _partial when the application adds a forwarding receiver.
* **C49 The global thread pool is built at most once** - Once cell state machine, induction over calls.
* **C50 Python verify binding** - Binding as function over Outcome; partial correctness + panic condition.
* **C51 Python sign binding** - Binding; scheme laws.
* **C52 End-to-end delivery** - Composition.
* **C53 Default configuration is usable** - Concrete table + general theorems.
* **C54 Encodings are injective and prefix-free** - Corollary of decoder-on-suffix lemmas.
* **C55 Truncated fixed-format payloads are rejected** - Corollary of exactness lemmas.
* **C56 Relaying reproduces the received bytes** - Decoder-then-encoder identity per payload type (induction over derived types), composed over the payload list; witness for the authentication payload.
* **C57 Both byte orders of bincode round-trip** - Endian-generic codec lemmas.
* **C58 Swallowed messages are logged, once, under their name** - forward_message with an explicit log; characterisation for all packets.
* **C59 Concurrent creation sets the thread pool up once** - `Model/Process.lean`: transition system of a process; inductive invariant relating the Once, the builder runs and the calls; progress and a decreasing measure.
* **C60 Sockets are neither leaked nor shared** - invariant of the same transition system: the multiset of bound addresses equals the multiset of owned ones, and the table is pairwise free of conflicts.
* **C61 Instances share the thread pool and nothing else** - `Model/Pool.lean`: product of listener transition systems with a shared bound on running receiver calls; projection, counting invariant, decreasing measure.
* **C62 Only what was sent arrives, in any network** - `Model/World.lean`: transition system of hosts and datagrams under way; counting invariant with a parameter relation (origin, at most once, exactly once), composed with C43.
* **C63 Verified messages are authentic** - `Props/Authentic.lean`: soundness of verify (C33) composed with unique readability (C24) and C62; unforgeability is the hypothesis that the packets at hand are no forgeries.
* **C64 The cursor moves by the size of the value, not by what was read** - arbitrary codecs as instances; maps as `MapPayload`; sizes of folded insertions
* **C65 Hostile lengths cost no more than the packet is long** - `Sch.elements`, `Sch.minSize` as specification; induction on the payload type; failing loops by induction on the announced count
* **C66 The life of a socket is orderly** - `Model/Node.lean`: transition system of a process with all its objects; invariant: each open object fits the history of its socket; histories are characterised by `Life` in `SpecNode.lean`
* **C67 Replies to a packet's source address reach nobody** - the same transition system; the step of an arrival at a sending socket is computed exactly, and closed sockets are silent by the invariant
* **C68 Failures are told apart** - the set of errors a reader can report is computed by induction over its structure (for user-defined payloads over the type); exact conditions from the definitional unfoldings.
* **C69 Detached and attached signatures agree** - direct, over an arbitrary crypto library with the documented laws.
* **C70 A community is reachable by its key** - corollary of the routing theorems.
* **C71 A listening thread is not disturbed by the rest of the process** - transition system of the process (Model/Node.lean); the process's execution is projected to the thread (`stepsFor`) and a simulation by induction on the execution shows that the projection alone determines the thread's state; delivery by the invariants of C47
* **C72 Signatures do not protect against replay** - listening thread with a forwarding receiver; an execution is built by induction on the list of copies, calls by C52_history, verification by C32
* **C73 Queue size and poll interval do not change what is delivered** - the steps a configuration allows (`Config.allows`); executions are rewritten by dropping timeouts, by induction; queuesize 0 by invariant
* **C74 Waiting for a listener** - `threadMain` (the closure given to `thread::spawn`) and the join result as a function of the thread's phase; which stop cause was reached is read off the history by an invariant
* **C75 Signed messages that do not fit the receive buffer** - composition of C45 (truncation) with the exact characterisation C33 of an accepted packet
* **C76 Concurrent IPv8::new calls are linearizable** - forward simulation from the concurrent process (`Process`) to the atomic one (`Node`), by induction over the run; a witness for failures
* **C77 Communities with state do not disturb each other** - `Model/Stateful.lean`: communities as state transformers on top of the registry of Model/Community.lean; bisimulation between the full history and the filtered one, by induction on the history
* **C78 From send to the receiver, across processes** - `Model/Cluster.lean`: product of the process transition systems of Model/Node.lean with a network state; invariant relates each process's log and every datagram under way to what was emitted; composed with C63, C66, C67
* **C79 While datagrams keep coming, every one is delivered** - infinite executions of the transition system of Model/Network.lean with weak fairness; a ranking function for the next `recv_from`, and the safety theorem C43 for what the receivers see
* **C80 Wire format of user-defined payloads** - `Spec.wire` (Props/Wire) writes the format down per type without serde; induction over the type shows serializer = `wire` (C80), the reader is its exact inverse (C80_read, C80_read_iff, C80_read_last) and rejects exactly the rest (C80_reject).
* **C81 A busy process starves no listener of its datagrams** - infinite runs of Model/Node.lean; the run is projected to an infinite execution of the one thread (C71's step correspondence), to which the arguments of C79 apply; the history of the socket links both
* **C82 One pool thread is enough for everybody** - infinite runs of Model/Pool.lean; a full pool gets a free thread when a call returns, so an instance that could go on is enabled again and again; projection to an execution of the one instance, then the arguments of C79
* **C83 Every panic of the reading API is known** - `PanicsOn` (Props/Panics.lean) lists the cases by length and bytes; proved call by call (iff), lifted to histories by induction.
* **C84 Which datagrams can stop a node** - `Handler` (Props/Hostile.lean) is the syntax of reading code; immunity from C28 and C46; the attack by an invariant of the dispatch phase (`Silenced`).
* **C85 Payloads with hand-written codecs, maps and other payloads inside** - Model/Composite.lean: shapes with arbitrary codecs as leaves; contracts on codecs; proofs by induction over shapes; instances for all types of the crate.
* **C86 A receiver's panic harms only receivers registered after it** - Model/Rayon.lean: the dispatch split into the jobs of rayon's parallel iterator; simulation by the coarse model of `Model/Network.lean` with a ghost list of receivers left out; converse simulation with one job per receiver; measure for termination.
* **C87 Reading takes time linear in the length of the packet** - Model/Cost.lean: the readers again with a step counter (`C87_same`: same answers); `Lin` (steps per consumed byte) composed along the readers; induction on the payload type.
* **C88 Recursive payload types, and how much stack reading one takes** - `Model/Recursive.lean`: type definitions as a finite system of equations, values as an indexed inductive family, reader by recursion on the room left on the stack (running out = abort). Round trip and abort by induction on the value; exactness, monotonicity in the stack and sufficiency by induction on the stack (with a rank for rounds that read nothing).
* **C89 The threads of the pool never deadlock, but a slow receiver of one instance can hold up another** - `Model/Workers.lean`: the jobs of `Model/Rayon.lean` of all instances on the stacks of the pool threads; invariant relating stacks and jobs (what is waited for is newer than the wait) gives progress; potential function for the bound on steps; refinement to `Model/Pool.lean`; persistence of a buried wait.
* **C90 Every packet gets through a busy pool, as long as there is an end to starting instances** - infinite runs of `Model/Workers.lean`; the waits that never end settle to a fixed list (C89's bound on the stacks), the newest of them is on top of its stack again and again and waits for nothing, so it ends: contradiction; then projection to an execution of the one instance (C89, C86) and C79. Counterexample without an end to starts: an explicit infinite life
* **C91 A message that is sent again and again gets through** - Props/LiveWorld.lean: endless lives of World (C62's model); the view of one node is an Execution (C79), arrivals unbounded by fair-lossiness; counterexample lives built from C47_false_burst for every number of sends.
* **C92 Reading takes memory linear in the length of the packet** - Model/Memory.lean: the readers again with a count of the bytes requested from the allocator, parametric in type sizes, `Vec::push` growth and serde's reserve limit (`C92_same`: same answers); amortised bound on doubling (`grown_le`), `Mem` composed along the readers, induction on the payload type; `C92_next` adds the copies the size pass makes.
* **C93 Reading payloads until the first failure ends, exactly for types whose values take room** - model: `Model/Cost.lean` (`cnextPayload`); `Props/Drain.lean`: the loop as an inductive relation `Parser.Ends`; strong induction on the unread bytes with the cursor theorems C17/C64; endless loops by totality of the reader for types of size 0; quadratic example as a tower of announcements.
* **C94 Writing takes linear time and memory, and a refused payload leaves no trace** - model: `Model/Writer.lean`: every `Serialize` impl again as the calls it makes, in order, also when it fails half way; bincode's `serialize` as a counting pass, `Vec::with_capacity` and a writing pass; `Vec` growth; `Packet::new/add/sign` on top. `Props/Writer.lean`: refinement of the functional model (`C94_same`), bounds by induction over types and lists
* **C95 The memory of a listening node does not grow with the traffic** - model: `Model/Heap.lean`: the steps of `Model/Network.lean` with an account of live, peak and requested bytes; proof by an invariant over executions (`HeapInv`), attained bound by an explicit execution, the process through C61 and `C61_bound`.
* **C96 How the pool's threads execute receivers cannot be seen** - `Model/Machine.lean`: processes whose listening threads are members of a `Workers` pool, and the network between them; forward simulation to `Cluster` (each step is one step or none there), then C78 carries over; projection to each pool, so that C89 applies. `C96_concurrent` (`Props/Concurrent.lean`): the history of a process counts exactly what its listening threads did (only stopped ones have dropped their sockets), and C89_bound limits the calls in progress.
* **C97 A message sent again and again gets through whole systems** - `Props/LiveMachine.lean`: the pool of the process is projected out of the endless execution (C96_pool's projection), which makes it a `WorkersLife` to which C90 applies; the thread keeps its socket because it never stops; then C52/C40 for communities and C32 for signed messages. `C97_arrived`, `C97_alone` and `C97_lives` lift C81 (every arrival, one message alone, the socket stays) by following the thread's view (`FleetLife.follow`).
* **C98 Signature checks ask one question each, and the answer is only told** - `Props/Questions.lean`: the library is a parameter of the model, so work asked of it is expressed by comparing runs with two libraries that agree on given questions; induction over histories and over adaptive receivers (`Inspection`).
* **C99 Hand-written Deserialize implementations** - `Model/Visitor.lean`: the programs as a mutual inductive family (`Visitor`, `Elements`) with their execution on bincode, including the position after an error; `Props/Visitor.lean`: mutual structural induction over the program; the crate's own implementations are written as programs and shown equal to the readers of the model.
* **C117 One number is enough against replays** - `Props/InOrder.lean`: the community is a program over the crate's calls (`actInOrder`; application code, not in /repo); an invariant over the packets that came, with the facts about `actOnce` of C116; the remembered number is the maximum of the times, which decides whether a packet is new; networks by C62_community, liveness from C116_live.
* **C116 A community can act on every signed message exactly once** - `Props/OnceOnly.lean`: the community is a program over the crate's calls (`actOnce`; application code, not in /repo); what passes its checks is an accepted packet and conversely (C33, C63's `signed_reads`, C115's `accepted_body`), the bytes it remembers determine the message (C114_signed); networks by C62_community, liveness by C91_community.
* **C115 Which packets read as the same message** - `Props/OneForm.lean`: what is read can be written again as the bytes it was read from (C56), and writing is a function; introductions and authentication by the exact decoders (C16, C20); signed messages by C63's argument: the body is what the key holder built from the message.
* **C114 The bytes of a message determine the message** - `Props/Meaning.lean`: the fixed 23-byte header gives mid and type; then both messages are what one reading of the bytes with the agreed types gives (C24, C24_last). With trailing bytes for the prefix claim. Signed: the authentication payload is a first payload.
* **C113 Python threads that use the binding** - `Props/Gil.lean` over `Model/Gil.lean`: threads, their calls and the GIL as a transition system. Invariant: each thread's phase comes from its first open call, at most one has the GIL, the process is lost only if an open call panics alone (C50, C51). Progress by induction over the number of open calls.
* **C112 Who sets up the thread pool, and what if nobody can** - `Props/Startup.lean` over `Model/Startup.lean`: the crate's `Once` and rayon's own as one transition system. Invariant on every user's phase in terms of who ran the closures; facts about later states by a preorder on states; progress by cases, termination by a measure; calls refine the process of C59.
* **C111 Questions and answers get through** - `Props/Conversation.lean` over `Model/Machine.lean`: C97 for each message of the conversation; what is noticed as often as you like is reacted to again and again. Asking until answered by contradiction. That it is possible, with the games of C102.
* **C110 A pool of one thread, with receivers that use it themselves** - `Props/Single.lean` over `Model/Nested.lean`: a plain sequential evaluator `plainly` as specification; an invariant that reads off the pool thread's stack and queue what will have happened when the stack is empty, as a continuation, and shows that each step keeps it. First come, first served holds for pools of any size (`C110_order`).
* **C109 Receivers that use the pool themselves** - `Model/Nested.lean`: jobs, stacks and queues of the pool; the crate's hand-over and the application's joins are the same kind of job. Progress from an invariant on stacks, queues and locks (the job that started last waits for nothing that has started; the holder of the greatest wanted lock is not waiting); termination by a multiset order on jobs; a ledger of what jobs still owe.
* **C108 Receivers that share memory behind a mutex** - `Model/Locks.lean` with a specification of what a call does by itself (`Props/Mutex.lean`). Invariant: with the order of the sections as ghost state, memory and lock are the sequential outcome when the lock is free, and the rest of the running section leads there when it is taken; each party is before, within or after its section.
* **C107 Receivers that wait for locks and for each other** - `Model/Locks.lean`: the pool of C105 with receivers as programs that take and give back locks or wait for a condition, and with other threads. Deadlock freedom by an invariant (what a party holds fits what it has still to do) and induction along the chain of lock owners; termination by a lexicographic measure (C89's bound, then the well-founded order of the programs); the knots by an invariant of every continuation.
* **C106 What the log says about a listening thread** - `Model/Log.lean`: the transition system of C43 with the lines each step writes and with receivers that write while they run. Invariants over executions (`Props/Log.lean`): the thread's lines parse as rounds whose number and kind match the steps; the warnings written, pending and still to come are a permutation of those due; two-run simulation for the independence of contents.
* **C105 A pool of one thread makes receivers sequential** - `Model/Deque.lean`: the pool of C89 with rayon's queues (own newest job first, steal the oldest only when the own queue is empty, injected closures last), and with a memory. `Props/Deque.lean`: an invariant for one thread that carries the sequence of rounds so far and the one in progress; `Props/Queues.lean`: an invariant for any number of threads (queued = unclaimed), progress from that of C89; `C105_two` exhibits what two threads may do.
* **C104 Receivers that panic in the middle of their work** - `Model/Shared.lean` `SharedNet`: the transition system of the listening thread (C43) in step with the programs of the receivers over the memory; programs may panic. `Props/Crash.lean`: an invariant over all executions (which first part of which receiver's program has been run for the datagram in hand), on top of the thread's invariant; `C104_half` exhibits half-done work.
* **C103 Memory shared by receivers and communities** - `Model/Shared.lean`: a call of `on_receive` is a tree of atomic sections over a memory; events of the listening thread and the pool, sections, and others' changes make up a history. `Props/Shared.lean`: invariant along the history (what is left of each receiver's program for the current datagram completes to a mix of the programs), on top of C44's facts on traces; commuting sections for independence; explicit schedules for `C103_every`.
* **C102 Fairness can be had in all processes at once, and then streams of messages get through whole systems** - `Props/Game.lean`: C100's game for systems: each process can be drained by itself (`fleet_works`), one after the other all are (`C102_rest`); rounds of opponent and draining are concatenated to an endless life, fair because it is quiet again and again. The stream is an opponent that sends the next message and delivers it; `C97_arrived` and the safety theorems then give the calls.
* **C101 Hand-written Serialize implementations** - `Model/Program.lean`: programs as an inductive type (`Writing`) run on a serializer given by what it does with a value; counting and writing are two such serializers. `Props/Program.lean`: what a program says is defined without a serializer (`Writing.says`); by induction over the program a run on any serializer is that, folded (`Writing.run_eq`); the rest follows. The crate's writers as programs are compared with `Model/Writer.lean` call by call (`C101_crate`).
* **C100 Fairness can be had from every state, against every opponent** - From `C89_progress` and `C89_ends` every reachable state can be drained without a panic (`C100_rest`); a life that is quiet again and again is fair (each obligation can only disappear by being met); the opponent's bursts alternate with drains, glued to one endless life by choice (`C100`). `C100_stream` instantiates it with C90_delivery.

## Trusted base

* **Lean's kernel** (4.33.0) and the faithfulness of its `UInt8/16/32/64`, `List` and `Nat` definitions. No Mathlib
  module is imported.
* **Axioms.** Only Lean's three standard ones; AXIOMS.md has the list for every theorem. Of the theorems named in MANIFEST.json, `#print axioms` reports
  `propext, Classical.choice, Quot.sound` for most (`Classical.choice` comes in through core library lemmas, `omega`, `grind`
  and `simp`), `propext, Quot.sound` or `propext` alone or none for the rest. There is no axiom of our own, no `native_decide`,
  no `bv_decide`. `decide` and `decide +kernel` are used for closed facts only (complete finite tables, concrete examples); the
  kernel evaluates them.
* **The transcription.** The model was written by reading; that it says what the Rust code says is not proved. Each definition
  cites the lines it models. `Verif/Conformance.lean` runs every unit-test vector of the repository (including the ten
  py-ipv8 packets of `tests/testpyipv8packets.rs`) on the model as a check of the transcription; these are tests, not proofs, and
  no property rests on them.
* **Assumed behaviour of dependencies** (definitions or explicit hypotheses, not axioms):
  * *serde/bincode 1.x* (`Model/Serde.lean`): fixed-width integers in the configured byte order, `u64` length prefixes, one-byte
    bool and option tags, 4-byte enum tags, tuple and struct readers with an element budget equal to the declared length,
    `deserialize` accepts trailing bytes, no size limit is configured; `serialized_size` runs the same `Serialize` impl with a
    counting serializer. The `usize` budget of `deserialize_tuple(usize::max)` is modelled (hypotheses `length ≤ usizeMax`).
  * *ring* (`Ring`, `Ring.Correct`): a record of functions; the laws (lengths; own signature verifies; a checked seed has the given
    public key) are hypotheses of exactly the theorems that use them, and are satisfiable (a toy scheme is exhibited).
    Unforgeability appears only as an explicit hypothesis of `C33_unforgeable` and `C63`, about the packets at hand
    (not about all byte strings, which no real scheme would satisfy). SHA-1 is the function `Ring.sha1`.
  * *zerocopy* `LayoutVerified::new`: size and alignment test (C37).
  * *mio/epoll* (`Listener.step`): edge-triggered: an arrival makes the socket ready, `poll` consumes the readiness, spurious
    events, timeouts and errors are possible at any time; `recv_from` takes the oldest datagram, cuts it to the buffer, and fails
    with WouldBlock on an empty queue.
  * *rayon*: `scope_fifo` returns after all spawned work; `par_iter().for_each` calls each receiver once, in any order and
    overlapping; after a panic the remaining receivers may or may not be called, and the panic is re-raised by the scope. A receiver
    call occupies a pool thread until it returns (C61; receivers that themselves use the pool are in C109 only). C86 assumes
    more: a range of receivers is halved at its middle or gone through in order, `join` always executes both halves (documented), and a
    panic abandons only the rest of its own range. C89 assumes in addition that a thread that waits (for the end of a scope, for the other
    half of a range) meanwhile executes any other jobs there are, on top of its stack, and that jobs are never lost. The fairness of C90 is a hypothesis of
    its theorems (`WorkersLife.Fair`), justified by: rayon tests whether a wait is over before it looks for another job, a thread looks
    into its own queue first (where the jobs it waits for are, unless somebody has taken them), and injected jobs are taken in order.
  * *std*: `HashMap` = finite map, `Once` (with poisoning), `Vec`, slicing and `usize` arithmetic that panic out of range
    (the code has no wrapping arithmetic that could overflow in a release build except where noted).
  * *the operating system*: UDP binds refuse conflicting addresses; two addresses reached by the same datagram conflict (`Net.excl`); the network may lose, duplicate, delay and reorder (any list
    of `arrive` labels is allowed).
  * *PyO3*: a Rust panic inside a binding reaches Python as a panic; `PyBytes` are byte strings.

## What is modelled

| Rust file | Model | Properties |
|---|---|---|
| `serialization/bits.rs` | `Model/Basic.lean` `Bits` | C01, C20 |
| `payloads/connectiontype.rs` | `ConnectionType` | C02, C20 |
| `networking/address.rs` | `SocketAddr`, `Address` | C08, C09 |
| `serialization/varlen.rs` | `VarLen16/32/64` | C03-C06, C57 |
| `serialization/rawend.rs` | `RawEnd`, `rawLoop` | C07 |
| `serialization/header.rs` | `Header` | C10-C13 |
| `serialization/nestedpayload.rs` | `NestedPacket` | C22 |
| `serialization/mod.rs` | `Packet`, `PacketDeserializer`, `Model/Cost.lean`, `Model/Memory.lean`, `Model/Writer.lean` | C12, C13, C17, C23-C30, C34-C36, C54-C56, C83, C87, C92-C94 |
| `payloads/*.rs` | `Model/Packet.lean` | C14-C21 |
| `crypto/signature.rs`, `util.rs` | `Model/Crypto.lean` | C30-C38, C68, C69, C98 |
| `community/mod.rs`, `community/peer.rs` | `Model/Community.lean`, `Model/Stateful.lean` | C39-C42, C58, C68, C70, C77 |
| `networking/mod.rs` | `Model/Network.lean`, `Model/World.lean`, `Model/Node.lean`, `Model/Cluster.lean`, `Model/Rayon.lean`, `Model/Workers.lean`, `Model/Heap.lean`, `Model/Machine.lean` | C43-C47, C52, C62, C63, C66, C67, C71-C75, C78, C79, C81, C82, C84, C86, C89, C90, C91, C95-C97 |
| `configuration.rs` | `Model/Config.lean`, `Config.allows` | C53, C73 |
| `lib.rs` | `Model/Ipv8.lean`, `Model/Process.lean`, `Model/Pool.lean`, `Model/Node.lean`, `Model/Cluster.lean`, `Model/Workers.lean`, `Model/Machine.lean` | C48, C49, C59, C60, C61, C66, C67, C71, C76, C78, C81, C82, C89, C90, C96, C97 |
| `rust_ipv8_in_python/src/*.rs` | `Model/Python.lean` | C50, C51 |
| user structs with `#[derive(Serialize, Deserialize)]` | `Model/Derive.lean` `Sch`, `MapPayload`, `Model/Composite.lean` `Shape`, `Model/Recursive.lean` `RSch` (types that contain themselves) | C25, C54-C57, C64, C65, C80, C85, C87, C88, C92 |
| hand-written `impl Deserialize` of users and of the crate | `Model/Visitor.lean` `Visitor`, `Elements` | C99 |
| hand-written `impl Serialize` of users (also with interior mutability) and of the crate, run twice by `Packet::add` | `Model/Program.lean` `Writing` | C101 |
| receivers (`Receiver + Send + Sync`) and communities that share memory with each other or with the rest of the application | `Model/Shared.lean` `Act`, `Shared`, `registryProgram` | C103 |
| receivers that panic in the middle of changing shared memory (`networking/mod.rs:131-140` with rayon's rethrowing of panics); poisoning of a `Mutex` is a flag in the memory | `Model/Shared.lean` `SharedNet`, `Shared.follow` | C104 |
| rayon's queues: a pool thread takes the newest job out of its own queue, steals the oldest one of another only when its own is empty, and begins injected closures only then (`networking/mod.rs:133-140`, `lib.rs:56-63`); memory used by the receivers of all instances | `Model/Deque.lean` | C105 |
| the log records on the way of a datagram: `networking/mod.rs:72, 96, 110, 124, 126`, `community/mod.rs:75-78`; receivers that run at the same time write in any order; lines of application code, levels and loggers are not modelled | `Model/Log.lean` | C106 |
| receivers and application threads that take locks (`std::sync::Mutex`, with poisoning) and wait for conditions, on the pool of `networking/mod.rs:122-142` and `lib.rs:56-63`; a program ends after finitely many steps; unwinding gives back all locks of the one who panics; locks of the crate itself or of rayon are not modelled; receivers that use the pool themselves are in `Model/Nested.lean` | `Model/Locks.lean` | C107, C108 |
| jobs of receivers, application and crate on rayon's pool (`lib.rs:56-63`, `networking/mod.rs:133-140`): `join` and `scope` with one `spawn` at any depth, from threads of the pool and from outside, with locks; own queue youngest first, others' oldest first; a program ends after finitely many steps; `spawn_fifo` queues, scopes with several spawns and jobs nobody waits for are not modelled; the hand-over of a packet is any way of halving or going through the receivers (`HandsOver`) | `Model/Nested.lean` | C109, C110 |
| where rayon's global pool comes from: `lib.rs:47-67` with `Once`, and `scope_fifo` of `networking/mod.rs:133` called outside of the pool; rayon's `global_registry` and `init_global_registry` (not in /repo) in the two ways known versions of rayon-core do it, chosen by `RayonHost.poisons` | `Model/Startup.lean` | C112 |
| Python threads and the interpreter lock: `rust_ipv8_in_python/src/borrowedbundler.rs:11-53` with `allow_threads`; a Rust panic that reaches the boundary loses the process (pyo3 0.7 does not catch it: abort or undefined behaviour). Simplification: the interpreter can hand the lock on between calls only, signing is one step | `Model/Gil.lean` | C113 |
| application code, not in /repo: a community that acts on each signed message once, written with the calls of `serialization/mod.rs` and `community/mod.rs` | `Props/OnceOnly.lean` `actOnce`, `actedOn`; `Props/InOrder.lean` `actInOrder` | C116, C117 |

## What is not modelled

* Log lines of application code, log levels and loggers; the lines the crate itself writes on the way of a datagram are modelled (C58,
  C106; `Model/Log.lean`). `Debug` and `Display` text of errors, except the message strings carried by `Error.custom`.
* Memory: allocation failure. Heap memory is modelled for readers (C92; `Model/Memory.lean`), writers (C94; `Model/Writer.lean`) and the listening
  thread with its receivers' packets (C95; `Model/Heap.lean`), as bytes (error values, `mio`'s event array and rayon's jobs are not counted), stack for recursive payload types only (C88). Time is modelled for readers,
  as a count of primitive reads and element requests (C87; `Model/Cost.lean`), and for writers, as a count of calls on the serializer (C94), not
  for crypto or the network.
* `derive(Serialize, Deserialize)` of user structs is `Sch` (the crate's building blocks; C25, C54-C57, C64, C65, C80) and, with arbitrary
  codecs, crate payloads, skipped fields, maps and sets at any depth, `Shape` (C85); types that contain themselves are `RSch` (C88), where
  stack is counted in nested calls of readers or writers of named types, all taken to be of one size. `i128`, `f32`, `f64` and `usize` are written as their
  bit patterns, i.e. like `u128`, `u32`, `u64` and `u64`. Container attributes of serde that change the framing (`untagged`, `flatten`:
  not usable with bincode) are not modelled. Borrowed fields are excluded by the bound on `next_payload`. Codecs in `Shape` are functions
  of the value and of the bytes left; `Deserialize` implementations as programs that make requests of bincode and decide what to ask next,
  also for more elements than they announced, are `Visitor` (C99), except programs that never end.
  `Serialize` implementations as programs, also with interior mutability, are `Writing` (C101), again except programs that never end.
* Randomness quality of key generation; side channels; the contents of PKCS#8 documents.
* `Community::new` (application code) and the endpoint it is given. Application state inside a community is modelled in C77 (a
  function of its own state and the message); memory shared between receivers, between communities and with other threads in C103 (any
  number of atomic sections; weak memory orderings are not modelled), and code that takes locks or waits in C107 and C108.
  Elsewhere a receiver is what it may call and whether it may panic, for each packet.
* That `Box<dyn Community>` is neither `Send` nor `Sync`: a receiver that owns a `CommunityRegistry` (the `registryReceiver` of C48,
  C52, C56) does not satisfy `Receiver + Send + Sync` without `unsafe` or a wrapper. C52 is about what such a receiver would do.
* Benchmarks, examples, the py-ipv8 submodule and build scripts.

## Simplifications

* `usize` is 64 bits (with a smaller one `1 << 32` in `serialization/varlen.rs:126` overflows and the crate is rejected by a default lint). Lengths in the model are natural numbers; theorems that depend on the limit carry `≤ usizeMax`.
* Errors are compared by kind; `Box<dyn Error>` identity and source chains are not represented.
* A `PacketDeserializer` owns its `Packet` (as in the code); clones are pure copies.
* Iteration order of the registry's `HashMap` is never observed by the code, so an association list is used (C39 proves it is a map).
* Everywhere except in C49, C59, C76 and C112 the global thread pool exists. C112 says when it does not: then the first datagram ends a listening thread, a
  third way besides the two of C46.

## Findings

Properties that are false of the code, with a proved counterexample and the exact condition under which they hold:

* **C12** `Packet::new` accepts headers that do not read back (mid length unchecked, type truncated to a byte).
* **C15** reading an authentication payload panics on short contents (`contents[..10]`, `[10..42]`, `[42..74]`).
* **C17** an over-long authentication payload is accepted and the cursor then points inside it.
* **C35** `verify` strips 64 bytes without checking that they lie behind the authentication payload; later reads panic. Reachable from the
  network for packets of 99 to 162 bytes and from Python (C50).
* **C47** edge-triggered polling with one `recv_from` per event: datagrams that arrive together are delivered late or never, and the
  backlog never shrinks (`C47_never_catches_up`). So no finite number of copies of a message guarantees more than one delivery (`C91_finite`); sending without end does (C91).
* **C48** `IPv8::new` registers no receiver and `start` drops the registry: communities are never called.

Also proved about the code and perhaps surprising: the `tunnel` flag of an introduction response is lost (C19); any receiver's panic ends
the listening thread for all receivers (C46); a failure of the pool builder is reported to one caller only, the others go on without (C49,
C59); `start` closes the sending socket, so no community can keep sending through it and a second default instance becomes possible only
then (C60); a user payload with a map is accepted with repeated keys, after which the cursor points inside the map (C64); a vector of zero-size elements
in a user payload is as long as the sender says (C65), and reading it takes as many steps (`C87_empty`) and, if the elements have a size in memory, as much memory (`C92_empty`);
a user payload type that contains itself lets a datagram of `n` bytes force `n` nested calls, and nothing in the crate, serde or bincode 1.1 limits them: a stack
overflow aborts the process (`C88_deep`, `C88_abort`); the source address others see of a packet is that of the sending socket, which nobody
reads and which `IPv8::start` closes, so answers to it are lost (C67); a signed message can be replayed by anybody from any address (C72); `queuesize: 0` makes a node deaf (C73);
a listener that a receiver's panic brought down leaves no log line, and `join` never answers `Ok` (C74); of concurrent `IPv8::new` calls that
compete for ports all may fail where one after the other one would succeed (C76_failures); a datagram of 25 bytes from anybody silences a
node whose community checks signatures (C84); one of the default hosts is listed twice (C53_list); a receiver that is slow or blocks can hold up
another instance of the same process whose receivers have returned, although all other pool threads are idle (`C89_buried`), and if instances are
started without end a packet may never be through (`C90_endless_starts`); a loop that reads payloads of a type which may take no room (an empty
struct, a struct that is only a `RawEnd`) until one fails never ends, on any packet (`C93_endless`), and reading authentication payloads in a loop
is quadratic up to 64 kB, because each may look at all that follows but moves the cursor 76 bytes (`C93_auth`); a `NestedPacket` too long to be written is copied in full before it is refused (`C94_copied`); whether `verify` finds a signature valid or forged
makes no difference to what is read afterwards (`C98_advisory`); a payload that changes while it is written (a counter in a `Cell`) is asked twice
by every `add`, and only the second answer is sent (`C101_twice`); a writer that catches errors of parts leaves their first bytes in the packet (`C101_caught`); receivers that hold a lock
while they wait for work they divided on the (global) pool can stop two instances for ever (`C109_held`);
a datagram that arrives before the first `IPv8::new` makes that call fail (`C112_late`, `C112_race`), and if the pool cannot be set up, one caller is told and every
other instance is created without complaint and dies from its first datagram (`C112_broken`). a panic in `verify_packet` called from one Python thread
can bring down every other thread (`C113_enough`, `C113_over`); an unsigned introduction can be changed on the way into another packet that
reads the same (`C115_unsigned`); a message's bytes do not tell which payload types were written: a receiver that agreed on others reads
another message (`C114_confused`). Theorems about
progress of the listening thread (C47, C52_progress, C71_delivered, C79, C91) are about `queuesize` of at least 1.
