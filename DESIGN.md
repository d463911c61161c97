# Formal model of Boost.Flyweight: design

The code under study is `/repo` (Boost.Flyweight), read as text and neither
built nor changed.  The model is written in Lean 4 (`/verif/lean`), by hand,
function by function; each definition cites the lines it models and names its
simplifications, or says that it has no code of its own.  Property theorems live
in `Verif/Props/*.lean`, apart from helper lemmas, and are called
`Verif.Props.Cnn_...` after the property of `properties.jsonl` they prove.

- `MANIFEST.json` (made by `manifest.py` from the theorem names and `notes.json`):
  which theorems prove which property, and what is left out.
- `AXIOMS.md` (made by `axioms.py`): axioms of each property theorem.
- `seeded/LOG.jsonl`: wrong variants of the model, and which theorems they break.

## 1. Layers of the model

| Layer | Lean modules | Code modelled |
|---|---|---|
| C++ effects: normal return / exception / undefined behaviour | `Cpp` | exception propagation, RAII scopes |
| API vocabulary, specification | `Api`, `Spec`, `SpecLemmas`, `SpecMatch`, `History` | (independent of the code) operations, interned immutable values |
| Value policies | `Policy`, `PolicyLaws` | `detail/default_value_policy.hpp`, `key_value.hpp` |
| Factories | `Factory`, `FactoryInst`, `FactoryHom`, `FactoryProd`, `Container`, `Assoc` | `hashed_factory.hpp`, `set_factory.hpp`, `assoc_container_factory.hpp`, `test/test_custom_factory.cpp`, `example/custom_factory.cpp` |
| Sequential core | `Core`, `CoreInv`, `CoreHandle`, `CoreInsert`, `CoreSim`, `CoreLazy`, `CoreClean`, `CoreMoves`, `CoreCount`, `CountLib`, `Instances`, `Library`, `Observe`, `Sample` | `detail/flyweight_core.hpp`, `refcounted.hpp`, `no_tracking.hpp`, `flyweight.hpp` |
| Concurrent core | `Conc`, `ConcInv`, `ConcStep`, `ConcReach`, `ConcRank`, `ConcOnce` | the same protocol, one atomic action at a time, any number of threads and flyweight types, nested values |
| Atomic flyweights | `Atomic`, `AtomicLemmas` | specification for C55: flyweights and values, operations that take effect at one instant; `ConcLin`, `ConcLinStep`, `ConcLinLib`, `ConcLinAct`: the concurrent core refines it |
| Identities of objects | `Idents` | Objects have different identities in `ConcHB`, `CFacHB` and `PlainHB` |
| Concurrent core without tracking | `Plain` | `no_tracking` with `simple_locking`, any number of threads; `PlainInv` invariant, `PlainRank` order of mutexes, `PlainCycle` deadlocks along cycles, `PlainHB`, `PlainHBStep` happens-before, `Lasting` specification with atomic operations, `PlainLin` refinement |
| Data races | `HB`, `ConcHB`, `ConcHBStep`, `CFacHB`, `CFacHBStep`, `CFacHBLoad` | memory accesses and synchronization of each step of the concurrent core and of `concurrent_factory.hpp` |
| Concurrent factory | `CFac`, `CFacInv`, `CFacStep`, `CFacRank`, `CFacStuck`, `CFacCycle`, `CFacRing`, `CFacStop`, `CFacTrack` | `concurrent_factory.hpp` |
| Concurrent factory, one thread in detail | `CFSpec`, `CFSeq`, `CFSeqInv`, `CFSeqIns`, `CFSeqSim`, `CFSeqLib`, `CFSeqMoves` | specification for C69 (independent of the code); `concurrent_factory.hpp` with every value policy and every throw point |
| Termination with flyweights alive | `Exit`, `ExitNeed` | `~refcounted_handle`, `flyweight_core_tracking_helper::erase`, destruction of `holder_arg` and of the containers during `std::exit` |
| Termination with `concurrent_factory` | `CFExit` | `~concurrent_factory_class_impl`, destruction of `cont` and of the entries, destructors of both handles during termination, collectors of the other types |
| Tracking policies of the user's own | `Tracker`, `TrackerSim`, `TrackerInsert`, `TrackerRun`, `TrackerPolicies`, `TrackerObserve` | `flyweight_core_tracking_helper`, the calls of the functions of any `handle_type` by `flyweight_core` and `flyweight`; `refcounted` and `no_tracking` as such policies, a cache, a quota |
| Exception specifications | `NoThrow` | which members are `noexcept`, `get_key()` with a key extractor that throws, `std::terminate`; both models of factories |
| Programs with any factories | `Session`, `SessionRun`, `SessionLib` | specification for C70: interactive programs over several types (independent of the code); both models of factories as implementations of it |
| Tests with any factories | `Examples/SessionTests`, `SessionRules`, `SessionTestsOk` | `test/test_basic_template.hpp` as programs of `Session`; rules to reason about such programs, for C71 |
| Serialization with any factories | `SessionSerial`, `SessionSerialOk`, `SessionSerialTest` | `serialize.hpp`, `serialization_helper.hpp`, `test_serialization_template.hpp` as programs of `Session`, several types in one archive, for C72 |
| Atomic flyweights with lingering values | `Linger`, `LingerLemmas` | specification for C57; `CFacLin`, `CFacLinStep`: the concurrent factory refines it |
| Amount of work, calls return | `ConcWork`, `PlainWork`, `CFacWork` | potential functions for C58; no code of their own |
| Sequential explanation of concurrent executions | `Explain`, `ExplainLinger` | for C59; no code of their own: `Spec` follows `Atomic`, `Lasting` and `Linger` |
| Serialization | `Serial`, `SerialRec`, `SerialSave`, `SerialCore`, `ArchiveTemp` | `serialize.hpp`, `detail/serialization_helper.hpp`, `detail/archive_constructed.hpp` |
| Initialization, holders, modules | `Statics`, `StaticFail`, `StaticHB`, `StaticQuiet`, `Family`, `Modules`, `ModulesExact` | `flyweight_core.hpp` (init, statics), `static_holder.hpp`, `intermodule_holder.hpp` |
| Configuration | `Config` | `flyweight.hpp:73-149`, `tag.hpp`, `*_tag.hpp` |
| Placeholder expressions | `Lambda`, `LambdaLemmas` | specifiers and factory classes as types, `detail/is_placeholder_expr.hpp`, `detail/nested_xxx_if_not_ph.hpp`, `detail/not_placeholder_expr.hpp`, types of `flyweight_core.hpp:129-147` |
| Overloads, forwarding, braced lists | `Overload`, `OverloadLemmas`, `OverloadSets`, `Braces`, `BracesLemmas` | constructors and assignment in `flyweight.hpp`, `insert` in `flyweight_core.hpp`, constructors of `rep_type`, `perfect_fwd.hpp`, `pp_perfect_fwd.hpp`, `dyn_perfect_fwd.hpp`, with C++'s rules of overload resolution |
| Operators | `Operators` | comparisons, hash, streams in `flyweight.hpp` |
| Nested construction | `Nested`, `NestedInv`, `NestedOwn`, `NestedVars`, `NestedCount`, `NestedRef`, `NestedProg` | value constructors that use flyweights of their own type |
| The verbose factory | `Verbose`, `VerboseKeys`, `VerboseMain` | `example/custom_factory.cpp`: what it prints, `main` with its vector |
| Examples | `Examples/*` | `fibonacci.cpp`, `parallel.cpp`, `composite.cpp`, `html.cpp`, `key_value.cpp`, `serialization.cpp`, `basic.cpp`, `perf.cpp`, `test_basic_template.hpp` |
| Interactive programs | `Client`, `Transparent`, `Simple`, `Distinct` | no code of their own: programs that use the API, for C63–C67 |

### Undefined behaviour
Reading or destroying raw storage, constructing over a live object, using a
handle whose entry is gone, dereferencing the factory pointer before
initialization, unlocking a mutex that is not held, integer overflow and
dereferencing an end iterator are an explicit outcome (`ub`, or `none`).  "No
undefined behaviour" is therefore a statement to be proved, not an assumption.

### Exceptions
Whether a user operation throws at the n-th opportunity is read from an
arbitrary function `faults : Nat → Bool`; theorems quantify over it, so every
combination of throwing points is covered.  In the concurrent models, throwing is
an action that may be chosen.

### Addresses
A new node is given an address by an arbitrary allocator function, constrained
only to avoid the addresses of nodes alive at the time; reuse is allowed.  Handles
are identities that are never reused, so that using a stale handle is detected
as undefined behaviour even if the address has been recycled.

### Making entries
`Factory.take` says how a factory makes the entry of a new node from its argument: `hashed_factory`
and the associative factories move it, the verbose factory of the examples copies it, the
list-update factory of the tests copies it to a temporary first (`Core.makeNode`).  Copies and moves
call user constructors, which may throw and are counted.

### Generality
The sequential theorems are about any `Setup`: a value policy, a factory, a
tracking policy and an equivalence of keys that obey laws (`Policy.Lawful`,
`Factory.Lawful`, `SrcSpec.Lawful`).  The laws are proved of the three value
policies and of the hashed, ordered, list-update and verbose factories, so no
theorem assumes anything about the library's own code; what is assumed about
the user's types (an equivalence, a compatible hash, a strict weak order, the
extractor's contract) is in the hypotheses of the instances
(`HashOk`, `OrderOk`, `SrcSpec.variant_lawful`).  `Props/Library` restates the
theorems for the list of the library's policies and factories (`LibPolicy`,
`LibFactory`) without any laws, so that a wrong policy or factory breaks them.

## 2. How each property is proved

- C01: forward simulation of `Spec` by the core (`exec_sim`), by induction on
  the program; Hoare triples for each function of the core.
- C02, C03, C10, C15, C16, C18: from the simulation and lemmas on the specification.
- C04, C13: invariant `Setup.Inv` (counts, deleter counts, live objects).
- C11: Hoare-style, counting constructions (`CoreLazy`).  C12: simulation of the
  failing operation by no operation, and `CoreClean`.  C14: law of the variant
  policy; concrete run without the contract.
- C75: forward simulation again, calls of `get_key()` that throw being left out; a fourth outcome of calls is
  termination (`NoThrow`).
- C76: a policy is arbitrary code over its own data that may call the helper's `erase`; `Tracker.Sound` asks for an invariant `J` between the
  data, the number of flyweights of each value and the values stored, under which the policy erases only stored values without
  flyweights.  Forward simulation of `Spec` without tracking, where after each operation some values that no flyweight has may
  disappear (`CRun`); the factory's state is paired with the policy's data.
- C80: the same simulation, `Tracker.fails` saying whether the constructor of a handle throws and what it does before; `Failed` is what a
  throwing operation may do to the specification's state, `CRun.left` its rule.
- C77: from any quiescent state of the concurrent model (C07 gives the counts), an invariant of the destruction of static objects
  (`Exit.Inv`): all flyweights still to be destroyed refer to existing values of types whose holder is untouched.  For recursive
  values, induction on the container's order (`clear_iff`).
- C78: the same from any state of the model of `concurrent_factory` in which no thread is creating a flyweight (`CFExit.Inv`, `CFExit.clear_iff`), with the removals of
  the collectors of other types, and the completion of destructors in progress, in between.
- C48: relational reasoning on the environment (`CoreMoves`), with C11.  Both also for `concurrent_factory`
  (`CFSeqMoves`), where it depends on what the collector has removed.
- C05–C08: inductive invariant (`ConcInv`, `ConcStep`) of the transition system.
  C07, C37: reachability and termination measure (`ConcReach`).  C09: concrete
  executions, and simulation for one thread.  C38, C39: ranks on types
  (`ConcRank`).  C81: the ranks are strict, so that without cycles a mutex is never locked again; with a cycle, an execution is
  built by induction on the path (`cycle_relocks`).  `C38_needed`: one thread per type of the cycle, each in a value constructor, by
  induction on the number of threads that have begun, then that have asked for the next type.  `C56_needed` and `C40_needed` likewise.
  `C38_exact`, `C56_exact`, `C40_exact`: a relation on finitely many types that is not well-founded has a cycle without repetitions
  (`Ring`).  `C40_mixed` (`CFacRing`): thread 0 makes the values, then each collector, then each thread takes its
  steps; at last each thread holds the mutex of its type, and waits for the element that the collector is destroying or, in a constructor,
  for the mutex of the next type; the collector waits for the mutex of the next type.  `C40_ring` is a special case.
- C49: each step of the concurrent model is labelled with its memory accesses and
  with the mutexes and counts it synchronizes with (`ConcHB`); an inductive
  invariant tells who knows of which access (`ConcHBStep`), over the
  happens-before relation of `HB`.  The program must order the uses of each
  flyweight object itself (readers are shared, changes exclusive).  The mutex
  and acquire-release decrements are each shown to be needed by a concrete race.
- C50: the same for the model of `concurrent_factory` (`CFacHB`, `CFacHBStep`), with
  the container's exclusive and shared access to elements as further
  synchronization.  The container's own memory is left out.
- C79: the invariant of C50 without any assumption on the policies, for all accesses but those to the deleter count during the life of
  an entry (`Races`), and a concrete race there.
- C51: the accesses of `init()` as events over `HB`, any number of types and threads
  (`StaticHB`); invariant: once a type is initialized, its static data are only read,
  except by the one write of `static_initializer` when it is dynamically initialized
  (`StaticQuiet`).
- C17, C19: decision logic over arbitrary user operators; Hoare-style.
- C20–C22, C24: induction on keys and token lists; C24 with its negation, and with the exact condition
  (`C24_iff`: a function `reload` computes what is loaded in every case, and sizes of keys show that a
  wrong exemplar is never the right one by coincidence; serialization functions must not decide what to
  read next by what flyweights were loaded as).  C23:
  the core interleaved with saves (`SerialSave`).  C41: Hoare-style (`ArchiveTemp`).
- C25–C27, C40: inductive invariant of the transition system of
  `concurrent_factory` with collectors, for `refcounted` or `no_tracking` with `simple_locking` or `no_locking`; C28: that of owner and collector, with a
  ranking function.
- C29, C30: transition system of static objects.  C31, C33: product of cores
  over a common allocator, non-interference; modules sharing one factory.
- C32: functions on argument lists, permutation invariance.
- C34, C35: the containers' invariants.  C36: morphisms of factories and their
  product; for factories that make entries in different ways, a pairing of the states of
  two runs of the specification (`SpecMatch`).
- C42, C46: constructors as programs (`Body`), induction on the rank of keys.  C74: the same with
  `refcounted`; the invariant counts the flyweights held by the program and by the constructors
  under way (`Counted`).
- C43: induction on the text.  C44: induction on documents and on sequences of
  characters.  C45, C47: refinement of plain trees by a heap of shared ones.
- C52: the candidate better than all others is chosen (`resolve_eq`); the
  forwarding overloads by induction on the arguments (`mask_spec`); the documented
  constructors as a second overload set with the same outcome (`C52_documented`).
- C53: the factory's state includes the lines printed, and its invariant says that they can be read
  one after the other and yield the stored entries (`verboseFactory.noted`, a stronger instance of the
  factory laws); what each operation can print comes from partial-correctness triples over the functions of the core
  (`told_insert`, `view_handleDtor`), and the invariant decides between the possibilities.  `main` by
  induction on the tokens, for any program that keeps a flyweight of each token (`Prog`).
- C54: types as terms, structural induction (`resolve_plain`: invoking a lambda expression is
  substitution); the user's templates and metafunction classes are arbitrary functions.
- C55: refinement with an abstraction function (`Conc.abs`): an entry counts as a value if it is constructed
  and its reference count is positive or somebody is about to check it.  Making takes effect at `add_ref`, destroying at
  `release` if the count stays positive and else at the check under the mutex.  The specification's own invariant is proved apart
  (`AtomicLemmas`).
- C56: as C05-C09, C38, C39, C49 and C55 with simpler invariants (no counts; an entry without a value belongs to exactly one
  frame).  What differs from C38: only value constructors that *create* flyweights nest mutexes, since destruction takes none.
- C57: refinement with an abstraction function (`CFac.abs`): elements of the container that the collector is not just erasing are
  values.  Making takes effect when the element is found or inserted (or, if the value was not there, when its constructor has
  returned), destroying when the count is decremented, collection when the collector erases.  The specification's own invariant
  is proved apart (`LingerLemmas`).
- C58: a potential function (`left` of each frame, plus `leftE` of each entry and one for each reference that will be released) decreases
  with every step inside the library and grows by a constant with each creation or copy; the bound follows by induction. In an infinite fair
  execution without new calls the state becomes constant (`Conc.refused`), so no thread can proceed, and by the absence of deadlock (C38,
  C40, C56) all stacks are empty.
- C59: on top of C55-C57.  Invariant (`Tally`): the state of the sequential specification has as many variables bound to each value as
  there are references to it in the atomic flyweights (objects, values, calls in progress), and the same values.  Each atomic step is
  then zero or one operation of `Spec` (`Effect`, `Effect'`, `EffectL` tell which); without tracking the destruction of an argument along with a call is
  several.  Flyweights of different types become one type with pairs of type and key as keys.
- C60: `Env.acts` logs each construction and destruction of a key or value inside the library.  `Count.Toll` says how often one kind of
  construction occurs in each function of a value policy; `tally_step` adds this up along `Core.insert`.  Assignments that create
  nothing, and the balance of constructions and destructions, are relations between environments that hold across every operation
  (`CoreMoves`).  Elision: with `no_tracking`, `entry_type` is `rep_type`, and `entry_type e((rep_type(x)))` makes no temporary
  (mandatory since C++17; assumed for older compilers, which may do it).
- C61: what an operation prints is read off the growth of the tallies of C60.  `printed_step` relates it to the notes that the
  operation would make with the verbose factory of C53 (a new key, a key found, an entry erased), so that the lemmas about the vector
  (`Seg`, `seg_push`, `seg_lines`) serve both programs.  Destructions follow from the balance of C60 and the number of values (C13).
- C62: the general round trip of C20 for the vector of tokens; the archive is computed by induction over the tokens.
- C63: the tests as programs of the model (`Examples/Tests`), with rules for statements and blocks (`Client`) over the
  view of all variables that the simulation of C01 maintains.
- C64: programs are trees of operations that branch on what is observed (`Prog`); `fly_plain` goes by induction on the tree, one step
  of the view of C63 at a time.  The hypothesis `Regular` is needed: with keys compared modulo 10 the example below the theorem
  reads 3 where plain variables would hold 13.
- C65: an instance of C64; the run with plain variables is computed by induction on the users.
- C66: the pool of the specification has one triple for each class of keys; the example is an
  instance of C64, and a run of an interactive program is the execution of a list of its operations,
  which create flyweights of tokens only.
- C67: Hoare-style (`SerialCore`): saving and loading are blocks whose local variables are the
  exemplars of the helpers; the invariant relates them to the addresses written and to the keys read.
- C68: invariant on the local static and the positions of the threads; a rank for the steps of a call.
- C69: refinement of `CFSpec` (`exec_sim`), Hoare-style as for the other factories; in addition a value policy says
  what it leaves in an entry whose value could not be constructed (`Policy.Lawful.Leaves`).  The other statements follow
  from the relation; counts of values from `Rel.count`.
- C70: simulation of `Session.Runs` by each of the two models of factories (`Engine.fly_sound`, `Engine.cf_sound`), composed
  over the family of types (`run_sound`); plain variables as in C64, by induction on the run.
- C71: the tests once more, as programs of `Session`; the proofs use `Session.Sat` only, never a factory (`SessionRules` has a rule
  for each kind of statement and for blocks), and C70 does the rest.
- C72: by induction on the program, every run with an archive gives a run without (`Saver.archive_sat`, `Loader.archive_sat`): the
  exemplars are variables above those of the program (`lay`), whose operations are possible without them, too (`allowed_lay`).  The
  invariant is that flyweights with equal addresses or equivalent keys are the same (`Coherent`).
- C73: by cases on what the braced list converts to; the key fact is that the constructor for any arguments makes every braced list
  convertible to the flyweight (`fromBraces_true`), which then competes with the value type.

## 3. Disagreements: properties the code violates

Each is proved as a negation with a concrete witness, next to `_partial`
theorems with the largest part found to hold.

| Property | Witness | What goes wrong |
|---|---|---|
| C17 | `C17_violated` | `<=`, `>=` of flyweights are `!(y<x)`, `!(x<y)`, hence differ from those of partially ordered values (NaN); exactly when: `C17_values_iff`. |
| C24 | `C24_violated`, `C24_wrong`, `C24_iff` | `f=hlp[n]` in `load` uses the index read before the nested flyweights of the same type were appended: the target gets the first exemplar registered while its key was read. |
| C29 | `C29_violated` (`C31_uninitialised`) | With `intermodule_holder`, a module that reads, copies or destroys a flyweight before its own static pointers are set dereferences null; exactly these programs do (`C29_modules_iff`). |
| C32 | `C32_duplicate_ignored` | The assertion in `flyweight.hpp` does not detect two deduced arguments of one kind; whether they are rejected depends on Boost.Parameter (not in the repository). |
| C40 | `C40_deadlock`, `C40_deadlock_any`, `C40_deadlock_two`, `C40_ring`, `C40_mixed` | `concurrent_factory` with `refcounted`, `simple_locking` and values containing flyweights of the same type: lock-order deadlock between collector and insertion, whatever the type, keys and their equivalence; also for two types containing each other, and for any number of types along a cycle of containment, or of containment and constructors. |
| C42 | `C42_violated` | Request 1 does not construct index 0; index 47 overflows `int`. |
| C44 | `C44_violated` | Declarations in the middle, names with an open quote, a stray `<`; ASCII input ending in an odd number of `<` reads past the end (exactly then, `C44_defined_exact`); non-ASCII names reach `tolower`. |
| C45 | `C45_violated` | The printer separates by newlines, which the parser does not treat as separators. |
| C51 | `C51_violated` | Calling `init()` before starting threads, as documented, does not exclude a data race: the later dynamic initialization of `static_initializer` writes it (the same value) while the threads read it. That write is the only event that can race (`C51_recipe_partial`). |
| C75 | `C75_violated` | `flyweight_core::key` is declared `noexcept(noexcept(static_cast<const rep_type&>(entry)))`, which leaves out the conversion of `rep_type` to the key. So `get_key()` is never `noexcept` with `refcounted` (`refcounted_value::operator const Value&` is not), and always with `no_tracking`, where an exception of the key extractor calls `std::terminate`. |
| C78 | `C78_violated` | A `concurrent_factory` keeps values that no flyweight refers to until the collector comes by. If these contain flyweights of their own type, the destruction of the factory at the end of the program has undefined behaviour even though the program has destroyed all its flyweights: with `refcounted` and `simple_locking` the mutex, destroyed before the factory, is locked; with any other policies the count of an entry that has been destroyed already may be decremented, depending on the order of the hash table. |
| C79 | `C79_violated` | The reference says that `concurrent_factory` needs no external locking. With `no_locking` and `refcounted` (the default) two threads may change the plain `long` deleter count of a value at the same time, in the constructor of a handle and in `check_erase`. Nothing depends on its value; all other accesses are synchronized. |

Documented or expected hazards proved along the way: `C09_*` (deleter count and
lock are needed), `C14_necessary`, `C28_order_needed` (`gc` must be declared
last), `C30_hazard`, `C30_nested_hazard`, `C34_incompatible`, `C35_not_strict`,
`C38_cyclic`, `C38_needed`, `C56_needed`, `C40_needed`, `C56_cyclic`, `C46_own_key`, `C54_nested_type`, `C54_value_types`, `C54_derived`.

## 4. Other observations on the code

1. `serialize`, `save` and `load` match flyweights with at most three policy arguments only.
2. A value constructor asking for its own key never succeeds (`C46_own_key`);
   for other keys it is fine thanks to the recursive mutex, but not with
   `concurrent_factory`, whose container must not be reentered.
3. `insert_and_visit` erases the entry in its handler; this is safe because the
   visitor throws only for entries that are new.  Line 93 of `flyweight_core.hpp`
   has `fac()` for `fac`; that overload is instantiated only without rvalue
   references (lines 272, 287), where it would not compile.
4. A throwing visit in `concurrent_factory` leaves an entry without value, which
   is repaired by the next insertion or collected (C27).
5. Move of a flyweight is a copy; `operator>>` assigns also when extraction fails.
6. Rvalues are moved from always (plain flyweights) or only if new (extractor): C48.
7. The save helper holds copies of flyweights, so addresses are not recycled
   during the life of an archive; this is what makes C23 true.
8. Different spellings of a configuration are different C++ types that share
   core and factory.
9. `init()` called for the first time by several threads at once: the writes of
   the static pointers race (`C51_needed`; benign under sequential consistency,
   `C29_threads`).
10. An object of a class derived from a flyweight type is copied by assignment, but
    looked up anew by construction (`C52_derived`); with `key_value` this needs a key
    that can be made from it.
11. `parallel.cpp` with no threads tokenizes nothing; `fibonacci.cpp` recurses
    forever on negative numbers; `perf.cpp` computes a remainder by zero for a file without
    tokens.
12. `product_key_value::rep_type(const value_type&)` leaves `value_cted`
    uninitialised, but using it is rejected at compile time.
13. With `concurrent_factory` the key of a failed construction may end up in a later flyweight: the entry
    that remains (4) has the first key, and the next creation from an equivalent one constructs the value from that
    (`C69_takeover`).  With the other factories the key and the value are always those of a creation that succeeded.
14. `f={a,b}` and `f={}` do not compile if the value type takes the braced list by a constructor and there is no
    `initializer_list` for it: the `explicit` variadic constructor counts as a conversion to the flyweight, too, so the
    assignments from flyweights and from values are ambiguous (`C73_assign`).  `f={}` compiles for numbers.
15. The reference says that the functions for `initializer_list<V>` are not available unless the key is
    *constructible* from it; the code asks for *convertible* (`flyweight.hpp` 209, 224).  With an `explicit` constructor
    from `initializer_list<V>`, `flyweight<T>{a,b}` hence passes `a` and `b` as two arguments (`C73_elements`).
16. `std::exit` with flyweights alive is harmless for plain values, as release notes 1.45 promise, but not in general: when a
    factory is destroyed its mutex is gone already (`holder_arg`, `flyweight_core.hpp` 214-218), and the flyweights inside the values release
    their references.  For values that contain flyweights of their own type (`example/composite.cpp`) the last of them locks the destroyed mutex
    and erases from the container under destruction (`C77_hazard`); the same happens to a flyweight that is never deleted.
17. The reference asks for nothrow copies and assignments of a tracking policy's handles, but not that they be made from the factory's
    handle without exceptions.  If that throws, `insert_rep` and `insert_value` leave the entry in the factory, other than `insert_and_visit` when a
    value's constructor throws: a new value stays until it is found by a creation with an equivalent key (`C80_left`, `C80_matters`).
    A policy can have it erased before it throws (`C80_cleaned`); a policy that catches nothing, say because its own memory is
    exhausted, leaks it.

## 5. Trusted base

- Lean 4's kernel.  Axioms: only `propext`, `Classical.choice`, `Quot.sound`
  (per theorem in `AXIOMS.md`); no `sorry`, no `native_decide`, no own axioms.
- The correspondence between the model and the C++ text, made by hand.
- The following, represented by their documentation:
  Boost.MultiIndex hashed indices and `std::set` (as chains of nodes and ordered
  sequences; one throw point per lookup); `boost::concurrent_node_set` (exclusive
  access per element, no rehashing); mutexes, condition variables, threads and
  atomic counters (sequentially consistent); Boost.Serialization (tokens in
  order, `get_helper` giving one helper per type and archive, no object tracking of
  flyweights); `intermodule_singleton` (one object); reverse-order destruction of
  static objects; Boost.MPL (placeholder expressions); Boost.Parameter (both possible behaviours on duplicates);
  Boost.Tokenizer; `std::vector`, `std::string` and streams as values.

### Modelled
All of `include/boost/flyweight` that has run-time behaviour:
`flyweight_core.hpp`, `default_value_policy.hpp`, `key_value.hpp`,
`refcounted.hpp`, `no_tracking.hpp`, `hashed_factory.hpp`, `set_factory.hpp`,
`assoc_container_factory.hpp`, `concurrent_factory.hpp`, `simple_locking.hpp`,
`no_locking.hpp`, `recursive_lw_mutex.hpp` (as owner and depth),
`static_holder.hpp`, `intermodule_holder.hpp`, `serialize.hpp`,
`serialization_helper.hpp`, `archive_constructed.hpp`, and the class, operators
and configuration of `flyweight.hpp`; the custom factories of tests and
examples; all example programs, and the templates of the tests (C63, C71, C72).

### Not modelled
- Braces within braces, other implicit conversions to a flyweight (they are given, in C52), arrays and functions as
  arguments.  Elsewhere than in C52 and C73, arguments are represented by the key they construct.
- Template machinery (`value_tag.hpp` and the other tags) beyond the argument kinds of C32.
- Debug-mode serialization checks, class versions, names of items, pointers and
  object tracking of Boost.Serialization.
- Values read by relaxed atomic operations other than in the order of the
  interleaving.  C49 and C50 cover the orders needed to exclude data races: the
  counts are changed by read-modify-write operations only, which act on the latest
  value whatever their order.  The collector's load of a count never returns a
  stale zero (`C50_no_stale_zero`); if it returns a stale positive value the entry is
  only spared until the next pass.
- The memory of `boost::concurrent_node_set` itself; that it calls functions with
  exclusive access to the element, and compares keys with shared access, is taken
  from its documentation.
- Memory exhaustion outside the throw points; stack overflow (a parameter in C42, C46, C74).
- Console input and output of the examples' `main`; the allocator that counts bytes and the
  clock of `perf.cpp`.
- Tracking policies of the user's own with several threads, with `concurrent_factory`, or with functions that throw other than the
  constructor of a handle from the factory's handle (C76, C80).
- `std::exit` with `intermodule_holder`, or with threads inside the library (C77), except, with `concurrent_factory`, collectors and
  threads that are destroying flyweights (C78).
- Exceptions thrown by the user's destructors; by a key extractor called from `get_key()`, except in C75.  (Where a key extractor is called while an entry
  is made or looked up there is a throw point.)

Simplifications local to one definition are stated there.  The main ones: copies
and moves of user objects yield equal objects; in the concurrent models, transient
copies of handles are omitted, and the value of the deleter count of `refcounted` under
`concurrent_factory` is left out because `erase` does nothing there (its accesses are part of C50 and C79); in C47 there is a
single count per entry (the deleter count is covered by C04 and C05–C08).

## 6. Testing the theorems against wrong models

A copy of the project is edited as a realistic bug would, one definition at a
time, everything downstream is rebuilt, and the property theorems that no longer
check are collected (a declaration counts as failed if it does not compile or
depends on one that does not).  `seeded/LOG.jsonl` has one line per attempt.  Where
a claim had become false and its theorems still held, they were tightened; such
attempts name the theorems changed.
