{
 "C01": {
  "note": "Refinement of the specification by the sequential core, for every lawful policy and factory."
 },
 "C02": {
  "note": "Sequential; see C05 for threads."
 },
 "C05": {
  "note": "Sequentially consistent atomics. Same-key reentrancy of a value constructor is a separate outcome (C39), not ub; every other schedule is covered."
 },
 "C06": {
  "note": "Flyweight objects and flyweights inside values held by factories."
 },
 "C07": {
  "note": "Exactly the reachable entries; reference count equals the number of referring flyweights."
 },
 "C08": {
  "note": "Both as lock ownership of the accessing frames and as a statement about what a step may change."
 },
 "C09": {
  "note": "Negative parts by concrete executions; positive part by simulation of no_locking by simple_locking on one thread."
 },
 "C11": {
  "note": "At most one construction per creation, none on a hit, none by other operations; refcounted and no_tracking. Also for concurrent_factory with one thread, where values linger: none if an equivalent key is in use, one if none has been used successfully, exactly determined after a pass of the collector."
 },
 "C12": {
  "note": "Every throw point of the model; the number of comparisons within one lookup is abstracted to one throw point. A key extractor called by get_key() is treated in C75."
 },
 "C14": {
  "note": "Sufficiency for hashed_factory; necessity by a concrete run."
 },
 "C20": {
  "note": "Any number of types, any nesting without type repetition, any user format; archive contents as tokens, without names and versions. Loading into any program with pairwise inequivalent entries."
 },
 "C21": {
  "note": "Saving does not throw in this model (failures of saving: C23)."
 },
 "C22": {
  "note": "Any token list, table, user format and constructor behaviour. A missing or mistyped item throws (Boost.Serialization)."
 },
 "C23": {
  "note": "Sequential core with saves interleaved with any operations, any fault oracle and allocator; one flyweight type."
 },
 "C24": {
  "note": "The code violates the property: C24_violated (negation, with a witness) and C24_wrong (what every such load yields). C24_clean_partial: it holds if flyweights inside one of the same type were saved before. C24_iff: and only then, if serialization functions do not decide what to read next by what flyweights were loaded as. C24_loaded: what may be said of what is loaded in any case.",
  "status": "partial"
 },
 "C25": {
  "note": "Any number of threads and collectors, with refcounted or no_tracking and simple_locking or no_locking; concurrent_node_set represented by exclusive access per element."
 },
 "C26": {
  "note": "Safety per step; reclamation for any schedule of a pass during which no handle refers to the entry."
 },
 "C27": {
  "note": "Failing insertion yields no object; the next insertion to access the entry constructs the value; collected otherwise."
 },
 "C28": {
  "note": "Owner and collector with time-outs and spurious wake-ups; termination from the point where stop is set, the wait for the mutex before that bounded in steps of the collector."
 },
 "C29": {
  "status": "partial",
  "note": "Any number of types and any order of events in one module; several threads under sequential consistency (the code's writes of the static pointers race). Violated in programs of several modules (C29_violated): a module that reads, copies or destroys a flyweight before its own static pointers are set dereferences a null pointer. C29_modules_iff: exactly the programs in which a module does so, all others following the specification in whatever order the modules are initialized (C29_modules_follow)."
 },
 "C30": {
  "note": "C30_iff characterises exactly the programs whose static destruction is safe, C30_hazard and C30_nested_hazard the two ways to go wrong (the second is not in the documentation). The reverse-order rule of C++ for static objects is trusted."
 },
 "C34": {
  "note": "Container behaviour (Boost.MultiIndex hashed index) modelled from its documentation; nodes and buckets explicit."
 },
 "C35": {
  "note": "std::set modelled by its in-order sequence."
 },
 "C36": {
  "note": "Any two factories lawful for the same equivalence. Those that make the entry of a node in the same way (hashed and set: by moving) agree also on which operations throw under any fault oracle (C36_interchangeable). Factories that copy (list-update, verbose) call other user operations, so throws can differ; whenever the same operations throw, in particular if none does, all results agree up to addresses (C36_same_throws, C36_no_faults)."
 },
 "C37": {
  "note": "Termination and exact effect of the cascade, from any quiescent state."
 },
 "C38": {
  "note": "Positive part under the stated containment discipline (Reachable/Disc); the need for the condition for every cycle of types (C38_needed), and a concrete execution by destruction of containing values (C38_cyclic). Between finitely many types the condition is exact (C38_exact)."
 },
 "C39": {
  "note": "Any program of any number of threads (discipline trivial)."
 },
 "C40": {
  "note": "Violated as stated (C40_deadlock; C40_deadlock_any: for every type whose values contain flyweights of the same type and any two keys that are not equivalent; C40_deadlock_two: for two types containing each other; C40_ring: for any number of types containing each other along a cycle; C40_needed: for constructors creating flyweights of each other's types along any cycle, with any policies; C40_mixed: for cycles in which some constructors create and some values contain flyweights of the next type); the _partial theorems give the largest part that holds: acyclic containment and construction. With finitely many types, and constructors that do not create flyweights of their own type (which concurrent containers do not allow), standstill is possible exactly if types use each other along a cycle, whatever the policies (C40_exact).",
  "status": "partial"
 },
 "C41": {
  "note": "Both constructors are the same here (one names the item)."
 },
 "C31": {
  "status": "proved",
  "note": "static_holder: one model of the core per module over a common allocator (Verif/Family.lean). intermodule_holder: one factory, one set of pointers per module (Verif/Modules.lean); that intermodule_singleton yields one object is trusted. C31_equality needs modules using a flyweight to have run their static initializer; C31_uninitialised shows that it is needed."
 },
 "C33": {
  "note": "One state of the core per instantiation, common allocator; operations on different types are not nested in one another (a value constructor using flyweights of another type is covered by C38 and C30)."
 },
 "C17": {
  "status": "partial",
  "note": "Violated as stated for values whose operators are not related in the usual way, e.g. partially ordered ones: C17_violated (<= and >= of flyweights are computed as !(y<x) and !(x<y)). The _partial theorems prove agreement for coherent comparisons; strict weak and total order (C17_order, C17_total) are proved in full. C17_values_iff says exactly when all six agree. Throwing or otherwise effectful comparisons of values are covered by C17_calls, apart from those that use the flyweights compared."
 },
 "C19": {
  "note": "The stream and the extraction are arbitrary; 'exactly the value' holds when the factory's equivalence is equality (C19_exact), otherwise an equivalent value (C19_extract)."
 },
 "C32": {
  "status": "partial",
  "note": "Order, defaults and rejection of unrecognised arguments proved. Two arguments of the same kind: rejected when given by keyword; when deduced, it depends on Boost.Parameter, which is not in the repository: C32_duplicate_partial and C32_duplicate_ignored treat both possibilities. The library's own assertion does not detect duplicates."
 },
 "C42": {
  "status": "partial",
  "note": "Literally false (C42_violated): requesting 1 does not construct the value of index 0, and the number of index 47 overflows int. The _partial theorems prove it for every request whose number fits in the integer type (any limit), the needed indices being 0..n for n >= 2 and n itself otherwise. Stack depth is a parameter (fuel)."
 },
 "C43": {
  "note": "For at least one chunk (with none the example tokenizes nothing). Threads only append to their own outputs; strings are values."
 },
 "C46": {
  "note": "no_tracking (C74: refcounted), product key_value (no key extractor), factory whose predicate is equality of keys; any constructor program (Body) asking for smaller keys. C46_own_key: asking for the own key never succeeds, with either tracking."
 },
 "C45": {
  "status": "partial",
  "note": "The literal round trip is false (C45_violated): the printer separates by newlines, which the parser does not treat as separators. The _partial theorems prove it with newlines read as blanks: tokens are preserved up to one outer pair of parentheses, and parsing the output gives a list whose only element is the very same entry. Acceptance, sharing, absence of leaks and of undefined behaviour are proved in full (memory exhaustion not modelled here, see C47)."
 },
 "C47": {
  "note": "Default value policy, refcounted, one factory; single counter per entry (deleter count abstracted, see C04/C06). Throwing insertions included."
 },
 "C44": {
  "status": "partial",
  "note": "Proved for every well-nested document (elements closed by tags of the same name, ASCII names without quotes or angles, no opening angle as text; declarations allowed at the beginning) and every sequence of its characters, and for any scanned document under explicit conditions. Flyweights are represented by their values (C01). C44_violated shows the excluded documents: a declaration in the middle, a name with an open quote, a stray '<', a document ending in '<' (reads past the end; for ASCII documents exactly if the number of angles at the end is odd, C44_defined_exact), non-ASCII names (tolower on negative values)."
 },
 "C48": {
  "note": "Any factory and tracking policy. A throwing move constructor of the user is modelled as not having moved. The default policy promises nothing about the argument when the operation throws. Also for concurrent_factory with one thread."
 },
 "C49": {
  "note": "Happens-before over interleavings of atomic steps (program order, mutexes, counts, and the program's own ordering of uses of an object). Read-modify-write operations are assumed to act in the order of the interleaving."
 },
 "C50": {
  "note": "Happens-before over interleavings of atomic steps. Exclusive access to an element and shared access for comparing keys are taken from the documentation of boost::concurrent_node_set; its own memory is not modelled. C50_no_stale_zero shows that the collector does not depend on its load returning the latest value. refcounted with no_locking is left out here: see C79."
 },
 "C51": {
  "status": "partial",
  "note": "Violated by the documented recipe (C51_violated): static_initializer is written once more when it is dynamically initialized, whose time the program does not control, while threads started earlier read it. The value written is the one already there (C51_same_value). The _partial theorems prove the property for programs in which that dynamic initialization does not begin after other threads use the type: with any synchronization by the program (C51_ordered_partial), or by starting threads (C51_started_partial). With that dynamic initialization at any time, no null pointer is found and that single write is the only event that races, with reads only (C51_recipe_partial, C51_ordered_late_partial). Factory and mutex themselves are constructed once, and that happens before what any thread does that has obtained them within init(), in every execution (C51_constructed)."
 },
 "C52": {
  "status": "proved",
  "note": "About which functions are called and what arguments they get, given C++'s rules of overload resolution (modelled for references, inheritance, conversions and the templates involved). Braced lists: C73. Implicit conversions to a flyweight are given. Without rvalue references the library does not compile for another reason (DESIGN.md, section 4, item 3), so that part is about the overloads only."
 },
 "C53": {
  "status": "proved",
  "note": "Printing itself (std::cout) is assumed not to throw. The text is a list of tokens (boost::tokenizer is not modelled), the vector a list of elements whose storage is replaced when full; C53_tokens covers any way of moving or copying elements that keeps a flyweight of each token."
 },
 "C54": {
  "status": "proved",
  "note": "What Boost.MPL does with placeholder expressions (lambda, bind, quote) follows its documentation; Boost.MPL is not in the repository. Types are terms. C54_hashed, C54_set and C54_concurrent are for arguments whose templates have no nested type called type (C54_nested_type shows what happens otherwise); the entry and key types of the latter two are not placeholder expressions (C54_value_types)."
 },
 "C55": {
  "status": "proved",
  "note": "The specification is Verif/Atomic.lean. Steps of a thread inside the library are matched by a step of the specification or by none; actions of the user are always matched. Executions in which a value constructor asks for the very key it constructs (outcome reentrant) end there. Factories are sets of entries, as in C05-C09; for concurrent_factory see C25 and C26."
 },
 "C56": {
  "status": "proved",
  "note": "The specification of C56_steps is Verif/Lasting.lean. Executions in which a value constructor asks for the very key it constructs (outcome reentrant) end there. Factories are sets of entries, as in C05-C09; for concurrent_factory see C25 and C26. C56_needed: the condition on constructors is needed, for every cycle of types. Between finitely many types it is exact (C56_exact)."
 },
 "C57": {
  "status": "proved",
  "note": "The specification is Verif/Linger.lean. Steps of a thread inside the library, and a collector's visit of an element, are matched by a step of the specification or by none; actions of the user are always matched. boost::concurrent_node_map is as in C25: visitation gives exclusive access to an element, erase_if checks and erases in one step. Executions in which a value constructor asks for the very key it constructs (outcome reentrant) end there."
 },
 "C58": {
  "status": "proved",
  "note": "Steps are those of the models (lookups, allocation and construction count as one step each), so the bound says that there are no loops around them; within one container operation and within a pass of the collector over the elements not visited nothing is counted. Fair executions are infinite sequences of actions in which no new calls begin, every thread gets turns again and again and value constructors in progress are allowed to return. The second part assumes, as C40 and C56 do, that types are used without cycles; with concurrent_factory collectors neither wake up nor begin to visit further elements, and end up waiting or between two elements. That cycles do lead to deadlock is C38_cyclic, C40 and C56_cyclic."
 },
 "C59": {
  "note": "On top of C55 (refcounted), C56 (no_tracking) and C57 (concurrent_factory), with sequentially consistent atomics. The sequential program is in terms of the specification of C01."
 },
 "C67": {
  "note": "One flyweight type whose keys are plain data; keys that contain flyweights are treated in C20-C24. Boost.Serialization is a list of tokens; the elements of the vector exist, made from a default key, before they are loaded."
 },
 "C68": {
  "note": "static_holder; the rules of C++ for local static variables. Sequentially consistent memory: the pointers are not atomic, see C51 for the data races."
 },
 "C74": {
  "note": "refcounted, product key_value (no key extractor), factory whose predicate is equality of keys; any constructor program (Body) asking for smaller keys; its temporaries live until it ends. One thread. Stack depth is a parameter (fuel)."
 },
 "C75": {
  "status": "partial",
  "note": "Violated as stated (C75_violated): the exception specification of flyweight_core::key looks at the conversion of the entry to rep_type, not at that of rep_type to the key. C75_runs_partial and C75_concurrent_partial prove the rest: with refcounted, or with no extractor or one that is noexcept. C75_no_tracking and C75_get_key say exactly what happens otherwise."
 },
 "C76": {
  "note": "A policy is code over data of its own (Tracker, Code): its functions compute and call the helper's erase. Only the constructor of a handle from the factory's handle may throw (C80), and the data kept in entries is part of the policy's data. One thread; factories other than concurrent_factory."
 },
 "C77": {
  "note": "refcounted, factories other than concurrent_factory, static_holder; starts from any reachable state of the concurrent model in which no thread is inside the library. Other threads do nothing during termination. The flyweights inside a value are destroyed in the order of the list (the theorems hold for any such list)."
 },
 "C78": {
  "status": "partial",
  "note": "Violated by the code for values that contain flyweights of their own type, even if all flyweights have been destroyed (C78_violated). C78_defined_partial proves the claim for the others, C78_recursive says exactly when termination is defined for these. static_holder; no thread is creating a flyweight when termination begins, but destructors and passes of the collectors may be in progress; during termination, a collector's erasure of an entry and the completion of a destructor are one step each."
 },
 "C79": {
  "status": "partial",
  "note": "Violated by the code for refcounted with no_locking (C79_violated). The deleter count decides nothing with concurrent_factory, whose erase does nothing. C79_only_race_partial: no other data race with any combination of policies; C79_untracked_partial: none at all with no_tracking; C79_sound_partial: everything else holds in all interleavings. A data race is undefined behaviour in the C++ standard whatever the value is used for; C79_sound_partial describes interleavings of atomic steps."
 },
 "C80": {
  "note": "The tracking policies of C76, with a constructor of handles that may throw after running code of its own (Tracker.fails). C80_left assumes that nothing else throws and that the policy has nothing erased before it throws (Leaves); C80_cleaned that no value is left without flyweights."
 },
 "C81": {
  "note": "For simple_locking-like policies with refcounted, in the concurrent model of C05-C09 (C81_untracked: with no_tracking, in that of C56), under the discipline of C38 (uses), without cycles; C81_exact shows that with a cycle there is a program locking again. Locking again a mutex that does not support it is counted as undefined behaviour, as with std::mutex."
 }
}