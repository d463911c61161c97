{
 "claims": [
  {
   "property": "C01",
   "status": "proved",
   "theorems": [
    "Verif.Props.C01_refinement",
    "Verif.Props.C01_library"
   ],
   "note": "Refinement of the specification by the sequential core, for every lawful policy and factory."
  },
  {
   "property": "C02",
   "status": "proved",
   "theorems": [
    "Verif.Props.C02_equality",
    "Verif.Props.C02_library"
   ],
   "note": "Sequential; see C05 for threads."
  },
  {
   "property": "C03",
   "status": "proved",
   "theorems": [
    "Verif.Props.C03_stable",
    "Verif.Props.C03_continue",
    "Verif.Props.C03_library"
   ],
   "note": ""
  },
  {
   "property": "C04",
   "status": "proved",
   "theorems": [
    "Verif.Props.C04_lifetime",
    "Verif.Props.C04_empty",
    "Verif.Props.C04_library"
   ],
   "note": ""
  },
  {
   "property": "C05",
   "status": "proved",
   "theorems": [
    "Verif.Props.C05_no_ub",
    "Verif.Props.C05_live"
   ],
   "note": "Sequentially consistent atomics. Same-key reentrancy of a value constructor is a separate outcome (C39), not ub; every other schedule is covered."
  },
  {
   "property": "C06",
   "status": "proved",
   "theorems": [
    "Verif.Props.C06_sharing",
    "Verif.Props.C06_unique"
   ],
   "note": "Flyweight objects and flyweights inside values held by factories."
  },
  {
   "property": "C07",
   "status": "proved",
   "theorems": [
    "Verif.Props.C07_reachable",
    "Verif.Props.C07_empty",
    "Verif.Props.C07_counts"
   ],
   "note": "Exactly the reachable entries; reference count equals the number of referring flyweights."
  },
  {
   "property": "C08",
   "status": "proved",
   "theorems": [
    "Verif.Props.C08_owner",
    "Verif.Props.C08_exclusive",
    "Verif.Props.C08_writes"
   ],
   "note": "Both as lock ownership of the accessing frames and as a statement about what a step may change."
  },
  {
   "property": "C09",
   "status": "proved",
   "theorems": [
    "Verif.Props.C09_deleter_needed",
    "Verif.Props.C09_lock_needed",
    "Verif.Props.C09_single_thread"
   ],
   "note": "Negative parts by concrete executions; positive part by simulation of no_locking by simple_locking on one thread."
  },
  {
   "property": "C10",
   "status": "proved",
   "theorems": [
    "Verif.Props.C10_never_removed",
    "Verif.Props.C10_library"
   ],
   "note": ""
  },
  {
   "property": "C11",
   "status": "proved",
   "theorems": [
    "Verif.Props.C11_concurrent",
    "Verif.Props.C11_concurrent_pass",
    "Verif.Props.C11_concurrent_none",
    "Verif.Props.C11_lazy_refcounted",
    "Verif.Props.C11_lazy_no_tracking",
    "Verif.Props.C11_nothing_else",
    "Verif.Props.C11_library"
   ],
   "note": "At most one construction per creation, none on a hit, none by other operations; refcounted and no_tracking. Also for concurrent_factory with one thread, where values linger: none if an equivalent key is in use, one if none has been used successfully, exactly determined after a pass of the collector."
  },
  {
   "property": "C12",
   "status": "proved",
   "theorems": [
    "Verif.Props.C12_strong_guarantee",
    "Verif.Props.C12_not_swallowed",
    "Verif.Props.C12_nothrow",
    "Verif.Props.C12_library"
   ],
   "note": "Every throw point of the model; the number of comparisons within one lookup is abstracted to one throw point. A key extractor called by get_key() is treated in C75."
  },
  {
   "property": "C13",
   "status": "proved",
   "theorems": [
    "Verif.Props.C13_balanced",
    "Verif.Props.C13_library"
   ],
   "note": ""
  },
  {
   "property": "C14",
   "status": "proved",
   "theorems": [
    "Verif.Props.C14_sufficient",
    "Verif.Props.C14_necessary"
   ],
   "note": "Sufficiency for hashed_factory; necessity by a concrete run."
  },
  {
   "property": "C15",
   "status": "proved",
   "theorems": [
    "Verif.Props.C15_library",
    "Verif.Props.C15_copy",
    "Verif.Props.C15_assign",
    "Verif.Props.C15_self_assign"
   ],
   "note": ""
  },
  {
   "property": "C16",
   "status": "proved",
   "theorems": [
    "Verif.Props.C16_library",
    "Verif.Props.C16_swap"
   ],
   "note": ""
  },
  {
   "property": "C17",
   "status": "partial",
   "theorems": [
    "Verif.Props.C17_values_partial",
    "Verif.Props.C17_values_iff",
    "Verif.Props.C17_calls",
    "Verif.Props.C17_same_partial",
    "Verif.Props.C17_same_default_partial",
    "Verif.Props.C17_order",
    "Verif.Props.C17_total",
    "Verif.Props.C17_violated"
   ],
   "note": "Violated as stated for values whose operators are not related in the usual way, e.g. partially ordered ones: C17_violated (<= and >= of flyweights are computed as !(y<x) and !(x<y)). The _partial theorems prove agreement for coherent comparisons; strict weak and total order (C17_order, C17_total) are proved in full. C17_values_iff says exactly when all six agree. Throwing or otherwise effectful comparisons of values are covered by C17_calls, apart from those that use the flyweights compared."
  },
  {
   "property": "C18",
   "status": "proved",
   "theorems": [
    "Verif.Props.C18_library",
    "Verif.Props.C18_hash"
   ],
   "note": ""
  },
  {
   "property": "C19",
   "status": "proved",
   "theorems": [
    "Verif.Props.C19_write",
    "Verif.Props.C19_extract",
    "Verif.Props.C19_exact"
   ],
   "note": "The stream and the extraction are arbitrary; 'exactly the value' holds when the factory's equivalence is equality (C19_exact), otherwise an equivalent value (C19_extract)."
  },
  {
   "property": "C20",
   "status": "proved",
   "theorems": [
    "Verif.Props.C20_round_trip",
    "Verif.Props.C20_exact"
   ],
   "note": "Any number of types, any nesting without type repetition, any user format; archive contents as tokens, without names and versions. Loading into any program with pairwise inequivalent entries."
  },
  {
   "property": "C21",
   "status": "proved",
   "theorems": [
    "Verif.Props.C21_once",
    "Verif.Props.C21_index"
   ],
   "note": "Saving does not throw in this model (failures of saving: C23)."
  },
  {
   "property": "C22",
   "status": "proved",
   "theorems": [
    "Verif.Props.C22_safe",
    "Verif.Props.C22_program",
    "Verif.Props.C22_reject"
   ],
   "note": "Any token list, table, user format and constructor behaviour. A missing or mistyped item throws (Boost.Serialization)."
  },
  {
   "property": "C23",
   "status": "proved",
   "theorems": [
    "Verif.Props.C23_exemplar",
    "Verif.Props.C23_record"
   ],
   "note": "Sequential core with saves interleaved with any operations, any fault oracle and allocator; one flyweight type."
  },
  {
   "property": "C24",
   "status": "partial",
   "theorems": [
    "Verif.Props.C24_violated",
    "Verif.Props.C24_wrong",
    "Verif.Props.C24_clean_partial",
    "Verif.Props.C24_iff",
    "Verif.Props.C24_loaded"
   ],
   "note": "The code violates the property: C24_violated (negation, with a witness) and C24_wrong (what every such load yields). C24_clean_partial: it holds if flyweights inside one of the same type were saved before. C24_iff: and only then, if serialization functions do not decide what to read next by what flyweights were loaded as. C24_loaded: what may be said of what is loaded in any case."
  },
  {
   "property": "C25",
   "status": "proved",
   "theorems": [
    "Verif.Props.C25_no_ub",
    "Verif.Props.C25_live",
    "Verif.Props.C25_counts",
    "Verif.Props.C25_sharing",
    "Verif.Props.C25_exclusive",
    "Verif.Props.C25_tracking",
    "Verif.Props.C25_counts_agree"
   ],
   "note": "Any number of threads and collectors, with refcounted or no_tracking and simple_locking or no_locking; concurrent_node_set represented by exclusive access per element."
  },
  {
   "property": "C26",
   "status": "proved",
   "theorems": [
    "Verif.Props.C26_keep",
    "Verif.Props.C26_only_collector",
    "Verif.Props.C26_reclaim"
   ],
   "note": "Safety per step; reclamation for any schedule of a pass during which no handle refers to the entry."
  },
  {
   "property": "C27",
   "status": "proved",
   "theorems": [
    "Verif.Props.C27_hidden",
    "Verif.Props.C27_throw",
    "Verif.Props.C27_no_object",
    "Verif.Props.C27_repair",
    "Verif.Props.C27_collected"
   ],
   "note": "Failing insertion yields no object; the next insertion to access the entry constructs the value; collected otherwise."
  },
  {
   "property": "C28",
   "status": "proved",
   "theorems": [
    "Verif.Props.C28_no_ub",
    "Verif.Props.C28_members",
    "Verif.Props.C28_order",
    "Verif.Props.C28_gone",
    "Verif.Props.C28_notified",
    "Verif.Props.C28_joined",
    "Verif.Props.C28_progress",
    "Verif.Props.C28_terminates",
    "Verif.Props.C28_lock",
    "Verif.Props.C28_wakeup",
    "Verif.Props.C28_no_new_pass",
    "Verif.Props.C28_order_needed"
   ],
   "note": "Owner and collector with time-outs and spurious wake-ups; termination from the point where stop is set, the wait for the mutex before that bounded in steps of the collector."
  },
  {
   "property": "C29",
   "status": "partial",
   "theorems": [
    "Verif.Props.C29_violated",
    "Verif.Props.C29_modules_iff",
    "Verif.Props.C29_modules_follow",
    "Verif.Props.C29_safe_partial",
    "Verif.Props.C29_idempotent",
    "Verif.Props.C29_preceded_partial",
    "Verif.Props.C29_threads"
   ],
   "note": "Any number of types and any order of events in one module; several threads under sequential consistency (the code's writes of the static pointers race). Violated in programs of several modules (C29_violated): a module that reads, copies or destroys a flyweight before its own static pointers are set dereferences a null pointer. C29_modules_iff: exactly the programs in which a module does so, all others following the specification in whatever order the modules are initialized (C29_modules_follow)."
  },
  {
   "property": "C30",
   "status": "proved",
   "theorems": [
    "Verif.Props.C30_order",
    "Verif.Props.C30_iff",
    "Verif.Props.C30_safe",
    "Verif.Props.C30_hazard",
    "Verif.Props.C30_nested_hazard"
   ],
   "note": "C30_iff characterises exactly the programs whose static destruction is safe, C30_hazard and C30_nested_hazard the two ways to go wrong (the second is not in the documentation). The reverse-order rule of C++ for static objects is trusted."
  },
  {
   "property": "C31",
   "status": "proved",
   "theorems": [
    "Verif.Props.C31_static",
    "Verif.Props.C31_shared",
    "Verif.Props.C31_equality",
    "Verif.Props.C31_uninitialised"
   ],
   "note": "static_holder: one model of the core per module over a common allocator (Verif/Family.lean). intermodule_holder: one factory, one set of pointers per module (Verif/Modules.lean); that intermodule_singleton yields one object is trusted. C31_equality needs modules using a flyweight to have run their static initializer; C31_uninitialised shows that it is needed."
  },
  {
   "property": "C32",
   "status": "partial",
   "theorems": [
    "Verif.Props.C32_resolves",
    "Verif.Props.C32_order",
    "Verif.Props.C32_unmatched",
    "Verif.Props.C32_duplicate_partial",
    "Verif.Props.C32_duplicate_ignored",
    "Verif.Props.C32_ambiguous"
   ],
   "note": "Order, defaults and rejection of unrecognised arguments proved. Two arguments of the same kind: rejected when given by keyword; when deduced, it depends on Boost.Parameter, which is not in the repository: C32_duplicate_partial and C32_duplicate_ignored treat both possibilities. The library's own assertion does not detect duplicates."
  },
  {
   "property": "C33",
   "status": "proved",
   "theorems": [
    "Verif.Props.C33_isolated",
    "Verif.Props.C33_noninterference",
    "Verif.Props.C33_separate"
   ],
   "note": "One state of the core per instantiation, common allocator; operations on different types are not nested in one another (a value constructor using flyweights of another type is covered by C38 and C30)."
  },
  {
   "property": "C34",
   "status": "proved",
   "theorems": [
    "Verif.Props.C34_hashed",
    "Verif.Props.C34_found_iff",
    "Verif.Props.C34_incompatible"
   ],
   "note": "Container behaviour (Boost.MultiIndex hashed index) modelled from its documentation; nodes and buckets explicit."
  },
  {
   "property": "C35",
   "status": "proved",
   "theorems": [
    "Verif.Props.C35_ordered",
    "Verif.Props.C35_not_strict"
   ],
   "note": "std::set modelled by its in-order sequence."
  },
  {
   "property": "C36",
   "status": "proved",
   "theorems": [
    "Verif.Props.C36_interchangeable",
    "Verif.Props.C36_same_throws",
    "Verif.Props.C36_no_faults",
    "Verif.Props.C36_library",
    "Verif.Props.C36_list_update"
   ],
   "note": "Any two factories lawful for the same equivalence. Those that make the entry of a node in the same way (hashed and set: by moving) agree also on which operations throw under any fault oracle (C36_interchangeable). Factories that copy (list-update, verbose) call other user operations, so throws can differ; whenever the same operations throw, in particular if none does, all results agree up to addresses (C36_same_throws, C36_no_faults)."
  },
  {
   "property": "C37",
   "status": "proved",
   "theorems": [
    "Verif.Props.C37_cascade"
   ],
   "note": "Termination and exact effect of the cascade, from any quiescent state."
  },
  {
   "property": "C38",
   "status": "proved",
   "theorems": [
    "Verif.Props.C38_no_deadlock",
    "Verif.Props.C38_no_set",
    "Verif.Props.C38_waits",
    "Verif.Props.C38_cyclic",
    "Verif.Props.C38_needed",
    "Verif.Props.C38_exact"
   ],
   "note": "Positive part under the stated containment discipline (Reachable/Disc); the need for the condition for every cycle of types (C38_needed), and a concrete execution by destruction of containing values (C38_cyclic). Between finitely many types the condition is exact (C38_exact)."
  },
  {
   "property": "C39",
   "status": "proved",
   "theorems": [
    "Verif.Props.C39_reentrant"
   ],
   "note": "Any program of any number of threads (discipline trivial)."
  },
  {
   "property": "C40",
   "status": "partial",
   "theorems": [
    "Verif.Props.C40_deadlock",
    "Verif.Props.C40_deadlock_any",
    "Verif.Props.C40_deadlock_two",
    "Verif.Props.C40_no_deadlock_partial",
    "Verif.Props.C40_needed",
    "Verif.Props.C40_mixed",
    "Verif.Props.C40_ring",
    "Verif.Props.C40_not_all_partial",
    "Verif.Props.C40_exact",
    "Verif.Props.C40_untracked_partial"
   ],
   "note": "Violated as stated (C40_deadlock; C40_deadlock_any: for every type whose values contain flyweights of the same type and any two keys that are not equivalent; C40_deadlock_two: for two types containing each other; C40_ring: for any number of types containing each other along a cycle; C40_needed: for constructors creating flyweights of each other's types along any cycle, with any policies; C40_mixed: for cycles in which some constructors create and some values contain flyweights of the next type); the _partial theorems give the largest part that holds: acyclic containment and construction. With finitely many types, and constructors that do not create flyweights of their own type (which concurrent containers do not allow), standstill is possible exactly if types use each other along a cycle, whatever the policies (C40_exact)."
  },
  {
   "property": "C41",
   "status": "proved",
   "theorems": [
    "Verif.Props.C41_paths",
    "Verif.Props.C41_nested"
   ],
   "note": "Both constructors are the same here (one names the item)."
  },
  {
   "property": "C42",
   "status": "partial",
   "theorems": [
    "Verif.Props.C42_values_partial",
    "Verif.Props.C42_once_partial",
    "Verif.Props.C42_later_partial",
    "Verif.Props.C42_total",
    "Verif.Props.C42_violated"
   ],
   "note": "Literally false (C42_violated): requesting 1 does not construct the value of index 0, and the number of index 47 overflows int. The _partial theorems prove it for every request whose number fits in the integer type (any limit), the needed indices being 0..n for n >= 2 and n itself otherwise. Stack depth is a parameter (fuel)."
  },
  {
   "property": "C43",
   "status": "proved",
   "theorems": [
    "Verif.Props.C43_sequential",
    "Verif.Props.C43_parallel",
    "Verif.Props.C43_finishes",
    "Verif.Props.C43_chunks",
    "Verif.Props.C43_boundaries",
    "Verif.Props.C43_letters"
   ],
   "note": "For at least one chunk (with none the example tokenizes nothing). Threads only append to their own outputs; strings are values."
  },
  {
   "property": "C44",
   "status": "partial",
   "theorems": [
    "Verif.Props.C44_scan",
    "Verif.Props.C44_faithful_partial",
    "Verif.Props.C44_any_document_partial",
    "Verif.Props.C44_balanced",
    "Verif.Props.C44_blanks",
    "Verif.Props.C44_defined",
    "Verif.Props.C44_defined_exact",
    "Verif.Props.C44_violated"
   ],
   "note": "Proved for every well-nested document (elements closed by tags of the same name, ASCII names without quotes or angles, no opening angle as text; declarations allowed at the beginning) and every sequence of its characters, and for any scanned document under explicit conditions. Flyweights are represented by their values (C01). C44_violated shows the excluded documents: a declaration in the middle, a name with an open quote, a stray '<', a document ending in '<' (reads past the end; for ASCII documents exactly if the number of angles at the end is odd, C44_defined_exact), non-ASCII names (tolower on negative values)."
  },
  {
   "property": "C45",
   "status": "partial",
   "theorems": [
    "Verif.Props.C45_safe",
    "Verif.Props.C45_parse",
    "Verif.Props.C45_print_partial",
    "Verif.Props.C45_reparse_partial",
    "Verif.Props.C45_shared",
    "Verif.Props.C45_exact",
    "Verif.Props.C45_texts",
    "Verif.Props.C45_violated"
   ],
   "note": "The literal round trip is false (C45_violated): the printer separates by newlines, which the parser does not treat as separators. The _partial theorems prove it with newlines read as blanks: tokens are preserved up to one outer pair of parentheses, and parsing the output gives a list whose only element is the very same entry. Acceptance, sharing, absence of leaks and of undefined behaviour are proved in full (memory exhaustion not modelled here, see C47)."
  },
  {
   "property": "C46",
   "status": "proved",
   "theorems": [
    "Verif.Props.C46_reentrant",
    "Verif.Props.C46_own_key"
   ],
   "note": "no_tracking (C74: refcounted), product key_value (no key extractor), factory whose predicate is equality of keys; any constructor program (Body) asking for smaller keys. C46_own_key: asking for the own key never succeeds, with either tracking."
  },
  {
   "property": "C47",
   "status": "proved",
   "theorems": [
    "Verif.Props.C47_refines",
    "Verif.Props.C47_shared",
    "Verif.Props.C47_exact",
    "Verif.Props.C47_empty",
    "Verif.Props.C47_counts"
   ],
   "note": "Default value policy, refcounted, one factory; single counter per entry (deleter count abstracted, see C04/C06). Throwing insertions included."
  },
  {
   "property": "C48",
   "status": "proved",
   "theorems": [
    "Verif.Props.C48_concurrent_default",
    "Verif.Props.C48_concurrent_variant",
    "Verif.Props.C48_concurrent_pass",
    "Verif.Props.C48_concurrent_failed",
    "Verif.Props.C48_concurrent_untouched",
    "Verif.Props.C48_library",
    "Verif.Props.C48_default",
    "Verif.Props.C48_variant_refcounted",
    "Verif.Props.C48_variant_no_tracking",
    "Verif.Props.C48_variant_failed",
    "Verif.Props.C48_untouched"
   ],
   "note": "Any factory and tracking policy. A throwing move constructor of the user is modelled as not having moved. The default policy promises nothing about the argument when the operation throws. Also for concurrent_factory with one thread."
  },
  {
   "property": "C49",
   "status": "proved",
   "theorems": [
    "Verif.Props.C49_same_execution",
    "Verif.Props.C49_race_free",
    "Verif.Props.C49_identities",
    "Verif.Props.C49_published",
    "Verif.Props.C49_destroyed_last",
    "Verif.Props.C49_readers_unordered",
    "Verif.Props.C49_decrement_orders_needed",
    "Verif.Props.C49_lock_needed"
   ],
   "note": "Happens-before over interleavings of atomic steps (program order, mutexes, counts, and the program's own ordering of uses of an object). Read-modify-write operations are assumed to act in the order of the interleaving."
  },
  {
   "property": "C50",
   "status": "proved",
   "theorems": [
    "Verif.Props.C50_same_execution",
    "Verif.Props.C50_race_free",
    "Verif.Props.C50_synchronization",
    "Verif.Props.C50_identities",
    "Verif.Props.C50_published",
    "Verif.Props.C50_destroyed_last",
    "Verif.Props.C50_no_stale_zero",
    "Verif.Props.C50_readers_unordered",
    "Verif.Props.C50_orders_needed"
   ],
   "note": "Happens-before over interleavings of atomic steps. Exclusive access to an element and shared access for comparing keys are taken from the documentation of boost::concurrent_node_set; its own memory is not modelled. C50_no_stale_zero shows that the collector does not depend on its load returning the latest value. refcounted with no_locking is left out here: see C79."
  },
  {
   "property": "C51",
   "status": "partial",
   "theorems": [
    "Verif.Props.C51_ordered_partial",
    "Verif.Props.C51_started_partial",
    "Verif.Props.C51_ordered_late_partial",
    "Verif.Props.C51_recipe_partial",
    "Verif.Props.C51_violated",
    "Verif.Props.C51_same_value",
    "Verif.Props.C51_needed",
    "Verif.Props.C51_constructed",
    "Verif.Props.C51_untouched"
   ],
   "note": "Violated by the documented recipe (C51_violated): static_initializer is written once more when it is dynamically initialized, whose time the program does not control, while threads started earlier read it. The value written is the one already there (C51_same_value). The _partial theorems prove the property for programs in which that dynamic initialization does not begin after other threads use the type: with any synchronization by the program (C51_ordered_partial), or by starting threads (C51_started_partial). With that dynamic initialization at any time, no null pointer is found and that single write is the only event that races, with reads only (C51_recipe_partial, C51_ordered_late_partial). Factory and mutex themselves are constructed once, and that happens before what any thread does that has obtained them within init(), in every execution (C51_constructed)."
  },
  {
   "property": "C52",
   "status": "proved",
   "theorems": [
    "Verif.Props.C52_copy",
    "Verif.Props.C52_value",
    "Verif.Props.C52_forward",
    "Verif.Props.C52_list",
    "Verif.Props.C52_limit",
    "Verif.Props.C52_derived",
    "Verif.Props.C52_assign_value",
    "Verif.Props.C52_assign_converted",
    "Verif.Props.C52_assign_list",
    "Verif.Props.C52_assign_ambiguous",
    "Verif.Props.C52_tables",
    "Verif.Props.C52_documented"
   ],
   "note": "About which functions are called and what arguments they get, given C++'s rules of overload resolution (modelled for references, inheritance, conversions and the templates involved). Braced lists: C73. Implicit conversions to a flyweight are given. Without rvalue references the library does not compile for another reason (DESIGN.md, section 4, item 3), so that part is about the overloads only."
  },
  {
   "property": "C53",
   "status": "proved",
   "theorems": [
    "Verif.Props.C53_replay",
    "Verif.Props.C53_make",
    "Verif.Props.C53_make_live",
    "Verif.Props.C53_destroy",
    "Verif.Props.C53_assign",
    "Verif.Props.C53_assign_value",
    "Verif.Props.C53_quiet",
    "Verif.Props.C53_throw",
    "Verif.Props.C53_kept",
    "Verif.Props.C53_balance",
    "Verif.Props.C53_tokens",
    "Verif.Props.C53_main"
   ],
   "note": "Printing itself (std::cout) is assumed not to throw. The text is a list of tokens (boost::tokenizer is not modelled), the vector a list of elements whose storage is replaced when full; C53_tokens covers any way of moving or copying elements that keeps a flyweight of each token."
  },
  {
   "property": "C54",
   "status": "proved",
   "theorems": [
    "Verif.Props.C54_opaque",
    "Verif.Props.C54_detect",
    "Verif.Props.C54_transparent",
    "Verif.Props.C54_guard_needed",
    "Verif.Props.C54_forms",
    "Verif.Props.C54_assoc",
    "Verif.Props.C54_holders",
    "Verif.Props.C54_hashed",
    "Verif.Props.C54_set",
    "Verif.Props.C54_concurrent",
    "Verif.Props.C54_verbatim",
    "Verif.Props.C54_entries",
    "Verif.Props.C54_handles",
    "Verif.Props.C54_unopened",
    "Verif.Props.C54_nested_type",
    "Verif.Props.C54_value_types",
    "Verif.Props.C54_derived"
   ],
   "note": "What Boost.MPL does with placeholder expressions (lambda, bind, quote) follows its documentation; Boost.MPL is not in the repository. Types are terms. C54_hashed, C54_set and C54_concurrent are for arguments whose templates have no nested type called type (C54_nested_type shows what happens otherwise); the entry and key types of the latter two are not placeholder expressions (C54_value_types)."
  },
  {
   "property": "C55",
   "status": "proved",
   "theorems": [
    "Verif.Props.C55_steps",
    "Verif.Props.C55_executions",
    "Verif.Props.C55_meaning",
    "Verif.Props.C55_share",
    "Verif.Props.C55_vanish",
    "Verif.Props.C55_lock_needed"
   ],
   "note": "The specification is Verif/Atomic.lean. Steps of a thread inside the library are matched by a step of the specification or by none; actions of the user are always matched. Executions in which a value constructor asks for the very key it constructs (outcome reentrant) end there. Factories are sets of entries, as in C05-C09; for concurrent_factory see C25 and C26."
  },
  {
   "property": "C56",
   "status": "proved",
   "theorems": [
    "Verif.Props.C56_no_ub",
    "Verif.Props.C56_refers",
    "Verif.Props.C56_sharing",
    "Verif.Props.C56_unique",
    "Verif.Props.C56_lasting",
    "Verif.Props.C56_quiet",
    "Verif.Props.C56_once",
    "Verif.Props.C56_no_deadlock",
    "Verif.Props.C56_cyclic",
    "Verif.Props.C56_needed",
    "Verif.Props.C56_exact",
    "Verif.Props.C56_reentrant",
    "Verif.Props.C56_same_execution",
    "Verif.Props.C56_race_free",
    "Verif.Props.C56_identities",
    "Verif.Props.C56_published",
    "Verif.Props.C56_lock_needed",
    "Verif.Props.C56_steps",
    "Verif.Props.C56_executions",
    "Verif.Props.C56_meaning",
    "Verif.Props.C56_share"
   ],
   "note": "The specification of C56_steps is Verif/Lasting.lean. Executions in which a value constructor asks for the very key it constructs (outcome reentrant) end there. Factories are sets of entries, as in C05-C09; for concurrent_factory see C25 and C26. C56_needed: the condition on constructors is needed, for every cycle of types. Between finitely many types it is exact (C56_exact)."
  },
  {
   "property": "C57",
   "status": "proved",
   "theorems": [
    "Verif.Props.C57_steps",
    "Verif.Props.C57_executions",
    "Verif.Props.C57_meaning",
    "Verif.Props.C57_alone",
    "Verif.Props.C57_share",
    "Verif.Props.C57_resume",
    "Verif.Props.C57_vanish",
    "Verif.Props.C57_constant"
   ],
   "note": "The specification is Verif/Linger.lean. Steps of a thread inside the library, and a collector's visit of an element, are matched by a step of the specification or by none; actions of the user are always matched. boost::concurrent_node_map is as in C25: visitation gives exclusive access to an element, erase_if checks and erases in one step. Executions in which a value constructor asks for the very key it constructs (outcome reentrant) end there."
  },
  {
   "property": "C58",
   "status": "proved",
   "theorems": [
    "Verif.Props.C58_work",
    "Verif.Props.C58_returns",
    "Verif.Props.C58_plain_work",
    "Verif.Props.C58_plain_returns",
    "Verif.Props.C58_factory_work",
    "Verif.Props.C58_factory_returns"
   ],
   "note": "Steps are those of the models (lookups, allocation and construction count as one step each), so the bound says that there are no loops around them; within one container operation and within a pass of the collector over the elements not visited nothing is counted. Fair executions are infinite sequences of actions in which no new calls begin, every thread gets turns again and again and value constructors in progress are allowed to return. The second part assumes, as C40 and C56 do, that types are used without cycles; with concurrent_factory collectors neither wake up nor begin to visit further elements, and end up waiting or between two elements. That cycles do lead to deadlock is C38_cyclic, C40 and C56_cyclic."
  },
  {
   "property": "C59",
   "status": "proved",
   "theorems": [
    "Verif.Props.C59_steps",
    "Verif.Props.C59_executions",
    "Verif.Props.C59_reads",
    "Verif.Props.C59_plain_steps",
    "Verif.Props.C59_plain_executions",
    "Verif.Props.C59_lingering_steps",
    "Verif.Props.C59_lingering_executions"
   ],
   "note": "On top of C55 (refcounted), C56 (no_tracking) and C57 (concurrent_factory), with sequentially consistent atomics. The sequential program is in terms of the specification of C01."
  },
  {
   "property": "C60",
   "status": "proved",
   "theorems": [
    "Verif.Props.C60_create_refcounted",
    "Verif.Props.C60_create_no_tracking",
    "Verif.Props.C60_failed",
    "Verif.Props.C60_no_other",
    "Verif.Props.C60_balance_plain",
    "Verif.Props.C60_balance_variant",
    "Verif.Props.C60_balance_product",
    "Verif.Props.C60_program",
    "Verif.Props.C60_no_copies",
    "Verif.Props.C60_moving_factories",
    "Verif.Props.C60_copying_factories"
   ],
   "note": ""
  },
  {
   "property": "C61",
   "status": "proved",
   "theorems": [
    "Verif.Props.C61_main",
    "Verif.Props.C61_elements"
   ],
   "note": ""
  },
  {
   "property": "C62",
   "status": "proved",
   "theorems": [
    "Verif.Props.C62_lossless",
    "Verif.Props.C62_archive",
    "Verif.Props.C62_once",
    "Verif.Props.C62_safe",
    "Verif.Props.C62_tokens"
   ],
   "note": ""
  },
  {
   "property": "C63",
   "status": "proved",
   "theorems": [
    "Verif.Props.C63_basic",
    "Verif.Props.C63_with_assign",
    "Verif.Props.C63_comparison",
    "Verif.Props.C63_plain",
    "Verif.Props.C63_variant",
    "Verif.Props.C63_product"
   ],
   "note": ""
  },
  {
   "property": "C64",
   "status": "proved",
   "theorems": [
    "Verif.Props.C64_transparent",
    "Verif.Props.C64_calm",
    "Verif.Props.C64_configurations",
    "Verif.Props.C64_plain"
   ],
   "note": ""
  },
  {
   "property": "C65",
   "status": "proved",
   "theorems": [
    "Verif.Props.C65_prints"
   ],
   "note": ""
  },
  {
   "property": "C66",
   "status": "proved",
   "theorems": [
    "Verif.Props.C66_refcounted",
    "Verif.Props.C66_no_tracking",
    "Verif.Props.C66_perf"
   ],
   "note": ""
  },
  {
   "property": "C67",
   "status": "proved",
   "theorems": [
    "Verif.Props.C67_save",
    "Verif.Props.C67_load",
    "Verif.Props.C67_transfer",
    "Verif.Props.C67_round_trip",
    "Verif.Props.C67_plain",
    "Verif.Props.C67_key_value"
   ],
   "note": "One flyweight type whose keys are plain data; keys that contain flyweights are treated in C20-C24. Boost.Serialization is a list of tokens; the elements of the vector exist, made from a default key, before they are loaded."
  },
  {
   "property": "C68",
   "status": "proved",
   "theorems": [
    "Verif.Props.C68_no_ub",
    "Verif.Props.C68_one",
    "Verif.Props.C68_failed",
    "Verif.Props.C68_kept",
    "Verif.Props.C68_progress",
    "Verif.Props.C68_bounded",
    "Verif.Props.C68_retry"
   ],
   "note": "static_holder; the rules of C++ for local static variables. Sequentially consistent memory: the pointers are not atomic, see C51 for the data races."
  },
  {
   "property": "C69",
   "status": "proved",
   "theorems": [
    "Verif.Props.C69_refines",
    "Verif.Props.C69_equality",
    "Verif.Props.C69_create",
    "Verif.Props.C69_strong",
    "Verif.Props.C69_once",
    "Verif.Props.C69_collect",
    "Verif.Props.C69_pass",
    "Verif.Props.C69_empty",
    "Verif.Props.C69_takeover"
   ],
   "note": ""
  },
  {
   "property": "C70",
   "status": "proved",
   "theorems": [
    "Verif.Props.C70_runs",
    "Verif.Props.C70_rely",
    "Verif.Props.C70_plain",
    "Verif.Props.C70_same"
   ],
   "note": ""
  },
  {
   "property": "C71",
   "status": "proved",
   "theorems": [
    "Verif.Props.C71_basic",
    "Verif.Props.C71_with_assign",
    "Verif.Props.C71_comparison",
    "Verif.Props.C71_comparison_two",
    "Verif.Props.C71_throwing",
    "Verif.Props.C71_all"
   ],
   "note": ""
  },
  {
   "property": "C72",
   "status": "proved",
   "theorems": [
    "Verif.Props.C72_saving",
    "Verif.Props.C72_loading",
    "Verif.Props.C72_transfer",
    "Verif.Props.C72_round_trip",
    "Verif.Props.C72_test"
   ],
   "note": ""
  },
  {
   "property": "C73",
   "status": "proved",
   "theorems": [
    "Verif.Props.C73_list",
    "Verif.Props.C73_empty",
    "Verif.Props.C73_elements",
    "Verif.Props.C73_parentheses",
    "Verif.Props.C73_several",
    "Verif.Props.C73_assign_one",
    "Verif.Props.C73_assign"
   ],
   "note": ""
  },
  {
   "property": "C74",
   "status": "proved",
   "theorems": [
    "Verif.Props.C74_counted"
   ],
   "note": "refcounted, product key_value (no key extractor), factory whose predicate is equality of keys; any constructor program (Body) asking for smaller keys; its temporaries live until it ends. One thread. Stack depth is a parameter (fuel)."
  },
  {
   "property": "C75",
   "status": "partial",
   "theorems": [
    "Verif.Props.C75_violated",
    "Verif.Props.C75_spec",
    "Verif.Props.C75_runs_partial",
    "Verif.Props.C75_no_tracking",
    "Verif.Props.C75_get_key",
    "Verif.Props.C75_others",
    "Verif.Props.C75_concurrent_partial",
    "Verif.Props.C75_concurrent_no_tracking"
   ],
   "note": "Violated as stated (C75_violated): the exception specification of flyweight_core::key looks at the conversion of the entry to rep_type, not at that of rep_type to the key. C75_runs_partial and C75_concurrent_partial prove the rest: with refcounted, or with no extractor or one that is noexcept. C75_no_tracking and C75_get_key say exactly what happens otherwise."
  },
  {
   "property": "C76",
   "status": "proved",
   "theorems": [
    "Verif.Props.C76_refines",
    "Verif.Props.C76_equality",
    "Verif.Props.C76_stable",
    "Verif.Props.C76_alive",
    "Verif.Props.C76_cache",
    "Verif.Props.C76_prompt",
    "Verif.Props.C76_refcounted",
    "Verif.Props.C76_helper",
    "Verif.Props.C76_sound",
    "Verif.Props.C76_unsound"
   ],
   "note": "A policy is code over data of its own (Tracker, Code): its functions compute and call the helper's erase. Only the constructor of a handle from the factory's handle may throw (C80), and the data kept in entries is part of the policy's data. One thread; factories other than concurrent_factory."
  },
  {
   "property": "C77",
   "status": "proved",
   "theorems": [
    "Verif.Props.C77_defined",
    "Verif.Props.C77_plain",
    "Verif.Props.C77_fuel",
    "Verif.Props.C77_order",
    "Verif.Props.C77_static",
    "Verif.Props.C77_recursive",
    "Verif.Props.C77_hazard"
   ],
   "note": "refcounted, factories other than concurrent_factory, static_holder; starts from any reachable state of the concurrent model in which no thread is inside the library. Other threads do nothing during termination. The flyweights inside a value are destroyed in the order of the list (the theorems hold for any such list)."
  },
  {
   "property": "C78",
   "status": "partial",
   "theorems": [
    "Verif.Props.C78_defined_partial",
    "Verif.Props.C78_recursive",
    "Verif.Props.C78_violated",
    "Verif.Props.C78_late",
    "Verif.Props.C78_order"
   ],
   "note": "Violated by the code for values that contain flyweights of their own type, even if all flyweights have been destroyed (C78_violated). C78_defined_partial proves the claim for the others, C78_recursive says exactly when termination is defined for these. static_holder; no thread is creating a flyweight when termination begins, but destructors and passes of the collectors may be in progress; during termination, a collector's erasure of an entry and the completion of a destructor are one step each."
  },
  {
   "property": "C79",
   "status": "partial",
   "theorems": [
    "Verif.Props.C79_violated",
    "Verif.Props.C79_only_race_partial",
    "Verif.Props.C79_untracked_partial",
    "Verif.Props.C79_sound_partial"
   ],
   "note": "Violated by the code for refcounted with no_locking (C79_violated). The deleter count decides nothing with concurrent_factory, whose erase does nothing. C79_only_race_partial: no other data race with any combination of policies; C79_untracked_partial: none at all with no_tracking; C79_sound_partial: everything else holds in all interleavings. A data race is undefined behaviour in the C++ standard whatever the value is used for; C79_sound_partial describes interleavings of atomic steps."
  },
  {
   "property": "C80",
   "status": "proved",
   "theorems": [
    "Verif.Props.C80_quota",
    "Verif.Props.C80_refines",
    "Verif.Props.C80_unchanged",
    "Verif.Props.C80_left",
    "Verif.Props.C80_found",
    "Verif.Props.C80_cleaned",
    "Verif.Props.C80_matters"
   ],
   "note": "The tracking policies of C76, with a constructor of handles that may throw after running code of its own (Tracker.fails). C80_left assumes that nothing else throws and that the policy has nothing erased before it throws (Leaves); C80_cleaned that no value is left without flyweights."
  },
  {
   "property": "C81",
   "status": "proved",
   "theorems": [
    "Verif.Props.C81_once",
    "Verif.Props.C81_same",
    "Verif.Props.C81_safe",
    "Verif.Props.C81_exact",
    "Verif.Props.C81_destroy",
    "Verif.Props.C81_untracked"
   ],
   "note": "For simple_locking-like policies with refcounted, in the concurrent model of C05-C09 (C81_untracked: with no_tracking, in that of C56), under the discipline of C38 (uses), without cycles; C81_exact shows that with a cycle there is a program locking again. Locking again a mutex that does not support it is counted as undefined behaviour, as with std::mutex."
  }
 ]
}