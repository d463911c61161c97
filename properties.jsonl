{"id": "C01", "title": "Flyweight refines an interned immutable value", "statement": "Any program built from the flyweight API (construction from key arguments, from an lvalue or rvalue value, copy, move, assignment, value assignment, swap, destruction, get, get_key, ==, hash) produces exactly the results of a naive reference semantics in which each flyweight variable is bound to an immutable (address,key,value) triple: constructing from a key equivalent to that of a live flyweight rebinds to the very same triple, otherwise it binds to a new triple at a fresh address holding the value constructed from that key; no step ever has undefined behaviour; an operation that exits with an exception leaves every binding as it was.", "quantifier": "every finite sequence of operations, every key/value type, every equivalence relation on keys, every point at which a user operation may throw, every allocator (including address reuse), every lawful factory, each of the three value policies", "why_tests_cant": "The set of histories x exception points x allocator answers is infinite; a unit test fixes one of each.", "anchors": ["include/boost/flyweight/flyweight.hpp: flyweight", "include/boost/flyweight/detail/flyweight_core.hpp: flyweight_core::insert_rep, insert_value, insert_and_visit", "include/boost/flyweight/refcounted.hpp: refcounted_handle"]}
{"id": "C02", "title": "Equality is sharing is key equivalence", "statement": "Two live flyweights of the same type compare equal (same address returned by get()) if and only if the keys they were last given are equivalent under the factory's equivalence.", "quantifier": "every pair of live flyweights in every reachable state", "why_tests_cant": "Depends on the whole history: deletions, re-insertions, address reuse, failed constructions.", "anchors": ["include/boost/flyweight/flyweight.hpp: operator==", "include/boost/flyweight/detail/flyweight_core.hpp: flyweight_core::insert"]}
{"id": "C03", "title": "References from get() are stable and immutable", "statement": "The address and the value returned by get() on a flyweight never change as long as that flyweight is not itself assigned, swapped or destroyed, whatever is done to other flyweights of the type.", "quantifier": "every history, every interleaved operation on other flyweights", "why_tests_cant": "A stale or moved reference would only show for some history that a test must guess.", "anchors": ["include/boost/flyweight/flyweight.hpp: flyweight::get", "include/boost/flyweight/hashed_factory.hpp: hashed_factory_class_impl", "include/boost/flyweight/set_factory.hpp: set_factory_class"]}
{"id": "C04", "title": "Refcounted values live exactly as long as some flyweight refers to them", "statement": "With refcounted tracking a value is stored in the factory if and only if at least one live flyweight refers to it: never removed earlier, removed at the destruction (or reassignment) of the last one, exactly once.", "quantifier": "every history of operations and exceptions", "why_tests_cant": "Counter errors show only after particular sequences of copies, assignments and failures.", "anchors": ["include/boost/flyweight/refcounted.hpp: refcounted_value, refcounted_handle", "include/boost/flyweight/detail/flyweight_core.hpp: flyweight_core_tracking_helper::erase"]}
{"id": "C05", "title": "No use-after-free and no double erase under concurrency", "statement": "With simple_locking and refcounted tracking, flyweights of any number of types can be created, copied, swapped and destroyed by any number of threads (each object being used by one thread at a time) without any access to an erased entry, double erase, or unbalanced lock operation.", "quantifier": "every number of threads, every interleaving of the individual atomic and locked steps, every nesting of flyweights inside values", "why_tests_cant": "The race window between releasing the last reference and locking the factory is a few instructions wide; tests cannot enumerate interleavings.", "anchors": ["include/boost/flyweight/refcounted.hpp: refcounted_value (comment on the deleter count), refcounted_handle", "include/boost/flyweight/detail/flyweight_core.hpp: flyweight_core_tracking_helper::erase, flyweight_core::insert_rep"]}
{"id": "C06", "title": "Concurrent sharing", "statement": "In every reachable state of a multithreaded run, two flyweights of the same type are equal exactly when the keys they were created from are equivalent, even if the creating threads raced with each other and with destructions.", "quantifier": "every number of threads and interleaving", "why_tests_cant": "Duplicate entries would appear only under specific races.", "anchors": ["include/boost/flyweight/detail/flyweight_core.hpp: insert_rep, insert_value", "include/boost/flyweight/simple_locking.hpp: simple_locking"]}
{"id": "C07", "title": "No leak at quiescence", "statement": "When no thread is inside the library and no flyweight object remains outside factory-held values, every refcounted factory is empty; more precisely, at any quiescent point an entry is present only if it is reachable from a live flyweight object through values held in factories.", "quantifier": "every multithreaded history including failed value constructions and nested flyweights", "why_tests_cant": "Leaks need a rare race between a releasing and an inserting thread.", "anchors": ["include/boost/flyweight/refcounted.hpp: refcounted_handle::~refcounted_handle, check_erase", "include/boost/flyweight/detail/flyweight_core.hpp: erase"]}
{"id": "C08", "title": "Mutual exclusion of factory and deleter-count accesses", "statement": "Container lookups, insertions, erasures and the non-atomic deleter count are only ever accessed by a thread that holds the type's mutex, so no two threads access them simultaneously.", "quantifier": "every reachable state, every pair of threads", "why_tests_cant": "Data races are invisible to most test runs.", "anchors": ["include/boost/flyweight/detail/flyweight_core.hpp: insert_rep, insert_value, flyweight_core_tracking_helper::erase", "include/boost/flyweight/refcounted.hpp: refcounted_value::add_deleter, release_deleter"]}
{"id": "C09", "title": "The deleter count and the lock are both necessary", "statement": "If the deleter count is not used (erase whenever the reference count drops to zero), or if the same protocol runs with no_locking on two threads, there is an execution that touches an erased entry; with a single thread no_locking is safe.", "quantifier": "existence of an execution (negative part); every single-threaded execution (positive part)", "why_tests_cant": "A test that passes says nothing about the existence of a bad interleaving.", "anchors": ["include/boost/flyweight/refcounted.hpp: comment at the top", "include/boost/flyweight/no_locking.hpp: no_locking"]}
{"id": "C10", "title": "no_tracking never removes values", "statement": "With no_tracking, once a value has been created it stays in the factory at the same address with the same contents for the rest of the program, and re-creating an equivalent flyweight any time later yields that very value; the table only grows.", "quantifier": "every history, including ones in which all flyweights of the value are destroyed", "why_tests_cant": "Quantifies over all futures.", "anchors": ["include/boost/flyweight/no_tracking.hpp: no_tracking"]}
{"id": "C11", "title": "Key-value: values are constructed lazily and at most once", "statement": "Creating or assigning a key-value flyweight constructs at most one value object, and does so only if no equivalent value existed in the factory.", "quantifier": "every factory state, every key, both key_value forms, factories with and without concurrent access", "why_tests_cant": "Tests count constructions for a few histories only.", "anchors": ["include/boost/flyweight/key_value.hpp: variant_key_value, product_key_value", "include/boost/flyweight/detail/flyweight_core.hpp: key_construct_value, copy_construct_value, move_construct_value", "include/boost/flyweight/concurrent_factory.hpp: concurrent_factory_class_impl::insert"]}
{"id": "C12", "title": "Strong guarantee of construction and value assignment", "statement": "If anything throws while a flyweight is being constructed or value-assigned (key constructor, hash or comparison, node allocation, key move, value constructor), the exception reaches the caller, no new value is observable, all other flyweights and the assigned-to flyweight are unchanged, the mutex is released and a later retry behaves as if the failed attempt had not happened. All other operations (copying, moving, assigning from a flyweight, swapping, destroying, reading, comparing, hashing) never throw, except that get_key() may if it calls a key extractor that throws (C75).", "quantifier": "every throwing point and every state", "why_tests_cant": "The product of throw points and states is unbounded.", "anchors": ["include/boost/flyweight/detail/flyweight_core.hpp: insert_and_visit (catch/rethrow), insert_rep, insert_value"]}
{"id": "C13", "title": "Key and value subobjects have balanced lifetimes", "statement": "In the raw storage used by key-value flyweights, every key or value object that is constructed is destroyed exactly once, raw storage is never read or destroyed, and at any moment between operations the number of live key/value objects is exactly what the stored entries account for, exceptions included.", "quantifier": "every sequence of operations and exceptions, both key_value forms and the default policy", "why_tests_cant": "Leaks and double destructions occur on rarely taken exception paths.", "anchors": ["include/boost/flyweight/key_value.hpp: variant_key_value::rep_type, product_key_value::rep_type", "include/boost/flyweight/detail/default_value_policy.hpp: rep_type"]}
{"id": "C14", "title": "Key extraction contract is sufficient", "statement": "If the key extractor satisfies its documented contract (key_from_value(Value(k)) equivalent to k), replacing the stored key by the constructed value never makes an entry unreachable, duplicated or misplaced; if the contract is violated, two equivalent requests can yield distinct values.", "quantifier": "every key, value and history; existence of a counterexample without the contract", "why_tests_cant": "Misplacement depends on container layout and history.", "anchors": ["include/boost/flyweight/key_value.hpp: variant_key_value::rep_type::operator const key_type&"]}
{"id": "C15", "title": "Copy, move and assignment semantics", "statement": "After copying, moving or assigning from y, the target is equal to what y was and y is unchanged (a moved-from flyweight keeps its value); self-assignment is a no-op; these operations never throw and never construct values.", "quantifier": "every state, every aliasing of source and target", "why_tests_cant": "Aliasing and last-reference cases multiply with history.", "anchors": ["include/boost/flyweight/flyweight.hpp: flyweight(flyweight&&), operator=", "include/boost/flyweight/refcounted.hpp: operator=, swap"]}
{"id": "C16", "title": "Swap exchanges values and nothing else", "statement": "swap(x,y) exchanges the values (and addresses) of x and y, leaves every other flyweight, all reference counts and the factory contents unchanged, and is an involution, also when x and y are the same object.", "quantifier": "every state and pair of flyweights", "why_tests_cant": "Quantifies over all states.", "anchors": ["include/boost/flyweight/flyweight.hpp: swap", "include/boost/flyweight/refcounted.hpp: refcounted_handle::swap"]}
{"id": "C17", "title": "Comparison operators are coherent", "statement": "Between flyweights of the same or of different types and between flyweights and plain values, ==,!=,<,>,<=,>= agree with the corresponding comparisons of the values; same-type == agrees with value equality whenever the factory equivalence is equality; if < on values is a strict weak (total) order so is < on flyweights.", "quantifier": "every pair of flyweights or values and every value order", "why_tests_cant": "The derived operators are generated by macros; tests sample a few values.", "anchors": ["include/boost/flyweight/flyweight.hpp: operator==, operator<, BOOST_FLYWEIGHT_COMPLETE_COMP_OPS"]}
{"id": "C18", "title": "Hash is consistent with equality and stable", "statement": "Equal flyweights of the same type have equal hashes, the hash of a flyweight does not change while it is neither assigned, swapped nor destroyed, and distinct live values never share the hashed address.", "quantifier": "every reachable state", "why_tests_cant": "Address-based hashing interacts with deallocation and address reuse.", "anchors": ["include/boost/flyweight/flyweight.hpp: std::hash, hash_value"]}
{"id": "C19", "title": "Stream insertion and extraction", "statement": "operator<< writes exactly what writing get() writes; operator>> leaves in the flyweight exactly the value that extraction into a copy of its current value leaves in that copy, also when extraction fails, changes no other flyweight, and if it throws the flyweight is unchanged.", "quantifier": "every stream state, extraction function and flyweight state", "why_tests_cant": "Failure modes of extraction are open-ended.", "anchors": ["include/boost/flyweight/flyweight.hpp: operator<<, operator>>"]}
{"id": "C20", "title": "Serialization round-trip", "statement": "Loading from an archive what was saved to it yields, in order, flyweights with equal keys, and two loaded flyweights of the same type are equal iff the saved ones were; this holds for any number of flyweight types interleaved in the same archive and nested inside each other's keys, provided that no key contains (at any depth) a flyweight of its own type.", "quantifier": "every sequence of saved flyweights, every nesting without type repetition", "why_tests_cant": "Unbounded sequences and shapes.", "anchors": ["include/boost/flyweight/serialize.hpp: save, load", "include/boost/flyweight/detail/serialization_helper.hpp: save_helper, load_helper"]}
{"id": "C21", "title": "Each value is serialized once", "statement": "Within one archive the key of a value is written only at the first save of a flyweight with that value; later saves write just an index.", "quantifier": "every sequence of saves", "why_tests_cant": "Unbounded sequences with arbitrary repetitions.", "anchors": ["include/boost/flyweight/serialize.hpp: save", "include/boost/flyweight/detail/serialization_helper.hpp: save_helper::find"]}
{"id": "C22", "title": "Corrupt archives are rejected safely", "statement": "Loading from an arbitrary token stream never indexes out of the exemplar table: it either throws, leaving the target flyweight and previously loaded exemplars as they were, or assigns an exemplar present in the table.", "quantifier": "every token stream and table", "why_tests_cant": "The space of malformed archives is infinite.", "anchors": ["include/boost/flyweight/serialize.hpp: load (n>hlp.size() check)"]}
{"id": "C23", "title": "Serialization indices survive destruction and address reuse", "statement": "Even if flyweights are destroyed and others are created (possibly at recycled addresses) between saves to the same archive, each saved flyweight is recorded with the index of an exemplar with its own key.", "quantifier": "every interleaving of saves with flyweight operations, every allocator behaviour", "why_tests_cant": "Requires an adversarial allocator and specific histories.", "anchors": ["include/boost/flyweight/detail/serialization_helper.hpp: save_helper (holds flyweight copies, keyed by address)"]}
{"id": "C24", "title": "Serialization of recursive flyweights", "statement": "The round-trip property also holds for flyweights whose key contains flyweights of the same type. (The code violates this: the first load of such a flyweight yields the first exemplar registered while reading its key.)", "quantifier": "every recursively nested key", "why_tests_cant": "The repository has no test of this; the failure depends on nesting.", "anchors": ["include/boost/flyweight/serialize.hpp: load (f=hlp[n])", "example/composite.cpp: list_impl"]}
{"id": "C25", "title": "concurrent_factory: no dangling references, unique entries", "statement": "With concurrent_factory, for any number of threads plus the garbage collector, no handle ever refers to an erased entry, reference counts equal the number of handles, and handles created from equivalent keys refer to the same entry.", "quantifier": "every number of threads, every interleaving of container operations, copies, releases and garbage collection steps, with refcounted or no_tracking and simple_locking or no_locking", "why_tests_cant": "Races between visitation, release and the collector cannot be enumerated.", "anchors": ["include/boost/flyweight/concurrent_factory.hpp: concurrent_factory_class_impl, refcounted_handle, refcounted_entry"]}
{"id": "C26", "title": "concurrent_factory: the collector reclaims exactly unreferenced entries", "statement": "A garbage collection pass never removes an entry that some handle refers to, and every entry that stays without handles throughout a pass is gone when the pass ends.", "quantifier": "every state at the beginning of the pass and every interleaving during it", "why_tests_cant": "The collector runs on a one-second timer concurrently with clients.", "anchors": ["include/boost/flyweight/concurrent_factory.hpp: concurrent_factory_class_impl() (erase_if)"]}
{"id": "C27", "title": "concurrent_factory: failed construction is repaired", "statement": "If the value constructor throws during an insertion in a concurrent_factory, no handle is produced, the value-less entry is never visible through any flyweight, and the next insertion of an equivalent key constructs the value (or the collector removes the entry first).", "quantifier": "every interleaving of failures, retries and collections", "why_tests_cant": "Needs failure and race combined.", "anchors": ["include/boost/flyweight/concurrent_factory.hpp: insert_and_visit", "include/boost/flyweight/key_value.hpp: key_construct_value"]}
{"id": "C28", "title": "concurrent_factory: shutdown", "statement": "Destroying a concurrent_factory always terminates: the collector thread returns at its next wake-up at the latest and no collector step touches the container after the destructor has joined it; the collector never runs before the members it uses are initialised.", "quantifier": "every interleaving of destructor and collector steps, including spurious wake-ups and time-outs", "why_tests_cant": "Lost wake-ups and shutdown races are schedule dependent.", "anchors": ["include/boost/flyweight/concurrent_factory.hpp: ~concurrent_factory_class_impl, gc"]}
{"id": "C29", "title": "Static initialization", "statement": "init() is idempotent and creates a single factory and mutex; every library entry point that uses the factory is preceded by initialization, in whatever order the program's static objects are initialised.", "quantifier": "every order of static initialisers and calls", "why_tests_cant": "Static initialization order is unspecified across translation units.", "anchors": ["include/boost/flyweight/detail/flyweight_core.hpp: init, static_initializer", "include/boost/flyweight/static_holder.hpp: static_holder_class::get", "include/boost/flyweight/flyweight.hpp: flyweight::init, initializer"]}
{"id": "C30", "title": "Static destruction order", "statement": "A static-storage object constructed after (or whose construction triggers) the initialization of the flyweight type is destroyed before the factory, so flyweights it holds never outlive the factory; an object constructed before initialization that later acquires flyweights is destroyed after the factory (documented hazard).", "quantifier": "every sequence of static constructions", "why_tests_cant": "Order of static destruction is a whole-program property.", "anchors": ["include/boost/flyweight/static_holder.hpp: static_holder_class::get", "include/boost/flyweight/flyweight.hpp: flyweight::initializer", "doc/tutorial/technical.html: static data initialization"]}
{"id": "C31", "title": "Intermodule uniqueness", "statement": "With intermodule_holder, flyweights with equivalent keys created in different modules compare equal and share one value; with static_holder each module has its own factory and such flyweights do not share.", "quantifier": "every number of modules and every interleaving of their initialisations and insertions", "why_tests_cant": "Tests exercise one fixed pair of modules.", "anchors": ["include/boost/flyweight/intermodule_holder.hpp: intermodule_holder_class", "include/boost/flyweight/static_holder.hpp", "include/boost/flyweight/detail/flyweight_core.hpp: flyweight_core_tracking_helper::erase (init)"]}
{"id": "C32", "title": "Free-order configuration", "statement": "The configuration of a flyweight type does not depend on the order in which its tag, tracking, factory, locking and holder arguments are given; omitted arguments take the documented defaults; an argument of no recognised kind, or two of the same kind, is rejected.", "quantifier": "every list of at most five arguments and every permutation", "why_tests_cant": "Combinatorial, and arguments range over user-defined specifiers.", "anchors": ["include/boost/flyweight/flyweight.hpp: flyweight_signature, flyweight_unmatched_signature, flyweight (bindings)"]}
{"id": "C33", "title": "Tags isolate flyweight types", "statement": "Flyweight types that differ in value type, tag or any policy have separate factories: operations on one never affect the contents, sharing or counts of another.", "quantifier": "every pair of distinct configurations and every interleaving of operations", "why_tests_cant": "Non-interference quantifies over all pairs of histories.", "anchors": ["include/boost/flyweight/tag.hpp: tag", "include/boost/flyweight/detail/flyweight_core.hpp: flyweight_core (template parameters)"]}
{"id": "C34", "title": "hashed_factory implements the factory contract", "statement": "A hashed container (any bucket count, any rehashing policy) with a hash function compatible with the equality predicate finds an existing equivalent entry iff there is one, never holds two equivalent entries, keeps handles valid across insertions, rehashing and other erasures; with an incompatible hash, duplicates are possible.", "quantifier": "every hash function, predicate, bucket count, history", "why_tests_cant": "Container layouts and hash functions are unbounded.", "anchors": ["include/boost/flyweight/hashed_factory.hpp: hashed_factory_class_impl::insert, erase, entry"]}
{"id": "C35", "title": "set_factory and assoc_container_factory implement the factory contract", "statement": "An ordered container under any strict weak ordering finds an existing equivalent (incomparable) entry iff there is one, never holds two equivalent entries and keeps handles valid.", "quantifier": "every strict weak ordering and history", "why_tests_cant": "Orderings and histories are unbounded.", "anchors": ["include/boost/flyweight/set_factory.hpp: set_factory_class", "include/boost/flyweight/assoc_container_factory.hpp: assoc_container_factory_class_impl::insert, erase, entry"]}
{"id": "C36", "title": "Custom factories are interchangeable", "statement": "Replacing the factory (hashed, ordered set, the test suite's list-update factory, the example's verbose factory) does not change any observable result of any program using flyweights with the same key equivalence, apart from addresses, as long as the same operations throw; hashed_factory and set_factory, which call the same user operations, also agree on which operations throw.", "quantifier": "every program, every pair of lawful factories, every pattern of exceptions", "why_tests_cant": "Equivalence of two implementations over all histories.", "anchors": ["test/test_custom_factory.cpp: lu_factory_class", "example/custom_factory.cpp: verbose_factory_class", "include/boost/flyweight/hashed_factory.hpp", "include/boost/flyweight/set_factory.hpp"]}
{"id": "C37", "title": "Recursive flyweights: cascaded reclamation", "statement": "When the last flyweight to a value that itself contains flyweights (of the same or other types) is destroyed, all values that thereby become unreferenced are reclaimed, recursively, and no others.", "quantifier": "every nesting depth and sharing structure", "why_tests_cant": "Shapes of shared structures are unbounded.", "anchors": ["example/composite.cpp: list_impl", "include/boost/flyweight/detail/flyweight_core.hpp: erase", "include/boost/flyweight/simple_locking.hpp: recursive_lightweight_mutex"]}
{"id": "C38", "title": "Deadlock freedom", "statement": "If the types whose values contain (or whose value construction uses) other flyweight types form no cycle other than self-containment, no set of threads can block each other forever.  The condition is needed: for two or more types using each other along a cycle, of any length, as many threads can come to wait for each other in a circle so that none can ever proceed.", "quantifier": "every number of threads and types, every interleaving; existence of a deadlock for every cycle of two or more types", "why_tests_cant": "Deadlocks need an exact interleaving.", "anchors": ["include/boost/flyweight/detail/flyweight_core.hpp: insert_rep, erase", "include/boost/flyweight/detail/recursive_lw_mutex.hpp: recursive_lightweight_mutex"]}
{"id": "C39", "title": "Reentrant creation of the key under construction", "statement": "A value constructor may create flyweights of its own type for other keys; the only way an insertion can meet an entry without a value is that the value constructor of that very key requested the key again on the same thread, which is outside what the library supports.", "quantifier": "every interleaving and nesting", "why_tests_cant": "Distinguishing cross-thread from same-thread encounters requires all interleavings.", "anchors": ["include/boost/flyweight/detail/flyweight_core.hpp: insert_and_visit", "include/boost/flyweight/key_value.hpp: key_construct_value", "example/fibonacci.cpp: compute_fibonacci"]}
{"id": "C40", "title": "concurrent_factory with refcounted tracking and nested flyweights: lock order", "statement": "concurrent_factory combined with the default tracking and locking never deadlocks. (Violated for values that contain flyweights of the same type: the collector destroys an entry while holding the container's lock and then needs the type's mutex, which an inserting thread may hold while waiting for the container's lock. In general, all threads and collectors can come to a standstill exactly if types use each other along a cycle, by creating flyweights in constructors or, with the default tracking and locking, by containing flyweights.)", "quantifier": "every number of threads, collectors and types, every interleaving; existence of a deadlock for every cycle of types", "why_tests_cant": "A one-second collector period makes the interleaving practically unobservable in tests.", "anchors": ["include/boost/flyweight/concurrent_factory.hpp: erase_if in gc", "include/boost/flyweight/refcounted.hpp: ~refcounted_handle", "include/boost/flyweight/detail/flyweight_core.hpp: erase"]}
{"id": "C41", "title": "archive_constructed lifetime", "statement": "The temporary key used while loading is constructed exactly once if its construction succeeds and destroyed exactly once on every path (normal, exception while reading contents), and never destroyed if its construction failed.", "quantifier": "every failure point", "why_tests_cant": "Failure points are open-ended.", "anchors": ["include/boost/flyweight/detail/archive_constructed.hpp: archive_constructed"]}
{"id": "C42", "title": "Memoized recursion computes each value once", "statement": "In the Fibonacci example, requesting n constructs the value of each index up to n exactly once, in whatever state of the table the request starts, yields the n-th Fibonacci number, and later requests construct nothing.", "quantifier": "every n and every previously requested set", "why_tests_cant": "Quantifies over n and table states.", "anchors": ["example/fibonacci.cpp: compute_fibonacci, fibonacci"]}
{"id": "C43", "title": "Parallel tokenization equals sequential tokenization", "statement": "In the parallel example, splitting the text in chunks cut at word boundaries and tokenizing the chunks independently yields the same sequence of words as tokenizing the whole text, whatever the number of chunks.", "quantifier": "every text and number of chunks", "why_tests_cant": "Texts and chunk counts are unbounded.", "anchors": ["example/parallel.cpp: parse"]}
{"id": "C44", "title": "Formatted text example: context changes are well nested and faithful", "statement": "In the HTML example, parsing a well-nested document into characters with shared contexts and producing HTML from it again yields, for any document, balanced tags and a document that parses to the same characters in the same contexts.", "quantifier": "every document and every reordering of its characters", "why_tests_cant": "Documents are unbounded.", "anchors": ["example/html.cpp: scan_html, change_context, produce_html"]}
{"id": "C45", "title": "Composite example: parse and print", "statement": "In the composite example, printing the list obtained from parsing a well-formed text and parsing a printed list give back the original, and structurally equal sublists are shared.", "quantifier": "every nested list", "why_tests_cant": "Nested lists are unbounded.", "anchors": ["example/composite.cpp: parse_list, pretty_print"]}
{"id": "C46", "title": "Value constructors may create flyweights of the same type", "statement": "With a key-value flyweight whose value constructor itself creates flyweights of the same type, under the recursive lock, every construction yields the value meant for its key, each value is constructed once, the lock is released as often as acquired and an exception at any level leaves the table consistent, as long as no constructor asks, directly or indirectly, for its own key; asking for the own key never succeeds.", "quantifier": "every constructor program, every sequence of requests, every pattern of exceptions", "why_tests_cant": "Nesting depth, constructor programs and exception patterns are unbounded; tests do not exercise reentrant construction with exceptions.", "anchors": ["include/boost/flyweight/detail/flyweight_core.hpp: insert_value, insert_and_visit", "include/boost/flyweight/key_value.hpp: key_construct_value", "example/fibonacci.cpp"]}
{"id": "C47", "title": "Recursive values with reference counting: sharing and complete reclamation", "statement": "When values contain flyweights of the same type, any sequence of constructions, copies, extractions of nested flyweights, assignments and destructions, with exceptions at insertion, is free of undefined behaviour and gives the flyweights the values they would have without sharing; equal (sub)trees are one entry, every entry's count equals the number of flyweights referring to it from the program and from stored values, and the factory holds exactly the trees reachable from the program's flyweights, so it is empty when they are gone.", "quantifier": "every program, every nesting depth, every allocator", "why_tests_cant": "Nesting, sharing patterns and orders of destruction are unbounded; a leak or dangling handle in the cascade of erasures would show only for particular shapes.", "anchors": ["include/boost/flyweight/refcounted.hpp: refcounted_handle", "include/boost/flyweight/detail/flyweight_core.hpp: insert_value, erase", "example/composite.cpp"]}
{"id": "C48", "title": "Rvalue arguments are consumed only when documented", "statement": "Creating or assigning a plain flyweight<T> from an rvalue of T moves from it whenever the operation succeeds, even if an equal value is already stored. With key_value and a key extractor, the rvalue is moved from exactly if a new value is stored, that is, if no equivalent key is available; when an equivalent value exists, or when the operation throws, the argument is left untouched. Keys and lvalues passed by the user are never moved from, nor do copying, assignment, swap, destruction or inspection of flyweights move from anything.", "quantifier": "every flyweight type, every reachable state, every operation, every pattern of exceptions", "why_tests_cant": "Whether the argument survives depends on the whole history (which keys are live or have ever been used) and on where an exception strikes; tests try a few histories.", "anchors": ["include/boost/flyweight/key_value.hpp: variant_key_value::rep_type, move_construct_value", "include/boost/flyweight/detail/default_value_policy.hpp: rep_type", "include/boost/flyweight/detail/flyweight_core.hpp: insert, insert_value", "include/boost/flyweight/flyweight.hpp: constructors and assignment", "include/boost/flyweight/concurrent_factory.hpp: refcounted_entry, concurrent_factory_class_impl::insert"]}
{"id": "C49", "title": "No data races", "statement": "With simple_locking and refcounted, whatever any number of threads do (create, copy, assign, swap, read and destroy flyweights, including flyweights inside values and inside value constructors, with exceptions), provided that each flyweight object is itself used like an ordinary object (several readers or one thread changing it), any two accesses to a factory, a key, a value or a counter that conflict in the sense of the C++ memory model are ordered by happens-before; in particular a value's construction happens before every read of it through any flyweight, and every read happens before its destruction. The mutex and the acquire and release ordering of the decrements of the count are each necessary for this, an ordering of the increments is not.", "quantifier": "every number of threads, every interleaving, every number of flyweight types, every program", "why_tests_cant": "Data races show only under particular interleavings and hardware; on strongly ordered machines a missing acquire or release is invisible to tests.", "anchors": ["include/boost/flyweight/refcounted.hpp: refcounted_value, refcounted_handle", "include/boost/flyweight/detail/flyweight_core.hpp: insert_value, insert_rep, erase", "include/boost/flyweight/simple_locking.hpp: simple_locking", "include/boost/flyweight/flyweight.hpp: constructors, assignment, get"]}
{"id": "C50", "title": "No data races with concurrent_factory", "statement": "With concurrent_factory, with refcounted and simple_locking as well as with no_tracking and either locking policy, whatever any number of threads do (create, copy, assign, swap, read and destroy flyweights, including flyweights inside values and inside value constructors, with exceptions) while the factories' garbage collectors run, provided that each flyweight object is itself used like an ordinary object and that the container gives the functions it calls exclusive access to the element, any two accesses to a key, a value or a counter that conflict in the sense of the C++ memory model are ordered by happens-before; in particular a value's construction happens before every read of it through any flyweight, and every use of an entry happens before the collector destroys it. It suffices that the decrement of the entry's count is a release operation and that the collector's load of the count is an acquire operation, and without either of them there is a data race. Whenever a count that was zero has become positive, the increment happens before any later load of it by the collector, which therefore never erases an entry because of a stale zero.", "quantifier": "every number of threads and collectors, every interleaving, every number of flyweight types, every program", "why_tests_cant": "The collector runs once per second, and a destruction that races with the last use of a value needs a particular interleaving and a weakly ordered machine to show.", "anchors": ["include/boost/flyweight/concurrent_factory.hpp: refcounted_entry, refcounted_handle, concurrent_factory_class_impl", "include/boost/flyweight/refcounted.hpp: refcounted_value, refcounted_handle", "include/boost/flyweight/flyweight.hpp: constructors, assignment, get"]}
{"id": "C51", "title": "Static data and threads", "statement": "If init() of a flyweight type has been called before any other thread that uses the type is started, as the documentation recommends, then no access to the static data of the type (initialization flag, pointers to factory and mutex, the object that holds both) by any thread is a data race, and no thread finds a null pointer. Without such a call there are data races.", "quantifier": "every number of threads and types, every interleaving, every program that follows the rule", "why_tests_cant": "Static initialization order is unspecified and the race shows only under particular timing, usually without visible effect.", "anchors": ["include/boost/flyweight/detail/flyweight_core.hpp: init, static_initializer, factory, mutex", "include/boost/flyweight/static_holder.hpp: static_holder_class::get", "include/boost/flyweight/flyweight.hpp: flyweight::init, initializer", "doc/tutorial/technical.html: Static data initialization"]}
{"id": "C52", "title": "Arguments reach the key and the value", "statement": "Constructing a flyweight from one argument of its own type, of any constness and value category, copies the handle and looks nothing up. Constructing it from one argument of the value type copies the value, or moves it if it is a non-const rvalue; with key_value the key is extracted from it, or the program is rejected if there is no extractor. From any other arguments, the key (or the value, if it is its own key) is constructed from exactly the arguments given, in number, order, type, constness and value category; an initializer_list object convertible to the key arrives as an lvalue, and an object of a class derived from the flyweight is such an argument too, although assigning it copies the handle. Assignment accepts flyweights, values and what converts to the value type, and rejects what converts to both. These are the effects documented for the constructors. On compilers without variadic templates the same holds up to the configured number of arguments, more are rejected; without rvalue references, rvalues arrive as const lvalues and are not moved. The handwritten and the generated overloads for such compilers are the same.", "quantifier": "every number of arguments, all types, constnesses and value categories, every relation of inheritance and conversion between the types, every limit of the emulation", "why_tests_cant": "Overload resolution depends on the relations among arbitrary user types; tests instantiate a few types, on compilers that use only one of the three implementations.", "anchors": ["include/boost/flyweight/flyweight.hpp: constructors, assignment", "include/boost/flyweight/detail/flyweight_core.hpp: insert, insert_value, insert_rep", "include/boost/flyweight/detail/perfect_fwd.hpp", "include/boost/flyweight/detail/pp_perfect_fwd.hpp", "include/boost/flyweight/detail/dyn_perfect_fwd.hpp", "include/boost/flyweight/detail/default_value_policy.hpp: rep_type", "include/boost/flyweight/key_value.hpp: rep_type", "doc/reference/flyweight.html: Constructors, copy and assignment"]}
{"id": "C53", "title": "What the verbose factory of the examples prints", "statement": "With the factory of example/custom_factory.cpp: (a) whatever flyweights a program makes, copies, assigns, swaps and destroys and whichever operations of the user's types throw, the lines printed make sense one after the other: no key is announced as new while an equivalent one is stored, none is hit or deleted without being stored; read in order they tell exactly which keys are in use, with refcounted those of the live flyweights. (b) Making a flyweight prints one line with the key asked for: hit if an equivalent key is stored, else new. Destroying or assigning a flyweight prints del with its key if, with refcounted, no flyweight with an equivalent key is left, and otherwise nothing; assigning a value prints the line of making a flyweight before that of dropping the former one. Nothing else prints. An operation that throws prints nothing, or new and del of the same key not stored before. (c) As many lines new as del and keys stored; all flyweights destroyed, as many new as del. With no_tracking only operations that throw print del. (d) main prints new for each token seen for the first time, hit for the others, and finally one del for each different token, however the vector grows and whether it moves or copies its elements.", "quantifier": "for all key types and orders, value policies, tracking policies, programs, patterns of exceptions, allocators; for all texts and growth strategies of the vector", "why_tests_cant": "The example is run on one text without checking what it prints; exceptions, assignment and no_tracking are never combined with it.", "anchors": ["example/custom_factory.cpp: verbose_factory_class, main", "include/boost/flyweight/detail/flyweight_core.hpp: insert", "include/boost/flyweight/refcounted.hpp: check_erase, handle", "include/boost/flyweight/no_tracking.hpp"]}
{"id": "C54", "title": "Specifiers as placeholder expressions", "statement": "(a) hashed_factory<h,p,a> and hashed_factory_class<_1,_2,h,p,a> make the same factory, and likewise the other factories and both holders, each in its two documented forms; assoc_container_factory<c> accepts for c a metafunction class or a placeholder expression. (b) The container of the factory has elements of the entry type, and hash function, predicate or comparison and allocator are those given, with the entry type in place of _1 and the key type in place of _2; those omitted are boost::hash, std::equal_to, std::less of the key type and std::allocator of the entry type; those without placeholders are used verbatim. (c) A specifier, or a flyweight type, with placeholder expressions in it is never itself taken for one, with compilers of both kinds; a compiler of either kind needs the form of the macro meant for it. (d) is_placeholder_expression<T> is true exactly if a placeholder occurs in T, and compiles for all T; factory classes instantiated with placeholders do not name a container made of them. (e) Entries are counted values with refcounted and bare representations with no_tracking. Hazards: functor templates with a nested type are replaced by it if given by a placeholder; a key type in which a placeholder occurs leaves set_factory and concurrent_factory without container; a class derived from a factory class of the library stands for its base if it does not redefine the nested type.", "quantifier": "for all types built from templates and classes of the library, the standard library and the user, of any nesting; all metafunction classes of the user; both kinds of compilers", "why_tests_cant": "Each test instantiates a handful of specifiers with one compiler; an error shows only with particular nestings.", "anchors": ["include/boost/flyweight/hashed_factory.hpp: hashed_factory_class, hashed_factory", "include/boost/flyweight/set_factory.hpp", "include/boost/flyweight/assoc_container_factory.hpp", "include/boost/flyweight/concurrent_factory.hpp: concurrent_factory_class_base, concurrent_factory", "include/boost/flyweight/static_holder.hpp", "include/boost/flyweight/intermodule_holder.hpp", "include/boost/flyweight/detail/is_placeholder_expr.hpp", "include/boost/flyweight/detail/nested_xxx_if_not_ph.hpp", "include/boost/flyweight/detail/not_placeholder_expr.hpp", "include/boost/flyweight/detail/flyweight_core.hpp:129-147", "test/test_basic.cpp:35-56"]}
{"id": "C55", "title": "Concurrent operations appear to be atomic", "statement": "Used from any number of threads with simple_locking and refcounted, flyweights behave as if every operation took effect at a single instant between its call and its return: at that instant a flyweight being made joins the value with an equivalent key or, if there is none, adds its own; at that instant a flyweight being destroyed stops referring to its value, which vanishes if it was the last one, and with it the flyweights inside it are destroyed. Objects, their values and what each thread is doing outside the library are the same, action by action, as with such atomic operations; when no thread is in the library nothing else is stored. With atomic operations values exist exactly as long as some flyweight refers to them, and there is one for each key. Without the mutex (no_locking) this fails with two threads.", "quantifier": "for all numbers of threads and flyweight types, values that contain flyweights, value constructors that use the library or throw, all schedules", "why_tests_cant": "The instant at which a call takes effect depends on the interleaving; tests run a few schedules and compare sums, not histories.", "anchors": ["include/boost/flyweight/refcounted.hpp: add_ref, release, add_deleter, release_deleter, refcounted_handle", "include/boost/flyweight/detail/flyweight_core.hpp: insert_and_visit, tracking_helper::erase, insert_rep, insert_value", "include/boost/flyweight/simple_locking.hpp", "include/boost/flyweight/no_locking.hpp", "doc/tutorial/configuration.html: Locking policies"]}
{"id": "C56", "title": "Concurrent use without tracking", "statement": "Used from any number of threads with simple_locking and no_tracking, flyweights never use an entry or value that is not there; each refers to a value of its type for a key equivalent to its own and shares it exactly with the flyweights of its type with equivalent keys. A value once constructed stays as it is, whatever is destroyed later, and is constructed at most once per key; when no thread is in the library all entries have values and all mutexes are free. Conflicting accesses to containers, keys and values are ordered by happens-before; without the mutex they are not. Threads can wait for each other for ever only if value constructors of different types create flyweights of each other's types: unlike with refcounted, values may contain flyweights of each other's types. An insertion meets an entry without value only within the constructor for that entry. Operations appear to be atomic.", "quantifier": "for all numbers of threads and flyweight types, values that contain flyweights, value constructors that use the library or throw, all schedules", "why_tests_cant": "Tests run a few schedules, with refcounted; races and deadlocks need particular interleavings.", "anchors": ["include/boost/flyweight/no_tracking.hpp", "include/boost/flyweight/detail/flyweight_core.hpp: insert_and_visit, insert_rep, insert_value", "include/boost/flyweight/simple_locking.hpp", "include/boost/flyweight/no_locking.hpp", "include/boost/flyweight/key_value.hpp", "doc/tutorial/configuration.html: Tracking policies, Locking policies"]}
{"id": "C57", "title": "With concurrent_factory, operations appear to be atomic and values linger", "statement": "Used from any number of threads with concurrent_factory and its garbage collector threads (no_tracking with no_locking, or refcounted with simple_locking), flyweights behave as if every operation took effect at a single instant. At that instant a flyweight being made refers to the value with an equivalent key if there is one, whether or not any other flyweight still does; otherwise it adds its own. A value that no flyweight refers to lingers, unchanged, until the garbage collector of its type removes it at some instant at which it is still unreferenced; nothing else removes values. If constructing a value fails the key stays behind, and the next request for it constructs the value there. A value is constructed by one call at a time and no flyweight refers to it meanwhile. Objects, their values and what each thread is doing outside the library are the same, action by action, as with such atomic operations; when no thread is in the library nothing else is stored.", "quantifier": "for all numbers of threads, flyweight types and garbage collectors, values that contain flyweights, value constructors that use the library or throw, all schedules", "why_tests_cant": "Whether a request meets a value before or after the collector removes it depends on the interleaving of a thread that wakes up once a second; tests run a few schedules and compare sums, not histories.", "anchors": ["include/boost/flyweight/concurrent_factory.hpp: insert_and_visit, gc, entry_type", "include/boost/flyweight/detail/flyweight_core.hpp: insert_and_visit, insert_rep, insert_value", "include/boost/flyweight/refcounted.hpp: add_ref, release", "include/boost/flyweight/no_tracking.hpp"]}
{"id": "C58", "title": "Calls return, after a bounded number of steps", "statement": "Inside the library no thread spins or retries: in any execution from the start, the steps that all threads together spend in library calls are at most a fixed number for each flyweight made and each copy of a flyweight (13 and 1 with refcounted, 6 and 0 with no_tracking, 15 and 2 with concurrent_factory, plus 3 for each element visited and 1 for each pass of a garbage collector), whatever the schedule and the contents of the container; destroying flyweights, also those contained in values, costs nothing beyond that. These numbers are attained. If the types are used without cycles, no further calls begin, value constructors in progress return or throw, and every thread keeps getting turns, then all calls in progress return: no thread waits for ever for a mutex or an element.", "quantifier": "for all numbers of threads and flyweight types, values that contain flyweights, value constructors that use the library or throw, all schedules and all infinite fair executions", "why_tests_cant": "Livelock, starvation and retry loops appear only in particular schedules, and a test cannot tell a slow call from one that never returns.", "anchors": ["include/boost/flyweight/detail/flyweight_core.hpp: insert_and_visit, insert_rep, insert_value", "include/boost/flyweight/refcounted.hpp: add_ref, release, refcounted_handle, check_erase", "include/boost/flyweight/concurrent_factory.hpp: insert_and_visit, gc", "include/boost/flyweight/no_tracking.hpp", "include/boost/flyweight/simple_locking.hpp"]}
{"id": "C59", "title": "What several threads see is what a sequential program sees", "statement": "For every execution in which several threads use flyweights there is a program of one thread, all operations of which succeed, that has the same flyweights referring to the same values: a flyweight is made at the one instant the constructor takes effect, copied when it is copied, destroyed when its reference is given up, and nothing else happens. This holds at every moment of the execution, for refcounted and no_tracking, with nested values and constructors that throw; reading and comparing flyweights gives what the sequential program would get. With concurrent_factory the same holds if the container is taken to own one flyweight for each value, which it makes along with the value and destroys when a garbage collector removes it.", "quantifier": "for all numbers of threads and flyweight types, equivalence relations on keys, programs (creations, copies, destructions, swaps, reads; nested values; throwing constructors) and schedules", "why_tests_cant": "Linearizability is about all interleavings: tests sample a few schedules and compare with expectations for that program only.", "anchors": ["include/boost/flyweight/detail/flyweight_core.hpp: insert_and_visit, insert_rep, insert_value", "include/boost/flyweight/refcounted.hpp: refcounted_handle, release, check_erase", "include/boost/flyweight/no_tracking.hpp", "include/boost/flyweight/concurrent_factory.hpp: insert_and_visit, gc", "include/boost/flyweight/simple_locking.hpp"]}
{"id": "C60", "title": "Exactly how many keys and values are constructed, copied and moved", "statement": "Creating a flyweight (or assigning a value to one) constructs a fixed number of objects of the user's types. flyweight<T>: one T from the arguments (or copied or moved from the T given), one move of it into the entry, and, if the value is new, one move into the node. Key-value flyweights: the key is constructed from the arguments or taken from the value, moved into the entry and, if the value is new, moved into the node, and then the value is constructed in its final place, from the key or from the value given, and never copied or moved afterwards. With no_tracking, creation from a value does without the move into the entry. If a value equivalent to the key exists, no value is constructed by key-value flyweights. A creation that throws constructs at most as many objects of each kind. Copying, moving, assigning, swapping, comparing, reading, hashing and destroying flyweights construct nothing. With hashed_factory and set_factory no key is ever copied, values are copied only when a flyweight is made from an lvalue of the value type, and key-value flyweights never move a value unless it is given as an rvalue. After every program the objects constructed are those destroyed and those in the entries of the factory: one value per entry, and one key per entry with key_value<K,V>, none with key_value<K,V,KeyFromValue> and flyweight<T>.", "quantifier": "for all value policies and factories of the library, tracking policies, user types, programs, reachable states and exceptions thrown by the user's operations", "why_tests_cant": "Tests check final values; superfluous copies, or a missing one in a particular combination of policy, factory, argument and state, only show in counts over all combinations and histories.", "anchors": ["include/boost/flyweight/detail/flyweight_core.hpp: insert, insert_rep, insert_value, insert_and_visit", "include/boost/flyweight/key_value.hpp: variant_key_value::rep_type, product_key_value::rep_type, key_construct_value, copy_construct_value, move_construct_value", "include/boost/flyweight/detail/default_value_policy.hpp: rep_type", "include/boost/flyweight/refcounted.hpp: refcounted_value", "include/boost/flyweight/no_tracking.hpp", "include/boost/flyweight/hashed_factory.hpp: insert", "include/boost/flyweight/set_factory.hpp", "include/boost/flyweight/assoc_container_factory.hpp: insert"]}
{"id": "C61", "title": "Expensive values are loaded once and never copied (key_value example)", "statement": "In the example program, where textures announce their construction from a file name, their copying and their destruction, each texture is announced as loaded exactly once, in the order in which file names are first chosen; no texture is ever announced as copied, although flyweights are also created from textures read back from other flyweights; each texture is announced as unloaded exactly once, after the vector of flyweights is destroyed; as many flyweights are created as announced; nothing is left in the end. After the first loop the elements of the vector refer to the textures of the chosen names.", "quantifier": "all sequences of file names chosen, all random numbers, all ways the vector may grow, all library factories whose equivalent keys are equal", "why_tests_cant": "The choices are random and of unbounded number; the output of the example is not checked by any test.", "anchors": ["example/key_value.cpp: texture, main", "include/boost/flyweight/key_value.hpp: variant_key_value", "include/boost/flyweight/detail/flyweight_core.hpp: insert_rep, insert_value"]}
{"id": "C62", "title": "Texts survive saving and loading (serialization example)", "statement": "The program that cuts a text into words and separators, saves the vector of flyweights of these to an archive, loads the archive and writes the tokens gives back every text exactly, in a process with any other flyweights. The archive consists of the number of tokens and, for each token, its position among the different tokens so far, followed by the token where it occurs first, so each different token is stored once. Any other contents of the archive are either loaded or rejected with an exception. Tokens are single separators or non-empty words without separators, and there is a separator between two words.", "quantifier": "all texts, all contents of archives, all flyweights existing in the loading process", "why_tests_cant": "Texts and archives are unbounded; the example is interactive and not run by any test.", "anchors": ["example/serialization.cpp: save_serialization_file, load_serialization_file", "include/boost/flyweight/serialize.hpp: save, load", "include/boost/flyweight/detail/serialization_helper.hpp"]}
{"id": "C63", "title": "The library's test templates succeed for all inputs", "statement": "The tests run for every configuration in the test suite (construction, copy, move, assignment, swap, identity of references, streams, hashes, and the comparison of two flyweights of the same type) succeed for every sequence of elements, every factory, both tracking policies and every state of the program running them, if keys are compared by equality and determine the values. They end with all checks successful, or with an exception that an operation of the user has thrown. Either way the flyweights that existed before are unchanged and, with refcounted, there are no more keys and values than before.", "quantifier": "all sequences of elements, flyweight types with equality of keys, programs run before, patterns of exceptions", "why_tests_cant": "The tests run the templates on five fixed sequences from an empty program without exceptions.", "anchors": ["test/test_basic_template.hpp: test_basic_template, test_basic_with_assign_template, test_basic_comparison_template", "include/boost/flyweight/flyweight.hpp"]}
{"id": "C64", "title": "Flyweights behave as plain values", "statement": "If keys are compared by equality and determine the values, a program that constructs, copies, moves, assigns, swaps, destroys, reads and compares flyweights, and decides by what it sees how to go on, has the same results as with ordinary variables holding keys and the values made of them, as long as it does not look at addresses and hashes. The only difference an exception thrown by an operation of the user can make is that one construction or assignment fails and changes nothing. In particular the factory, the tracking policy, the allocator and the hash function do not matter.", "quantifier": "all interactive programs, flyweight types with equality of keys, states to start from, patterns of exceptions", "why_tests_cant": "Programs and their reactions to what they read are infinitely many; a test compares a few sequences with expected values.", "anchors": ["include/boost/flyweight/flyweight.hpp: flyweight", "include/boost/flyweight/detail/flyweight_core.hpp: insert", "include/boost/flyweight/key_value.hpp"]}
{"id": "C65", "title": "The basic example prints the right users", "statement": "The basic example, for any text with at least one user, any new name for the first user and any replacement user, prints the users in the order of the text, with the first one renamed and every user with the name of the replacement replaced by it. At the end there are no flyweights and, with refcounted, no values. It fails to do so only if an operation of the user throws.", "quantifier": "all texts, names and ages, factories, tracking policies, patterns of exceptions", "why_tests_cant": "The example has one text and nothing compares its output with anything.", "anchors": ["example/basic.cpp: main, same_name, change_name, operator>>", "include/boost/flyweight/flyweight.hpp: operator>>"]}
{"id": "C66", "title": "As many values as different keys; the performance example", "statement": "With refcounted tracking the number of values alive is the number of inequivalent keys of the flyweights alive, and with no_tracking that of the inequivalent keys from which flyweights have ever been created or assigned, however many flyweights there are and whatever has thrown in between. In particular the performance example, for any text with at least one token, computes with flyweights the same number as with plain strings, and when it measures the memory there is one value for each different token of the text, unless an operation of the user throws.", "quantifier": "all programs, states, keys, texts, numbers of passes, factories, tracking policies, patterns of exceptions", "why_tests_cant": "The example prints its measurements and compares them with nothing; tests count values for a few lists.", "anchors": ["example/perf.cpp: test<String>::run", "include/boost/flyweight/refcounted.hpp", "include/boost/flyweight/no_tracking.hpp", "include/boost/flyweight/detail/flyweight_core.hpp: insert"]}
{"id": "C67", "title": "Saving and loading does no harm to a program", "statement": "At any point of any program, saving any of its flyweights writes each different key once, and afterwards all flyweights refer to what they referred to, with as many values alive as before. Loading from any archive, also one that is damaged or from another program with other policies, leaves the program's flyweights and, with refcounted tracking and once the loaded elements are destroyed, the number of values as they were; it never runs into undefined behaviour; it fails only if the archive is not one that was saved or an operation of the user throws; and otherwise the elements have keys equivalent to those saved and share values with each other and with the program's flyweights exactly if the keys are equivalent. Hence the serialization test, for any flyweights of any program, finds the loaded ones equal to the saved ones.", "quantifier": "all programs, states, flyweights, archives, factories, tracking policies, patterns of exceptions (of the archive, allocation and the user's types)", "why_tests_cant": "The tests save and load fixed vectors in a fresh process, with intact archives and without exceptions.", "anchors": ["include/boost/flyweight/serialize.hpp: save, load", "include/boost/flyweight/detail/serialization_helper.hpp: save_helper, load_helper", "test/test_serialization_template.hpp: test_serialization_template"]}
{"id": "C68", "title": "Initialization that fails can be repeated", "statement": "If the factory or the mutex of a flyweight type cannot be constructed at its first use, the exception reaches the caller and nothing is left behind: no factory, no mutex, no pointer set. A later call tries again, and succeeds if nothing throws. This holds for any number of threads that use the type at once: at any time there are at most one factory and one mutex, no thread uses one that does not exist, init() returns true or throws (and throws only if a constructor has thrown), once the pointers are set no other factory is ever constructed, no thread waits forever, and a call takes a bounded number of steps.", "quantifier": "all numbers of threads, schedules, patterns of exceptions", "why_tests_cant": "No factory or mutex of the tests throws from its constructor; test_init checks that two factories have been constructed.", "anchors": ["include/boost/flyweight/detail/flyweight_core.hpp: init, holder_arg, insert_rep", "include/boost/flyweight/static_holder.hpp: static_holder_class::get"]}
{"id": "C69", "title": "Flyweights with concurrent_factory in a program of one thread, when user code throws", "statement": "A program of one thread that uses concurrent_factory, with any value policy and tracking policy, whatever the user's operations throw and whenever the garbage collector acts, never runs into undefined behaviour. Its flyweights behave as interned values that linger: equal exactly if their keys are equivalent, unaffected by the collector, and by creations and assignments of others. A creation or assignment that succeeds gives a key equivalent to the one asked for, and the value asked for if equivalent keys have equal values. One that throws leaves all flyweights and the number of values as they were; at most one key remains of any number of failures in a row with equivalent keys; if one remains, the next flyweight created from an equivalent key gets that key and its value. After a pass of the collector there is exactly one value for each different key in use, and nothing else; without flyweights, nothing.", "quantifier": "all programs, value policies, tracking policies, patterns of exceptions, and times at which the collector acts", "why_tests_cant": "test_concurrent_factory runs a fixed template without exceptions, and the collector acts once a second, that is, hardly ever during the test.", "anchors": ["include/boost/flyweight/concurrent_factory.hpp: insert, erase, entry, garbage collector", "include/boost/flyweight/detail/flyweight_core.hpp: insert_rep, insert_value, key_construct_value", "include/boost/flyweight/key_value.hpp: construct_value"]}
{"id": "C70", "title": "What a program may rely on, whatever the factory", "statement": "A program of one thread uses flyweights of any number of types, each with hashed_factory, set_factory, a lawful factory of the user or concurrent_factory with its garbage collector at work, and may decide by all outcomes, addresses and hashes included, how to go on. It never runs into undefined behaviour. A creation or assignment from arguments gives a flyweight whose key is equivalent to the one asked for, made from arguments that some creation may have been given; its address is that of exactly those flyweights of the type whose keys are equivalent, with the same key and value. Copies, moves, assignments and swaps pass on address, key and value. Two flyweights are equal exactly if their keys are equivalent. Only creations, assignments from arguments and the program's own code throw, only if operations of the user may, and then no variable changes. Types do not affect each other. Consequently, if keys are compared by equality and determine the values, a program that does not look at addresses and hashes does with flyweights what it does with plain values, and gives the same result with all choices of factories, tracking policies and allocators, and whatever the garbage collector does.", "quantifier": "all interactive programs over any family of flyweight types, factories, policies, patterns of exceptions, allocators, times at which the collector acts, and states to start from", "why_tests_cant": "The tests use one factory per test program, with fixed sequences of operations and nearly no exceptions; that factories are interchangeable is a statement about all programs.", "anchors": ["include/boost/flyweight/flyweight.hpp: class flyweight", "include/boost/flyweight/detail/flyweight_core.hpp: flyweight_core", "include/boost/flyweight/concurrent_factory.hpp", "include/boost/flyweight/hashed_factory.hpp", "include/boost/flyweight/set_factory.hpp"]}
{"id": "C71", "title": "The whole basic test succeeds with any factories, also concurrent_factory and also mixed", "statement": "The function test_basic_template, which every test program of the library runs with its configuration, succeeds for any sequences of elements when each of its six flyweight types has any factory (hashed_factory, set_factory, a lawful factory of the user, or concurrent_factory with its collector at work), any tracking policy, and from any state of a program that has used these types before. This includes the comparison of flyweights of two different types by all six operators, with each other and with values on either side, and the part with values whose constructors throw. The types are int, string and char, a key-value type with key extractor and one without, with keys compared by equality. The test ends with all checks successful or with an exception thrown by an operation of the user; in both cases all flyweights that existed before have the same addresses, keys and values.", "quantifier": "all sequences of elements, choices of a factory and tracking policy for each type, collector schedules, patterns of exceptions, programs run before", "why_tests_cant": "Each test program uses one configuration for all six types, fixed sequences, an empty program and no exceptions but two; and the collector acts only if a second passes.", "anchors": ["test/test_basic_template.hpp: test_basic_template, test_basic_with_assign_template, test_basic_comparison_template", "test/test_concurrent_factory.cpp", "test/heavy_objects.hpp: throwing_value", "include/boost/flyweight/flyweight.hpp", "include/boost/flyweight/concurrent_factory.hpp"]}
{"id": "C72", "title": "Serialization works with any factories, also concurrent_factory, and with several types in one archive", "statement": "A program that saves flyweights of several types to one archive, interleaved with anything else it does, and each type with any factory (concurrent_factory with its collector at work included), does nothing it could not do if it merely noted the keys at those moments: same outcomes, same flyweights afterwards. The archive stands for exactly those keys and contains no two equivalent keys of one type. A program that loads from any archive, damaged ones included, interleaved with anything else, does nothing it could not do if it assigned to the flyweights from the keys in the archive: it throws where the archive is not one that was saved, never runs into undefined behaviour, and leaves its other flyweights alone. Hence what one program saves another loads with other factories, tracking policies, value types and notions of equivalence as if it had been given the keys, and the serialization test succeeds for any sequence of elements of any types, and any flyweights of any program.", "quantifier": "all programs with open archives, archives, choices of a factory and tracking policy for each type, collector schedules, patterns of exceptions, programs run before", "why_tests_cant": "The test saves a vector of one type at a time, at once, in intact archives, without exceptions, and loads it with the same configuration; programs do other things while an archive is open, such as destroying what was saved.", "anchors": ["include/boost/flyweight/serialize.hpp: save, load", "include/boost/flyweight/detail/serialization_helper.hpp: save_helper, load_helper", "include/boost/flyweight/detail/archive_constructed.hpp", "test/test_serialization_template.hpp: test_serialization_template", "test/test_concurrent_factory.cpp"]}
{"id": "C73", "title": "Braced lists", "statement": "A flyweight is initialized by a braced list, as f{a,b}, f={a,b} or f({a,b}), or assigned one, f={a,b}. If there are elements, all of one type V, and initializer_list<V> converts to the key type, then in all these forms the key is constructed from that initializer_list. Empty braces are default construction. Any other elements of f{a,b} are the arguments, as in f(a,b); with = or in parentheses the program is rejected, except for a single flyweight, which is copied, and an initializer_list object. A braced list among several arguments is rejected. Assignment of one flyweight or value in braces is assignment of that; of a braced list that converts to the value type without a constructor, such as a number, moves that value; of one for which the value type has a constructor is rejected as ambiguous; and of one that does not convert to the value type is rejected, except for {}.", "quantifier": "every number of elements, all types, constnesses and value categories, every relation of inheritance and conversion between the types, all value policies", "why_tests_cant": "Which function a braced list selects depends on the relations among arbitrary user types, and most of the statement is about programs that do not compile; the test uses one class with seven initializations.", "anchors": ["include/boost/flyweight/flyweight.hpp: constructors, assignment", "include/boost/flyweight/detail/flyweight_core.hpp: insert", "test/test_multictor.cpp: initctor", "doc/reference/flyweight.html: Constructors, copy and assignment"]}
{"id": "C74", "title": "Reference counting of flyweights whose constructors use flyweights of the same type", "statement": "With refcounted tracking and a key-value flyweight whose value constructor creates temporary flyweights of the same type, any program that constructs, copies, destroys and reads such flyweights behaves as if a flyweight were its key: reads give the value meant for the key and only a construction can throw. Whatever was thrown at any level, afterwards the lock is free, flyweights share a value exactly if their keys are equal, and exactly one value exists for each key held by the program: values that only constructors used have been destroyed.", "quantifier": "every constructor program asking for smaller keys, every sequence of constructions, copies, destructions and reads, every pattern of exceptions, every factory", "why_tests_cant": "Counts rise and fall to zero inside constructors running under the lock, at any nesting depth and with an exception at any point; the tests have no such constructor and the example uses no_tracking.", "anchors": ["include/boost/flyweight/refcounted.hpp: refcounted_handle", "include/boost/flyweight/detail/flyweight_core.hpp: insert_and_visit, erase", "include/boost/flyweight/key_value.hpp: key_construct_value", "example/fibonacci.cpp"]}
{"id": "C75", "title": "Functions declared noexcept; get_key() when the key extractor throws", "statement": "get_key() is noexcept exactly if the flyweight is not key-value, has no key extractor, or has one that is noexcept, as documented. If a key extractor throws, get_key() passes the exception on and everything is as if it had not been called. The other functions declared noexcept (copying, moving, assigning from a flyweight, swap, get(), == of the same type, hashing) never throw, so that no exception of the user ever terminates the program. (Violated: with refcounted get_key() is never noexcept, with no_tracking it always is, and an exception of the key extractor then calls std::terminate.)", "quantifier": "every kind of flyweight, factory and tracking policy, every program, every pattern of exceptions", "why_tests_cant": "The tests have no key extractor that throws and do not look at exception specifications; that nothing declared noexcept throws concerns every state and every exception pattern.", "anchors": ["include/boost/flyweight/flyweight.hpp: get_key and the functions declared BOOST_NOEXCEPT", "include/boost/flyweight/detail/flyweight_core.hpp: key", "include/boost/flyweight/key_value.hpp: variant_key_value::rep_type::operator const key_type&", "include/boost/flyweight/refcounted.hpp: refcounted_value::operator const Value&", "doc/reference/flyweight.html: get_key"]}
{"id": "C76", "title": "Tracking policies of the user's own", "statement": "The documentation lets users write tracking policies whose handles are told when flyweights are made, copied, assigned, swapped and destroyed and may ask to have values erased. If such a policy erases only values that are stored and that no flyweight has, then every program is executed without undefined behaviour; flyweights compare equal exactly if the keys they were last given are equivalent; what a flyweight refers to does not change unless the flyweight is assigned, swapped or destroyed; whatever the policy erases is destroyed, and the values alive are those of flyweights and those that the policy has left; the policy is told of exactly the handles that exist. A policy that leaves no value without flyweights is indistinguishable from refcounted; refcounted and no_tracking themselves are such policies. The helper's erase calls the check and removes the value if and only if the check says so, with the lock released afterwards.", "quantifier": "every policy given by arbitrary code over arbitrary data, every value policy and factory of the library, every program, every pattern of exceptions", "why_tests_cant": "The tests only use the library's own policies; the claim is about all policies that users could write and all programs.", "anchors": ["doc/reference/tracking.html: Tracking policies", "include/boost/flyweight/detail/flyweight_core.hpp: flyweight_core_tracking_helper, insert, insert_and_visit", "include/boost/flyweight/flyweight.hpp: constructors, assignment, swap", "include/boost/flyweight/refcounted.hpp", "include/boost/flyweight/no_tracking.hpp"]}
{"id": "C77", "title": "Termination by std::exit with flyweights alive", "statement": "A program may call std::exit at any point outside the library, whatever flyweights exist then; those of automatic or dynamic storage duration are never destroyed. If static objects containing flyweights are destroyed before the factories of these flyweights, and each factory before the factories of the flyweights inside its values, then termination has no undefined behaviour and every value still stored is destroyed exactly once, in whatever order the factories destroy their values. In particular, this holds without any condition if no value contains flyweights and none are in static objects. The condition is needed: a value kept by a remaining flyweight must not be destroyed after one it contains, nor a static object after the factory of a flyweight in it. Values that contain flyweights of their own type are not covered: for these termination is defined exactly if each value is destroyed before the ones it contains and each contained one is also referred to by a remaining flyweight, so it never is if some contained value is referred to by nothing else.", "quantifier": "every program of any number of threads with any number of refcounted flyweight types and values nested to any depth, every point at which no thread is inside the library, every set of flyweights left, every order of the static objects and of the values in each container", "why_tests_cant": "The tests never terminate with flyweights alive; the outcome depends on the unspecified order of values in hash tables and the claim is about all programs and orders.", "anchors": ["include/boost/flyweight/refcounted.hpp: comment on std::exit, refcounted_handle destructor", "include/boost/flyweight/detail/flyweight_core.hpp: holder_arg, flyweight_core_tracking_helper::erase", "include/boost/flyweight/static_holder.hpp", "doc/release_notes.html: Boost 1.45"]}
{"id": "C78", "title": "Termination with concurrent_factory", "statement": "With concurrent_factory, values that no flyweight refers to stay stored until the collector thread comes by, so that factories are in general not empty when the program ends, even if all flyweights have been destroyed. Whatever values and flyweights are left, termination should have no undefined behaviour and destroy every value still stored exactly once, in whatever order the factories destroy their values and whatever the collectors of the factories not yet destroyed do meanwhile, if static objects containing flyweights are destroyed before the factories of these flyweights and each factory before those of the flyweights inside its values. A value that contains a flyweight must not be destroyed after the value of this one. Likewise, a flyweight outside values must not be destroyed, or its destruction completed, after the factory of its type. For values that contain flyweights of their own type, termination is defined exactly if each value is destroyed before the ones it contains and, with refcounted and simple_locking, each contained one is also referred to by a flyweight that is left.", "quantifier": "every program of any number of threads and flyweight types, all four combinations of refcounted or no_tracking with simple_locking or no_locking, every point at which no thread is creating a flyweight (user threads may be in the middle of destroying one, collectors in the middle of a pass or of erasing a value, and complete what they have begun at any later time; for recursive values no destruction is in progress), every set of values not yet collected and of flyweights left, every order of static objects and of values in the containers, every interleaving with the collectors' removals", "why_tests_cant": "Whether anything is left to destroy depends on the timing of the collector, and the outcome on the unspecified order of a hash table; the tests only terminate after destroying all flyweights of types whose values contain none.", "anchors": ["include/boost/flyweight/concurrent_factory.hpp: concurrent_factory_class_impl destructor and members, refcounted_entry, refcounted_handle destructor", "include/boost/flyweight/refcounted.hpp: refcounted_handle destructor", "include/boost/flyweight/detail/flyweight_core.hpp: holder_arg, flyweight_core_tracking_helper::erase", "include/boost/flyweight/static_holder.hpp"]}
{"id": "C79", "title": "concurrent_factory needs no external locking", "statement": "With concurrent_factory and no_locking, whatever the tracking policy, whatever any number of threads do while the collectors run is free of undefined behaviour: flyweights of the same type are the same exactly if their keys are equivalent, no flyweight refers to a value that has been destroyed, the reference counts are exact, and there is no data race on keys, values or counters. (Violated for refcounted, which is the default tracking policy: when one thread destroys the last flyweight of a value while another one creates a flyweight of an equivalent key, both change the plain deleter count kept next to the value, and neither change happens before the other. This is the only data race, and everything else holds.)", "quantifier": "every number of threads and collectors, every interleaving, every number of flyweight types, every program, all four combinations of refcounted or no_tracking with simple_locking or no_locking, all memory orders of the operations on the counts for the violation", "why_tests_cant": "The tests use concurrent_factory from a single thread and with the default policies; the race needs two threads within a few instructions of each other, and its effect on the count is never looked at.", "anchors": ["doc/reference/factories.html: concurrent_factory_class", "include/boost/flyweight/concurrent_factory.hpp: concurrent_factory_class_impl", "include/boost/flyweight/refcounted.hpp: refcounted_value::add_deleter, release_deleter, refcounted_handle constructor and check_erase", "include/boost/flyweight/no_locking.hpp"]}
{"id": "C80", "title": "Tracking policies whose handles fail to be made", "statement": "The documentation lets the constructor of a tracking policy's handle from the factory's handle throw. If it does while a flyweight is created or assigned from a value, there is no undefined behaviour, no flyweight changes, the lock is released and the program can go on. The value is not removed, however: if it was new, it stays in the factory with no flyweight referring to it, one more value is alive, and the next creation from an equivalent key finds it. Unless the policy has the value erased itself before it throws: if the policy leaves no value without flyweights, the number of values alive is as before.", "quantifier": "every policy given by arbitrary code over arbitrary data and throwing whenever it likes, every value policy and factory of the library, every reachable state, every program", "why_tests_cant": "The tests only use the library's own policies, whose handles never fail to be made; the claim is about all policies that users could write, in all states.", "anchors": ["doc/reference/tracking.html: Tracking policies, nothrow guarantee for copy and assignment", "include/boost/flyweight/detail/flyweight_core.hpp: insert_rep, insert_value, insert_and_visit"]}
{"id": "C81", "title": "Recursive locking: for which types it is needed", "statement": "The documentation requires the mutex of a locking policy to support recursive locking. If values of no type contain flyweights of the same type, directly or through other types, and their construction does not use such flyweights either, a thread never locks a mutex that it holds: with a mutex that does not support recursive locking exactly the same happens, nothing is undefined and there are no deadlocks. Otherwise the requirement matters: for every cycle of types there is a program that locks a mutex in the thread that holds it. A value that contains a flyweight of its own type does so when it is destroyed, although no constructor uses the library. Without tracking only what constructors create matters, not what values contain.", "quantifier": "every number of threads and of flyweight types, every relation between types, every interleaving and every program respecting it", "why_tests_cant": "The tests only use the library's recursive mutex, with which locking again cannot be noticed, and finitely many types.", "anchors": ["doc/reference/locking.html: Preliminary concepts, Locking policies", "include/boost/flyweight/detail/flyweight_core.hpp: insert_rep, insert_value, flyweight_core_tracking_helper::erase", "include/boost/flyweight/detail/recursive_lw_mutex.hpp"]}
