{"id": "C01", "title": "interval_map lookup equals last covering assignment", "statement": "After any sequence of assign(b,e,v) calls on an interval_map built with a default value, m[k] is the value of the last call with b<=k<e, or the default if there is none; calls with !(b<e) change nothing.", "quantifier": "every key type with a strict linear order and a least key, every value type with equality, every default, every finite list of assign calls, every key", "why_tests_cant": "assign merges, splits and erases nodes depending on the whole previous history; the combinations of key/value coincidences are unbounded", "anchors": ["include/yato/interval_map.h: interval_map::assign, interval_map::operator[], interval_map::_init_whole_range"]}
{"id": "C02", "title": "interval_map keeps a minimal partition", "statement": "After any sequence of assign calls no two adjacent stored intervals carry equal values and the first interval starts at the lowest key, so memory use is the number of maximal constant runs of the mapped function.", "quantifier": "every finite list of assign calls", "why_tests_cant": "redundant nodes never change a lookup result, so example tests on lookups cannot see them; growth only shows over long histories", "anchors": ["include/yato/interval_map.h: interval_map::assign"]}
{"id": "C03", "title": "tokenizing equals splitting at separators", "statement": "Iterating a token_iterator over a sequence terminates and yields exactly the maximal separator-free runs between separators, in order: all of them except an empty last one when skip_empty is false, and exactly the non-empty ones when skip_empty is true; the cursor never leaves [first,last].", "quantifier": "every input sequence, every separator predicate, both values of skip_empty", "why_tests_cant": "edge cases are leading, trailing and repeated separators in any combination and length", "anchors": ["include/yato/token_iterator.h: token_iterator, move_iterator_, init_token_, next_token_, has_next, next", "include/yato/token_iterator.h: tokenize"]}
{"id": "C04", "title": "tokens reassemble the input", "statement": "With skip_empty=false, joining the tokens with the separator reproduces the input up to one trailing separator; with skip_empty=true concatenating the tokens reproduces the input with all separators removed.", "quantifier": "every input sequence and separator", "why_tests_cant": "a lost or duplicated token only shows for particular separator layouts", "anchors": ["include/yato/token_iterator.h: token_iterator"]}
{"id": "C05", "title": "config path names and root test", "statement": "conf::path::is_root() holds exactly when tokenizing the path yields no name; repeated, leading and trailing separators do not change the list of names.", "quantifier": "every path string and every separator character", "why_tests_cant": "the two implementations (all_of and tokenizer) must agree on every string", "anchors": ["modules/config/yato/config/path.h: basic_path::is_root, basic_path::tokenize"]}
{"id": "C06", "title": "aligned allocation is aligned, in bounds and does not overlap its header", "statement": "For every requested alignment, and every element count and size whose total block size is representable in size_t, the pointer returned by the aligning allocator is a multiple of the alignment, the n*sizeof(T) bytes behind it lie inside the block obtained from operator new, and the stored offset lies inside the block, is itself aligned, and does not overlap the user bytes.", "quantifier": "every alignment >= 1, every element size and count, every address operator new may return, every offset integer type the code may select", "why_tests_cant": "depends on the raw address returned by the system; tests see only the addresses one allocator happens to return", "anchors": ["include/yato/aligning_allocator.h: aligning_allocator::allocate, allocate_aligned, get_offset_ptr, ceil_address, select_offset_type"]}
{"id": "C07", "title": "aligned deallocation returns the block obtained from operator new", "statement": "deallocate called with a pointer returned by allocate passes to operator delete exactly the pointer operator new returned, provided user code wrote only inside its own n*sizeof(T) bytes.", "quantifier": "every alignment, raw address, size, and every content the user writes into the allocated elements", "why_tests_cant": "a truncated or overwritten offset frees a wrong address only for certain raw addresses", "anchors": ["include/yato/aligning_allocator.h: deallocate_aligned, allocate_aligned, offset_type"]}
{"id": "C08", "title": "filtered ranges contain exactly the matching elements in order", "statement": "Iterating a filtered range yields exactly the elements satisfying the predicate in their original order; stepping back from any position that has an earlier match returns to it; dereferencing never reads outside the underlying range.", "quantifier": "every finite sequence and predicate, every position", "why_tests_cant": "boundary cases: no match, match only at ends, all match", "anchors": ["include/yato/filter_iterator.h: filter_iterator, _skip_forward, _skip_backward, operator++, operator--", "include/yato/range.h: range::filter"]}
{"id": "C09", "title": "zip, map and folds over ranges agree with the list functions", "statement": "Iterating zip(r1,r2) yields the element pairs by position and stops at the end; map applies the function to each element once in order; fold_left and fold_right accumulate from the left and from the right.", "quantifier": "every pair of ranges and every function; for zip including ranges of different lengths", "why_tests_cant": "ranges of different length are the untested case", "anchors": ["include/yato/zip_iterator.h: zip_iterator::operator!=, operator==", "include/yato/range.h: zip, map, fold_left, fold_right", "include/yato/transform_iterator.h"]}
{"id": "C10", "title": "numeric ranges enumerate each value once and support iterator arithmetic", "statement": "numeric_range(a,b) enumerates a,a+1,...,b-1 (b-1 ... reversed) and for iterators i,j over the same range i+(j-i)=j, also when j<i.", "quantifier": "every integer width and signedness, every pair of values", "why_tests_cant": "wrap-around only shows at particular widths and orders of operands", "anchors": ["include/yato/numeric_iterator.h: operator++, operator+=, operator-", "include/yato/range.h: numeric_range"]}
{"id": "C11", "title": "iterator distance over sub-arrays is the number of steps", "statement": "For iterators over the first dimension of an N-d container, (it + n) - it == n for every n for which both positions are in the range, including negative n.", "quantifier": "every stride, every position, every step count of either sign", "why_tests_cant": "negative distances with a row size above one byte-unit are never exercised by forward loops", "anchors": ["include/yato/iterator_nd.h: iterator_nd::operator-, operator+=, operator++"]}
{"id": "C12", "title": "multi-index addressing is a bijection onto the plain storage", "statement": "In array_nd/vector_nd, indexing with in-range indices maps distinct multi-indices to distinct elements inside the storage, every stored element is reached by exactly one multi-index, and plain iteration visits elements in lexicographic order of their multi-index.", "quantifier": "every number of dimensions, every extent list, every multi-index", "why_tests_cant": "number of dimensions and extents are unbounded", "anchors": ["include/yato/array_nd.h: sub_array::operator[], plain_array_shape", "include/yato/vector_nd.h: vector_nd_impl::operator[]", "include/yato/container_base.h: dimensionality::total_size"]}
{"id": "C13", "title": "checked access throws exactly on out-of-range indices", "statement": "at(i1,...,iN) throws out_of_range_error iff some index is not below its extent, otherwise it returns the same element as operator[].", "quantifier": "every dimension count, extents and index tuple", "why_tests_cant": "any subset of the indices may be out of range", "anchors": ["include/yato/array_nd.h: sub_array::at", "include/yato/vector_nd.h: vector_nd_impl::at"]}
{"id": "C14", "title": "strided views address distinct in-buffer elements", "statement": "In an array_view built from extents and strides not smaller than the extents, every in-range multi-index designates sizeof(T) bytes inside the buffer given by the outermost stride, and distinct multi-indices designate non-overlapping bytes; the view of sub-index equals the sub-view.", "quantifier": "every number of dimensions, extents, strides and element size", "why_tests_cant": "extents and strides combine freely; overlap only shows for particular index pairs", "anchors": ["include/yato/array_view.h: array_view_base (element and byte strides constructors), get_sub_view_"]}
{"id": "C15", "title": "continuous() is sound", "statement": "If continuous() answers true for a non-empty view with non-overlapping rows, then plain iteration from plain_begin to plain_end visits exactly the elements designated by the in-range multi-indices, in lexicographic order.", "quantifier": "every number of dimensions, extents and strides", "why_tests_cant": "only the outermost stride is inspected by the code; inner strides vary freely", "anchors": ["include/yato/array_proxy.h: proxy_nd::continuous, plain_begin, plain_end", "include/yato/array_view.h: is_continuous_"]}
{"id": "C16", "title": "samplers treat out-of-range indices as documented", "statement": "Reading through the default sampler throws for any out-of-range index and otherwise reads the designated element; the zero sampler yields zero outside; the clamp sampler yields the nearest element; no sampler reads outside the container.", "quantifier": "every dimension count, extents, index values of any sign and magnitude", "why_tests_cant": "index conversions to a narrower type only matter for huge indices", "anchors": ["include/yato/container_nd.h: sampler_traits, sampler_default, sampler_zero, sampler_clamp, load, at"]}
{"id": "C17", "title": "lookup_table nearest-sample query", "statement": "For an argument x between first and last, the nearest-neighbour query of a lookup_table with N samples returns the sample whose argument is closest to x and never reads outside the table.", "quantifier": "every integer first<last, every N>=2, every x in [first,last]", "why_tests_cant": "the rounding formula is only exercised for a few tables", "anchors": ["include/yato/lookup_table.h: lookup_table_base (integral), init_base_, get_index_<1>"]}
{"id": "C18", "title": "lookup_table linear query", "statement": "For x between first and last, the linear query picks two neighbouring samples inside the table whose arguments enclose x and weights between 0 and 1024 that sum to 1024; at a sample argument it returns that sample.", "quantifier": "every integer first<last, every N>=2, every x in [first,last]", "why_tests_cant": "boundary x=last and non-dividing steps", "anchors": ["include/yato/lookup_table.h: get_index_<2>, interpolators"]}
{"id": "C19", "title": "vector_nd behaves like a list of rows", "statement": "Any sequence of push_back, insert, erase, pop_back, resize, assign, clear, reserve and shrink_to_fit on a vector_nd produces the same contents, sizes and exceptions as the same operations on a list of equally shaped rows; capacity is never below size.", "quantifier": "every operation sequence, row shape, position and count, starting from an empty vector", "why_tests_cant": "reallocation and in-place shifting paths depend on the capacity history", "anchors": ["include/yato/vector_nd.h: raw_vector::prepare_insert, erase, resize, reserve, shrink_to_fit, prepare_push_back", "include/yato/vector_nd.h: vector_nd_impl::insert, erase, push_back"]}
{"id": "C20", "title": "vector_nd never leaks, double-destroys or reads dead elements", "statement": "Over any sequence of operations without exceptions, every element slot is constructed before it is read, never constructed twice without destruction, destroyed at most once per construction, and after the destructor no element is alive and no block remains allocated.", "quantifier": "every operation sequence, position, count and capacity history", "why_tests_cant": "a missed destroy is invisible to value-based tests", "anchors": ["include/yato/vector_nd.h: raw_vector", "include/yato/memory_utility.h: transfer_left, transfer_right, fill_uninitialized, copy_to_uninitialized, destroy"]}
{"id": "C21", "title": "vector_nd stays consistent when an element copy throws", "statement": "If copying an element throws at any point during insert, push_back, assign, resize or erase, the exception propagates and the vector is left with exactly its size() elements alive and all other slots dead, so it can be destroyed or reused; for insert and push_back the elements before the insertion position keep their values.", "quantifier": "every operation, every throw point (k-th element construction or the allocation itself), every size and capacity", "why_tests_cant": "throw points are numerous and each needs a dedicated failing type", "anchors": ["include/yato/vector_nd.h: raw_vector::prepare_insert, erase, assign, resize", "include/yato/memory_utility.h"]}
{"id": "C22", "title": "push_back and insert of an own element", "statement": "push_back(v[i]) on the one-dimensional vector appends a copy of the element's current value, as with std::vector.", "quantifier": "every size, capacity and index", "why_tests_cant": "whether the argument dangles depends on capacity at the call", "anchors": ["include/yato/vector_nd.h: vector_nd_impl<1>::push_back, raw_vector::prepare_push_back"]}
{"id": "C23", "title": "push_back is amortised constant", "statement": "The total number of element copies caused by n consecutive push_back calls is at most linear in n and capacity is at most doubled per growth.", "quantifier": "every n and every initial capacity", "why_tests_cant": "asymptotic claims cannot be tested", "anchors": ["include/yato/vector_nd.h: capacity policy, raw_vector::prepare_push_back"]}
{"id": "C25", "title": "vector_view insert and erase", "statement": "Inserting k elements at a position of a vector_view with enough room shifts the tail right by k and keeps all other elements; erasing k elements shifts the tail left; memory outside the buffer is never written.", "quantifier": "every content, position and count", "why_tests_cant": "overlap of source and destination depends on lengths", "anchors": ["include/yato/vector_view.h: _prepare_insert, _erase_n, insert, erase"]}
{"id": "C26", "title": "dynamic_array owns its elements exactly once", "statement": "Over any sequence of constructions, copy/move assignments, assigns and resizes every constructed element is destroyed exactly once and every allocated block is freed exactly once.", "quantifier": "every operation sequence and size", "why_tests_cant": "leaks and double frees do not change observed values", "anchors": ["include/yato/dynamic_array.h: dynamic_array::operator=, assign, resize, _destroy, _move_assign"]}
{"id": "C27", "title": "optional behaves like a value-or-nothing", "statement": "get/get_or/get_or_throw/map/filter/emplace/reset/copy/move/swap on optional<T> behave as on an option type and the contained object is constructed and destroyed exactly once per engagement.", "quantifier": "every sequence of operations over several optionals, every throwing point of emplace", "why_tests_cant": "aliasing of engaged/empty combinations and throwing constructors", "anchors": ["include/yato/optional.h: optional, emplace, reset, swap, get, get_or, map, filter, copy_assign_, move_assign_"]}
{"id": "C28", "title": "variant holds exactly one live alternative of its reported type", "statement": "After any sequence of construct, copy, move, assign, emplace and get the variant holds one live value whose type is the reported one, get of another type throws, and every constructed value is destroyed exactly once.", "quantifier": "every operation sequence over several variants including moved-from ones and throwing constructors", "why_tests_cant": "moved-from and valueless states are reached only through histories", "anchors": ["include/yato/variant.h: variant, emplace, get, move_construct_, move_assign_, variant_cast"]}
{"id": "C29", "title": "any stores and returns exactly what was put in", "statement": "get<T> of an any returns the stored value iff the stored type is T and throws otherwise; copying an any yields an any holding an equal value of the same type; moving empties the source.", "quantifier": "every sequence of operations, every type tag, const and non-const sources", "why_tests_cant": "overload resolution between copy and converting constructors depends on the value category of the source", "anchors": ["include/yato/any.h: any::any(ValueType_&&), any::any(const any&), operator=, get, emplace, swap"]}
{"id": "C30", "title": "match runs the first case of the stored type", "statement": "any_match/variant_match invoke exactly one handler: the first listed one whose parameter type is the stored type, else the default handler, else throw bad_match_error; an empty value goes to the empty handler.", "quantifier": "every list of cases and every stored type", "why_tests_cant": "case lists are open-ended", "anchors": ["include/yato/any_match.h", "include/yato/variant_match.h", "include/yato/case_dispatcher.h"]}
{"id": "C31", "title": "narrow_cast detects every lossy conversion", "statement": "In checked builds narrow_cast fails exactly when the value is not representable in the target integer type, and otherwise returns the same mathematical value.", "quantifier": "every source and target width and signedness, every value", "why_tests_cant": "2^64 values and all type pairs", "anchors": ["include/yato/types.h: narrow_cast"]}
{"id": "C32", "title": "finally runs its action exactly once", "statement": "The action of a finally guard runs exactly once, when the last owner is destroyed, whatever moves happened in between.", "quantifier": "every sequence of moves, move-assignments and destructions of guards", "why_tests_cant": "moved-from guards moved again are not tested", "anchors": ["include/yato/finally.h: finally"]}
{"id": "C33", "title": "attribute maps behave like a finite map", "statement": "attributes_map set/get/has/clear behave as a finite map from names to typed values; get of a missing or differently typed attribute fails; an attribute rejected by the validator is not stored.", "quantifier": "every operation sequence and validator", "why_tests_cant": "histories of set/clear/overwrite are unbounded", "anchors": ["include/yato/attributes_interface.h: attributes_map, set_attribute, get_attribute, clear_attribute, is_valide_attribute"]}
{"id": "C34", "title": "atomic attributes keep their registered type", "statement": "A registered atomic attribute can be set and read any number of times with its registered type, before and after clear; registering the same key again changes nothing and returns false.", "quantifier": "every sequence of register, set, get and clear operations", "why_tests_cant": "misuse combinations of register/clear/set are history dependent", "anchors": ["include/yato/atomic_attributes.h: atomic_attributes::register_attribute, set_attribute, clear_attribute"]}
{"id": "C35", "title": "compile-time list algorithms", "statement": "meta::list_sort returns an ordered permutation of its input, list_unique removes duplicates keeping first occurrences, list_find returns the first position, and reverse/cat/split/at obey the usual list laws.", "quantifier": "every type list and every ordering", "why_tests_cant": "lists of every length and order", "anchors": ["include/yato/meta.h: list_sort, list_merge, list_unique, list_find, list_reverse, list_split"]}
{"id": "C36", "title": "actor paths parse back to what they were built from", "statement": "Parsing an actor_path built from a valid system name, a scope and a slash-separated actor name yields the same system name, scope and the list of non-empty names; parsing never reads past the end of the string.", "quantifier": "every system name, scope and actor name accepted by the constructor, every raw path string", "why_tests_cant": "strings are unbounded; short and slash-heavy strings are boundary cases", "anchors": ["modules/actors/yato/actors/private/actor_path.cpp: actor_path::actor_path, parce", "modules/actors/yato/actors/actor_path.h: get_name, join"]}
{"id": "C37", "title": "mailbox delivery order", "statement": "Messages of each kind are handed to the actor in the order they were enqueued, system messages before user messages, no message is duplicated or lost while the mailbox is open, and no user message is handed out before the actor has started.", "quantifier": "every interleaving of enqueue operations by any number of senders with the executor's pops", "why_tests_cant": "thread schedules cannot be enumerated by tests", "anchors": ["modules/actors/yato/actors/private/mailbox.cpp: enqueue_user_message, enqueue_system_message, try_pop_prioritized_message_, pop_prioritized_message"]}
{"id": "C38", "title": "an actor is never run by two threads at once", "statement": "At any time at most one executor task is queued or running for a mailbox that has not been closed, so an actor processes one message at a time.", "quantifier": "every number of senders and workers, every interleaving", "why_tests_cant": "races appear only under particular schedules", "anchors": ["modules/actors/yato/actors/private/mailbox.cpp: schedule_for_execution", "modules/actors/yato/actors/private/dynamic_executor.cpp: mailbox_function"]}
{"id": "C39", "title": "no message is forgotten", "statement": "Whenever an open mailbox holds a message the actor may process, a task for it is queued or running or some sender is about to schedule it; so when all threads are idle the mailbox has nothing left to process.", "quantifier": "every number of senders and workers, every interleaving, every throughput", "why_tests_cant": "lost wake-ups are schedule dependent", "anchors": ["modules/actors/yato/actors/private/mailbox.cpp: schedule_for_execution, enqueue_user_message", "modules/actors/yato/actors/private/dynamic_executor.cpp"]}
{"id": "C40", "title": "a stopped actor is never touched again", "statement": "After an actor has been stopped and destroyed, no thread dereferences its cell or processes further messages of its mailbox.", "quantifier": "every interleaving of senders with the stopping executor task", "why_tests_cant": "needs a sender suspended between enqueue and schedule while the actor stops", "anchors": ["modules/actors/yato/actors/private/mailbox.cpp: schedule_for_execution, close", "modules/actors/yato/actors/private/actor_system.cpp: send_user_impl_"]}
{"id": "C41", "title": "thread pool runs every accepted task once, in order", "statement": "Every task accepted by the thread pool before its destruction is started exactly once, tasks start in the order accepted, and destruction returns only when all have run.", "quantifier": "every number of workers and tasks, every interleaving", "why_tests_cant": "schedules", "anchors": ["modules/actors/yato/actors/private/thread_pool.h: thread_pool"]}
{"id": "C42", "title": "scheduler order", "statement": "Scheduled tasks never run before their due time, run in due-time order among those pending, tasks with equal due time run in the order they were enqueued, and each task runs at most once.", "quantifier": "every set of tasks, due times and arrival orders", "why_tests_cant": "timing dependent", "anchors": ["modules/actors/yato/actors/private/scheduler.h: scheduler::enqueue, thread_function"]}
{"id": "C43", "title": "actor lifecycle order", "statement": "pre_start runs once before any user message, no user message is processed after post_stop, and post_stop runs at most once and only if pre_start succeeded.", "quantifier": "every sequence of system and user messages, including failing pre_start", "why_tests_cant": "any message order may occur", "anchors": ["modules/actors/yato/actors/private/actor.cpp: receive_system_message_, stop_impl, receive_message_"]}
{"id": "C44", "title": "watchers are told of termination exactly once", "statement": "An actor registered as watcher (and not removed) receives exactly one terminated message when the watched actor stops; watching an already stopped actor sends it immediately.", "quantifier": "every order of watch, unwatch, stop and failing start", "why_tests_cant": "watch racing with stop, failing pre_start", "anchors": ["modules/actors/yato/actors/private/actor.cpp: stop_impl", "modules/actors/yato/actors/private/actor_system.cpp: watch, unwatch"]}
{"id": "C45", "title": "a parent stops only after its children", "statement": "An actor that is told to stop finishes only after all its children have been detached, and it does finish once every child has finished.", "quantifier": "every tree of actors, every message order, children whose start fails included", "why_tests_cant": "depends on failing start hooks and message races", "anchors": ["modules/actors/yato/actors/private/actor.cpp: receive_system_message_ (stop, stop_after_children, detach_child)"]}
{"id": "C46", "title": "stopping an actor removes that actor", "statement": "When an actor stops, exactly its own cell is removed from its parent; other children keep running.", "quantifier": "every list of children, including actors created with the same name", "why_tests_cant": "name collisions are not tested", "anchors": ["modules/actors/yato/actors/private/actor_cell.cpp: remove_child", "modules/actors/yato/actors/actor_ref.h: operator=="]}
{"id": "C47", "title": "generated names are unique", "statement": "next_indexed never returns the same name twice, for any mix of prefixes and callers.", "quantifier": "every sequence of prefixes, concurrent callers", "why_tests_cant": "collisions appear only for related prefixes or racing callers", "anchors": ["modules/actors/yato/actors/private/name_generator.h: next_indexed"]}
{"id": "C48", "title": "actors run on the execution context they ask for", "statement": "An actor created with properties naming an execution context runs on the context of that name and an unknown name is reported.", "quantifier": "every list of configured contexts and every name", "why_tests_cant": "tests use one context", "anchors": ["modules/actors/yato/actors/private/actor_system.cpp: find_execution_, resolve_props_, init_executors_"]}
{"id": "C49", "title": "behaviour stack", "statement": "become/unbecome act as a stack that never becomes empty: unbecome returns the behaviour pushed last and the original behaviour can never be popped.", "quantifier": "every sequence of become and unbecome calls", "why_tests_cant": "unbounded histories", "anchors": ["modules/actors/yato/actors/private/actor.cpp: become, unbecome, set_context_"]}
{"id": "C50", "title": "config lookup by path", "statement": "value(path) returns the value reached by following the path's names through nested configs, or nothing if some step is missing or is not a config; empty names are ignored.", "quantifier": "every config tree and every path string", "why_tests_cant": "trees and paths are unbounded", "anchors": ["modules/config/yato/config/config.h: config_entry::resolve_path_, config::value", "modules/config/yato/config/config_backend.h: value_as"]}
{"id": "C51", "title": "config builder is a map / multimap / array", "statement": "Objects built with put/remove behave as a finite map (last put wins, insertion order kept for ordered objects, all values kept for multi objects), arrays built with add/pop behave as a list, and key lookup, index lookup, size and keys agree with each other.", "quantifier": "every sequence of builder operations", "why_tests_cant": "unbounded histories", "anchors": ["modules/config/yato/config/private/manual_map.h", "modules/config/yato/config/private/manual_ordered_map.h", "modules/config/yato/config/private/manual_multimap.h", "modules/config/yato/config/private/manual_array.h"]}
{"id": "C52", "title": "with_value sets exactly one path", "statement": "c.with_value(p,v) has value v at path p and the same value as c at every path that is not a prefix or extension of p; c is unchanged.", "quantifier": "every config tree, path and value", "why_tests_cant": "trees and paths are unbounded", "anchors": ["modules/config/yato/config/private/manual_config_base.cpp: copy_with_path_impl_"]}
{"id": "C53", "title": "without_path removes exactly one path", "statement": "c.without_path(p) has no value at p and the same value as c at every path that does not extend p.", "quantifier": "every config tree and path", "why_tests_cant": "paths through scalars are the untested case", "anchors": ["modules/config/yato/config/private/manual_config_base.cpp: copy_without_path_impl_"]}
{"id": "C54", "title": "merge contains both configs with the given priority", "statement": "Merging two objects yields every path of either; where both define a non-object value the priority side wins; nested objects merge recursively.", "quantifier": "every pair of config trees with arbitrary key strings", "why_tests_cant": "keys containing the path separator, multi-value objects", "anchors": ["modules/config/yato/config/private/manual_config_base.cpp: merge_impl_"]}
{"id": "C55", "title": "clone and filters preserve contents", "statement": "clone() has the same value at every path as the original; with_whitelist/with_blacklist keep exactly the named / not named top-level entries; with_only_path keeps exactly the values below the path.", "quantifier": "every config tree, name list and path", "why_tests_cant": "trees are unbounded", "anchors": ["modules/config/yato/config/private/manual_config_base.cpp: copy_impl_, copy_with_filter_, copy_only_path_impl_"]}
{"id": "C56", "title": "scalar text conversion", "statement": "Decoding the text produced for an integer returns that integer; a string decodes to an integer only if it is an integer literal with optional surrounding blanks and then to its exact value; booleans decode exactly from the documented words, ignoring case and surrounding blanks.", "quantifier": "every 64-bit integer, every string", "why_tests_cant": "2^64 integers and unbounded strings", "anchors": ["modules/config/yato/config/utility.h: details::decode, serializer<integer>, serializer<boolean>::strtobool"]}
{"id": "C57", "title": "find(path) returns an iterator to the entry at(path)", "statement": "Dereferencing config::find(path) gives the same entry as config::at(path), and end() if there is none.", "quantifier": "every config tree and path", "why_tests_cant": "nested paths", "anchors": ["modules/config/yato/config/config.h: config::find, config_iterator(backend, path, size)"]}
{"id": "C58", "title": "ini configs give consistent access by index and by name", "statement": "In a config read from ini, size, keys, access by index and access by name describe the same entries: entry i has the i-th key and looking up a key returns an entry of that key.", "quantifier": "every parsed set of sections and values", "why_tests_cant": "sections and values sharing names", "anchors": ["modules/config/yato/config/ini/private/ini_config.cpp"]}
{"id": "C59", "title": "reading a stored value as another type", "statement": "Reading a config value as a type gives a value of that type or nothing; reading it as its own type gives it unchanged; integers and booleans read as text and back are unchanged; a real number is read as an integer only if it equals that integer; text that spells no value gives nothing.", "quantifier": "every stored value and requested type", "why_tests_cant": "values are unbounded; conversions of arbitrary text", "anchors": ["modules/config/yato/config/utility.cpp: value_converter", "modules/config/yato/config/config_backend.h: config_value::get"]}
{"id": "C60", "title": "configs survive a round trip through JSON", "statement": "A config written as JSON and read back looks the same through the config interface: same size, kind, order of keys, index and value of every entry on every chain of names and indices. Without a choice of order, every path still has the same value.", "quantifier": "every config tree and choice of key order", "why_tests_cant": "trees are unbounded; equal keys, nested orders and large numbers", "anchors": ["modules/config/yato/config/json/json.cpp: write_json, read_json", "modules/config/yato/config/json/private/json_config.cpp"]}
{"id": "C61", "title": "configs survive a round trip through YAML", "statement": "A config written as YAML and read back has an entry at exactly the same chains of names and indices, with the same index and a value that reads the same as its type.", "quantifier": "every config tree without equal keys in an object", "why_tests_cant": "trees are unbounded; values become text", "anchors": ["modules/config/yato/config/yaml/yaml.cpp", "modules/config/yato/config/yaml/private/yaml_config.cpp"]}
{"id": "C62", "title": "configs survive a round trip through XML", "statement": "A config written as XML and read back has every entry of the original at the same chain of names and indices, with the same index and a value that reads the same as its type, and objects keep their keys in order, including equal ones.", "quantifier": "every config tree whose names and values XML can carry", "why_tests_cant": "trees are unbounded; values become text", "anchors": ["modules/config/yato/config/xml/xml.cpp", "modules/config/yato/config/xml/private/xml_config.cpp"]}
{"id": "C63", "title": "typed values survive storing in a config", "statement": "A value of an integer, bool, string, vector, map, optional or smart pointer type, nested in any way, put into a config under a name is read back from it with the same type as the same value, and the values of other names stay.", "quantifier": "every such type and every value of it", "why_tests_cant": "types and values nest without bound", "anchors": ["modules/config/yato/config/containers.h", "modules/config/yato/config/smart_pointers.h", "modules/config/yato/config/config_backend.h: narrow_converter", "modules/config/yato/config/config.h: value"]}
{"id": "C64", "title": "storage holds a value, on the stack or on the heap", "statement": "A program that creates, copies, moves, assigns, swaps, reads and destroys storages sees the values that were put in, every object is destroyed exactly once, a statement that throws leaves all storages as they were, and whether the object is small enough for the stack changes nothing.", "quantifier": "every program over such variables and every copy that may throw", "why_tests_cant": "programs are unbounded and any copy may throw", "anchors": ["include/yato/storage.h: storage_impl, storage, swap"]}
{"id": "C66", "title": "shutdown of an actor system completes, in order", "statement": "After a call of shutdown the system comes to a stop: every schedule of its own steps is finite and ends with all actors and the root stopped. User and remote actors stop before the system and temporary ones are told to, the root stops last, and nothing stops unless a shutdown was requested. A shutdown that waits for the user ends as soon as the last user actor has stopped. A new actor goes to the guardian of its scope.", "quantifier": "every history of calls and every interleaving of the stops and their notifications", "why_tests_cant": "the order of notifications depends on the scheduler", "anchors": ["modules/actors/yato/actors/private/actors/root.cpp: root", "modules/actors/yato/actors/private/actors/guardian.h: guardian", "modules/actors/yato/actors/private/actor_system.cpp: shutdown_impl_, notify_on_stop_"]}
{"id": "C67", "title": "Futures of ask and find get exactly one answer", "statement": "The future that actor_system::ask returns gets the first reply that the asking actor receives, and the null value if there was none when the timeout stopped the actor; the future of find gets the first result of the search, or an empty reference. The promise is never set twice, and whoever waits for the future never gets a broken promise.", "quantifier": "every sequence of messages that the hidden actor can be handed, every reply, every moment of the timeout", "why_tests_cant": "which of a reply, a second reply, a timeout and a shutdown comes first is decided by the schedule", "anchors": ["modules/actors/yato/actors/private/actors/asking_actor.h: asking_actor", "modules/actors/yato/actors/private/actors/selector.cpp: selector::receive, selector::post_stop", "modules/actors/yato/actors/private/actor_system.cpp: ask_impl_, find_impl_"]}
{"id": "C68", "title": "find returns the actor that has the path", "statement": "actor_system::find answers at most once; an actor in the answer could be reached from the root along the names of the path, and an empty answer means that an actor on the way was missing. An actor that was created before find was called is found, by the path that its reference shows, even if it has not reached the tree yet, unless an actor on the way stops. Only actors of the system named in the path are found.", "quantifier": "every tree of actors, every sequence of creations, stops and handled messages while the search is under way, any number of searches at once", "why_tests_cant": "the search is a chain of messages between mailboxes, interleaved with actors that are being attached and detached", "anchors": ["modules/actors/yato/actors/private/actor.cpp: process_system_message_ (selection, attach_child, detach_child)", "modules/actors/yato/actors/private/actors/selector.cpp: selector::pre_start", "modules/actors/yato/actors/private/actor_system.cpp: find_impl_, create_actor_impl_", "modules/actors/yato/actors/private/actors/root.cpp: root::receive (root_add)"]}
{"id": "C65", "title": "The executor with one thread for each actor", "statement": "With an execution context that pins each actor to a thread: the actor gets its messages in the order of sending and none is lost while its mailbox is open; two threads are never inside the code of one actor; a message that can be processed always has a thread or a sender that takes care of it; the limit of threads is never exceeded, and actors that have stopped do not count towards it; the executor can be destroyed when its actors have stopped; no interleaving of senders is undefined behaviour.", "quantifier": "every interleaving of any number of senders, mailboxes and threads, every limit", "why_tests_cant": "the threads of many actors, the senders that start them and spurious wake-ups interleave in unboundedly many ways", "anchors": ["modules/actors/yato/actors/private/pinned_executor.cpp: pinned_thread_function, execute, ~pinned_executor", "modules/actors/yato/actors/private/mailbox.cpp: enqueue_user_message, enqueue_system_message, schedule_for_execution, pop_prioritized_message_sync, close"]}
{"id": "C69", "title": "TCP connections deliver the stream", "statement": "The handler of a TCP connection is told the bytes the peer has sent, in order, none missing and none invented, and then, once, that the peer has closed the connection, if it has. The bytes of the writes to the connection are sent in order without gaps, once a handler is assigned. The connection ends when the peer closes it or when its handler terminates. bind and connect are answered with the truth: bound or connected if it worked, command_fail if not.", "quantifier": "every interleaving of peer, kernel, io thread, actors and users; every size of reads, sends and writes", "why_tests_cant": "short reads and sends, readiness without data and dying handlers depend on kernel and schedule and do not show up in a test on the loopback device", "anchors": ["modules/actors/yato/actors/io/private/tcp_receiver.h: handle_receive_, write", "modules/actors/yato/actors/io/private/tcp_remote.h: receive", "modules/actors/yato/actors/io/private/tcp_listener.h: pre_start", "modules/actors/yato/actors/io/private/tcp.cpp: tcp_manager::receive"]}
{"id": "C70", "title": "UDP bindings deliver datagrams", "statement": "The handler of a UDP binding is told every datagram the socket has received, whole, each with its own sender, in order of arrival and once; no byte of an earlier datagram shows up in a later one. The end of the socket is told once, last, and stops the binding. The binding never uses freed memory, ends when its handler terminates, and a request to bind is answered with the truth.", "quantifier": "every interleaving of network, io thread, actors and handler; datagrams of every size; every content of the reused buffer", "why_tests_cant": "the buffer and the sender are shared by all receives; whether they are read or freed at the wrong time depends on the schedule", "anchors": ["modules/actors/yato/actors/io/private/udp_receiver.h: handle_receive_, start_receive_", "modules/actors/yato/actors/io/private/udp_remote.h: receive", "modules/actors/yato/actors/io/private/udp_connection.h", "modules/actors/yato/actors/io/private/udp.cpp: udp_manager::receive"]}
{"id": "C71", "title": "Tuple algorithms visit each element once, in order", "statement": "tuple_for_each calls the functor on each element, first to last, once, and returns it as the last call left it. tuple_all_of and tuple_any_of answer whether all or some elements satisfy the predicate and call it on no element after the answer is known. tuple_transform gives the tuple of the results, as if called first to last. Extra arguments reach every call unchanged. The versions for two tuples do the same on the pairs.", "quantifier": "tuples of every size; every functor and predicate, with or without state; every order in which a compiler may evaluate arguments; extra arguments given as lvalue or rvalue", "why_tests_cant": "the order of evaluation depends on the compiler and moved arguments on the types of the functor; a test sees one compiler and one functor", "anchors": ["include/yato/tuple.h: tuple_transform, tuple_for_each, tuple_all_of, tuple_any_of, tuple_dup, tuple_split"]}
{"id": "C72", "title": "Command line configs hold what was given", "statement": "The config of a parsed command line has exactly the arguments that were given or have a default, sorted by name, found by name and by index alike; each has the value given, read as its type, or else its default. Arguments that are not optional are always there. Arguments with a name or flag already taken are refused. A wrong command line is reported by an exception, a value that cannot be read is an error, and a builder that has been used throws.", "quantifier": "every list of arguments, every parser, every command line", "why_tests_cant": "the combinations of kinds, types, defaults and texts are unbounded, and the order of the map differs from the order of adding", "anchors": ["modules/config/yato/config/cmd/cmd.cpp: cmd_builder", "modules/config/yato/config/cmd/private/cmd_config.h", "modules/config/yato/config/cmd/private/cmd_value.h"]}
{"id": "C73", "title": "The dispatcher calls the handler registered last", "statement": "cmd_dispatcher::parse calls the handler that was last registered for the first argument, once, with the config of the other arguments, and returns its result. If there is no first argument or nothing is registered for it, no handler is called and the error code set last is returned, or an exception is thrown if the stream was set to null. This holds each time it is called.", "quantifier": "every history of registrations, settings and command lines", "why_tests_cant": "what the dispatcher does depends on its whole history", "anchors": ["modules/config/yato/config/cmd/cmd.cpp: cmd_dispatcher, parse_impl, add_alternative"]}
{"id": "C74", "title": "Whole vectors behave like values", "statement": "In any program that creates, copies, moves, assigns, swaps, reshapes, modifies and destroys any number of vectors of any numbers of dimensions, each vector has the sizes and elements of the value it stands for: copies are independent, a moved-from vector is empty and can be used on, reshape keeps the elements in order and refuses sizes with another total, and an assignment, construction or reshape that throws changes nothing. Every element is destroyed and every block freed exactly once. Moving, swapping and move-reshaping copy nothing and never throw.", "quantifier": "every program over any number of vectors, sizes, and every choice of copies and allocations that throw", "why_tests_cant": "aliasing and double frees depend on the whole history of all objects, and on where an exception strikes", "anchors": ["include/yato/vector_nd.h: vector_nd_impl constructors, operator=, swap, reshape, destructor", "include/yato/vector_nd.h: raw_vector"]}
{"id": "C75", "title": "Nested initializer lists", "statement": "A vector made from a nested initializer list has, along each dimension, the largest length of the lists at that level; its element at each multi-index is the one written in the list there, and an innermost list that is too short goes on with its last value. A list whose lists above the innermost level differ in length, or with an empty innermost list, is refused with argument_error. Whenever the constructor throws, every element copied so far is destroyed and the memory is freed.", "quantifier": "every number of dimensions, every nested list, every choice of copies and allocations that throw", "why_tests_cant": "the recursion over all levels, the padding and the clean-up interact with where an exception strikes", "anchors": ["include/yato/vector_nd.h: vector_nd_impl(initializer_list_nd_t)", "include/yato/vector_nd.h: deduce_sizes_from_ilist_, raw_copy_initializer_list_, raw_init_from_ilist_"]}
{"id": "C76", "title": "Vectors from views", "statement": "A vector made from a view or from a row of a container has the sizes of the view and at every multi-index the element the view shows there, whatever the gaps between the rows in memory; only elements of the view are read. Pushing a view to the back of a vector, or inserting a range of rows of a view, has the same effect as doing it with vectors of the same sizes and elements. If a copy or the allocation throws in a constructor, memory is as before.", "quantifier": "every number of dimensions, all sizes, row distances and memory contents, every choice of copies and allocations that throw", "why_tests_cant": "the code copies whole memory ranges where it believes that rows are adjacent; whether it is right depends on all sizes and strides", "anchors": ["include/yato/vector_nd.h: vector_nd_impl(const array_view_nd&), vector_nd_impl(const proxy_nd&), fill_from_miltidim_, push_back, insert", "include/yato/memory_utility.h: copy_to_uninitialized_multidim", "include/yato/iterator_nd.h: makes_plain_range"]}
{"id": "C77", "title": "Reflection of classes", "statement": "A class with reflection macros compiles if its reflected members have different names and there are at most 255 of them. Its static list of data members names the data members in the order of declaration, with their types and positions; is_public tells whether a data member was reflected in a public section; the list of member functions names the functions. At run time members() lists all data members in the order of their names, get_by_name(n) finds the data member called n and nothing else, and ptr(obj) is the address of that member of obj, whatever calls were made before and even if some of them ran out of memory.", "quantifier": "every sequence of reflected members, every history of calls of the manager, every choice of allocations that fail", "why_tests_cant": "indices and lists come from overload resolution among declarations of all preceding macros; registration runs once, on the first call, and may fail half-way", "anchors": ["include/yato/reflection.h: YATO_REFLECT_CLASS, YATO_REFLECT_VAR, YATO_REFLECT_METHOD, reflection_manager_impl, is_public, data_member_info", "include/yato/singleton.h: singleton_holder::instance", "include/yato/meta.h: number"]}
{"id": "C78", "title": "Log lines", "statement": "A message whose level passes the filter of the logger is written as one line: the tag of the level, the name of the logger, \" - \" and the formatted text, cut to 2047 bytes, with a newline at the end unless there is one; nothing else is written and no memory outside of the buffer is touched. Messages above the filter, and debug messages outside of debug builds, are not written. A new logger lets messages up to info pass, in debug builds up to debug.", "quantifier": "every name, level, filter, text and earlier content of the buffer", "why_tests_cant": "truncation of name and text, the newline and the zero byte meet at the end of a fixed buffer; off-by-one errors show only for particular lengths", "anchors": ["modules/actors/yato/actors/logger.h: logger::format_and_write, set_filter, error, warning, info, debug, verbose", "modules/actors/yato/actors/private/logger.cpp: logger::logger, write_message"]}
{"id": "C79", "title": "Inbox", "statement": "An inbox hands every message sent to it to exactly one receive call, oldest first, whichever threads send and receive; a receive gives up only after its timeout and only when every message accepted so far has been handed out; no receive sleeps while messages are undelivered and nobody is on the way to take them; every receive ends once the clock is past its due time; a receive without timeout does not sleep; a null answer means that no message came; messages to an inbox never execute anything; messages are lost only when the inbox is destroyed.", "quantifier": "every number of sending and receiving threads, every interleaving of their critical sections, spurious wake-ups, clock readings, moves and destruction", "why_tests_cant": "lost wake-ups, duplicated or overtaken messages and early give-ups need particular interleavings and clock readings", "anchors": ["modules/actors/yato/actors/inbox.h: inbox::receive, inbox::ref", "modules/actors/yato/actors/private/inbox.cpp: inbox::inbox, receive_impl_", "modules/actors/yato/actors/private/mailbox.cpp: mailbox::mailbox, enqueue_user_message, enqueue_system_message, pop_user_message_sync", "modules/actors/yato/actors/private/actor_system.cpp: send_user_impl_, send_system_impl_"]}
{"id": "C80", "title": "Type computations", "statement": "narrowest_fit_unsigned and narrowest_fit_signed name the smallest of the 8, 16, 32 and 64 bit integer types that holds the value; a wider_type holds every value of its argument. take_cv_from<A, B> is B with the qualifiers of A added and nothing else changed; remove_cvref gives the same type for T, T&, T&& and every qualified T; add_lvalue_reference_to_const gives const T&. is_same, one_of and has_trait say what their names say of packs of any length. callable_trait tells the result and argument types of every callable with one signature, is_callable recognises exactly these, and make_function keeps the signature.", "quantifier": "every 64 bit value, every type built from pointers, arrays, references and qualifiers, every pack of types, every callable type", "why_tests_cant": "a test can only name some values and types", "anchors": ["include/yato/type_traits.h: narrowest_fit_unsigned, narrowest_fit_signed, wider_type, take_cv_from, remove_cvref, add_lvalue_reference_to_const, is_same, one_of, has_trait, is_callable, callable_trait, make_function", "include/yato/primitive_types.h: make_type"]}
{"id": "C81", "title": "Arrays, views and rows name the same elements", "statement": "Arrays, views of them, views of parts, reshaped and rebound views and rows of views are names for elements of the arrays: each stays fixed to its positions; what is written through one name is read through every name of the same position and nothing else changes. at throws exactly for indices outside; iteration visits all elements in order; fill, swap and assignment of arrays act on all names. No access in the extents goes outside the array.", "quantifier": "every list of arrays of any number of dimensions and extents, every program of such operations", "why_tests_cant": "a test runs a few programs on a few shapes; aliasing bugs show only in particular sequences of operations", "anchors": ["include/yato/array_nd.h: array_nd_impl, array_nd, view", "include/yato/array_view.h: array_view_base, array_view_nd, reshape", "include/yato/array_proxy.h: proxy_nd, iterator", "include/yato/iterator_nd.h: iterator_nd"]}
{"id": "C82", "title": "Configs, nested configs, entries and iterators keep what they refer to alive, and nothing else", "statement": "A config, an entry or a nested config stays valid and keeps showing the same values as long as the variable itself exists, in whatever order the config it was taken from, the other entries and the configs built from it end or are reassigned. No value or document is used after it was freed, none is freed twice, and when the last variable that leads to it ends it is freed.", "quantifier": "all programs of any length over any number of config and entry variables (reading a document of any size and depth, building, copying, assigning, dropping in any order, looking up by index or path, moving and move-assigning entries, taking nested configs), for backends that look into a shared document, that copy values, and that keep their values themselves", "why_tests_cant": "Use after free and leaks depend on the order in which variables end; a test runs a few orders, usually with the config outliving everything taken from it, and freed memory often still holds the old values.", "anchors": ["modules/config/yato/config/config_backend.h: config_backend::find_result, find, value_as", "modules/config/yato/config/config.h: config_entry, resolve_path_, config, config_iterator", "modules/config/yato/config/json/private/json_config.cpp, json_value.cpp", "modules/config/yato/config/xml/private/xml_config.cpp, xml_value.cpp", "modules/config/yato/config/yaml/private/yaml_config.cpp, yaml_value.cpp", "modules/config/yato/config/ini/private/ini_config.cpp, ini_section.cpp", "modules/config/yato/config/private/manual_map.h, manual_array.h, manual_value.h"]}
{"id": "C83", "title": "A reference stands for the actor it was made for", "statement": "A message told through a reference, or through any copy of it, reaches the actor the reference was made for and no other, once, behind the messages it already has, with the sender that was given, as long as that actor takes messages; otherwise it is dropped. A watcher is told once through its reference when the watched actor stops. Creating actors and systems throws exactly for names that are not allowed, and nothing a program does with references, whichever actors have stopped in the meantime, has undefined behaviour.", "quantifier": "all programs of any length over any number of actor systems, actors, children and reference variables (creating, copying, moving, storing self and sender, telling with and without a sender, watching, unwatching, shutting down and destroying systems), interleaved in any order with actors handling messages, stopping and being destroyed", "why_tests_cant": "Misdelivery shows when actors of several systems, or actors with equal names, stop and are destroyed between the making of a reference and its use; a test fixes one such order and a handful of actors.", "anchors": ["modules/actors/yato/actors/actor_system.h: actor_system::create_actor, send_message, tell", "modules/actors/yato/actors/private/actor_system.cpp: create_actor_impl_, send_user_impl_, watch, unwatch, shutdown, ~actor_system", "modules/actors/yato/actors/actor_ref.h: actor_ref", "modules/actors/yato/actors/private/actor_ref.cpp", "modules/actors/yato/actors/private/cell_builder.cpp", "modules/actors/yato/actors/private/actor_cell.cpp", "modules/actors/yato/actors/private/mailbox.cpp: enqueue_user_message", "modules/actors/yato/actors/private/actor.cpp: create_child, stop"]}
{"id": "C84", "title": "Iterators over a config are positions among its entries", "statement": "Arithmetic, distances and comparisons of config iterators are those of positions in the list of entries; dereferencing gives the entry at that position and the null entry elsewhere; find gives the first entry of a name or the end; a loop over a config, a has_next/next loop from any index and a backward loop each read every entry exactly once in order.", "quantifier": "all programs of any length over any number of iterator variables and configs (also null ones) of any size below 2^63, all offsets and indices that fit ptrdiff_t, debug and release builds; the loops for every config and start index", "why_tests_cant": "Random access is used with offsets at the limits, before the beginning and behind the end; a test checks a few offsets on a small config.", "anchors": ["modules/config/yato/config/config.h: config_iterator, config::begin, end, find", "include/yato/types.h: narrow_cast", "include/yato/assertion.h: YATO_REQUIRES"]}
{"id": "C85", "title": "Actors on one dispatcher share its threads fairly", "statement": "A turn of an actor on a dispatcher thread handles at most throughput user messages, and fewer only when the actor has nothing left to do or stops; an actor with messages left is queued once, behind those already waiting; so an actor waiting at position p of a dispatcher with w threads is served after at most (w + p) * throughput user messages of all actors.", "quantifier": "every number of actors, threads and senders, every throughput, every interleaving, every waiting position", "why_tests_cant": "Starvation depends on the schedule and on how other actors are loaded; a test sees a few schedules with light load.", "anchors": ["modules/actors/yato/actors/private/dynamic_executor.cpp: mailbox_function, execute", "modules/actors/yato/actors/private/mailbox.cpp: schedule_for_execution, pop_prioritized_message", "modules/actors/yato/actors/private/thread_pool.h: thread_pool"]}
{"id": "C86", "title": "A tree of actors keeps its guarantees when every message is sent separately", "statement": "However the single sends, calls and mailbox operations of all actors of a tree are interleaved: an actor sees pre_start, then messages one at a time, then post_stop, each at most once; post_stop of a parent comes after all started children have returned from theirs; no actor is destroyed while it runs; an actor told to stop closes after finitely many steps; stopping the root ends every started actor; each watcher is told of the end exactly once.", "quantifier": "every number of actors, every tree shape, every interleaving of the single steps of all actors with requests from outside, every point of an execution", "why_tests_cant": "The steps of different actors interleave in ways that depend on thread timing; a test sees few of them, and a window between two sends of one actor is almost never hit.", "anchors": ["modules/actors/yato/actors/private/actor.cpp: receive_system_message_, receive_message_, stop_impl", "modules/actors/yato/actors/private/actor_cell.cpp: add_child, remove_child", "modules/actors/yato/actors/private/dynamic_executor.cpp: mailbox_function", "modules/actors/yato/actors/private/actor_system.cpp: create_actor_impl_, stop_impl_, watch"]}
{"id": "C87", "title": "Checked pointers point to what they promise", "statement": "In every program, what an instance_of<T> gives is a non-null pointer to a part of class T of the object it was made from; a pointer to an object that is a T is accepted and any other is refused with an exception. A not_null never gives a null pointer. An any_ptr gives the pointer it was last given if asked for exactly its type and the default otherwise, so it never reinterprets an object; it can be compared.", "quantifier": "every class hierarchy (public and not virtual inheritance), every pointer into every object, every sequence of constructions, copies, assignments, uses and destructions", "why_tests_cant": "Class hierarchies and sequences of operations are unbounded, and dangling or ambiguous cases do not show in a few examples.", "anchors": ["include/yato/instance_of.h: instance_of", "include/yato/not_null.h: not_null", "include/yato/any_ptr.h: any_ptr"]}
{"id": "C88", "title": "A singleton is created once and every call returns it", "statement": "However many threads use a singleton and however their calls interleave, the object is created at most once, is not destroyed while the program runs, and every call that returns gives this object; if its constructor throws, nothing has changed and a later call tries again.", "quantifier": "every number of threads, every interleaving of the comparisons, creations, stores and reads of their calls, every choice of throwing constructors", "why_tests_cant": "Whether two first calls overlap depends on timing; a test almost never hits the window between the comparison and the store.", "anchors": ["include/yato/singleton.h: singleton_holder::instance, instance_ref, touch, create_using_new"]}
{"id": "C89", "title": "Assertions throw while a throwing lock is in scope", "statement": "With tested assertions enabled: while a throwing lock is in scope, a failed assertion throws an exception and does not end the program; when no lock is in scope, a failed assertion ends a debug build and is ignored by a release build; an assertion that holds always passes.", "quantifier": "every sequence of locks, ends of their scopes and assertions, debug and release builds", "why_tests_cant": "Locks can be nested to any depth and interleave between threads.", "anchors": ["include/yato/assertion.h: throwing_callback_lock, assert_callback_holder, YATO_REQUIRES_TESTED"]}
{"id": "C90", "title": "A compressed pair is a pair and an empty first component costs nothing", "statement": "For every program that constructs, copies, reads and writes compressed pairs, the results are those of the same program with ordinary pairs; the components lie inside the pair, aligned and apart; the pair is never larger than a structure of the two components, and it is as large as one component if the other is an empty class.", "quantifier": "every two types (size, alignment, emptiness, finality), every sequence of operations on any number of pairs", "why_tests_cant": "There are infinitely many pairs of types, and reading an uninitialized component usually gives a plausible value.", "anchors": ["include/yato/compressed_pair.h: compressed_pair, get, compressed_pair_getter"]}
{"id": "C91", "title": "A matcher calls the case that fits the type of the argument best", "statement": "A call of a matcher made of several functions calls the function whose parameter type fits the type of the argument best, wherever it stands among the cases, and does not compile if there is no such function or more than one.", "quantifier": "every list of cases, every type of the argument, every relation of implicit conversions", "why_tests_cant": "The choice is made by overload resolution for each combination of types; tests can only try some combinations.", "anchors": ["include/yato/type_match.h: match, type_matcher, match_dispatcher"]}
{"id": "C92", "title": "Optionals of pointers, booleans and numbers convert and copy as values", "statement": "For every program on optionals of pointers, booleans and numbers, which constructs, copies, moves, converts, assigns, maps, filters and reads them and passes them to and from std::optional, the results are those of values or nothing, where a null pointer is nothing; flatten of nested optionals gives the innermost value exactly if every level holds one.", "quantifier": "every program of such statements on any number of optionals of any of the types, every value; optionals nested to any depth", "why_tests_cant": "Which constructor is chosen depends on the element type and on whether the source is const; tests try some combinations, and none of bool.", "anchors": ["include/yato/optional.h: optional_storage (pointers), basic_optional, flatten, operator std::optional"]}
{"id": "C93", "title": "The parser of a config gets the text that was given, however it is given", "statement": "A text given as a pointer, a pointer and a length, a string or a stream is what the parser of ini, xml, json or yaml reads; a stream is read from its current position to its end and left there.", "quantifier": "every text, every memory around it, every position and state of a stream, every format", "why_tests_cant": "Streams differ in whether they can be positioned, in their mode and in their state; tests use string streams and files that were just opened.", "anchors": ["modules/config/yato/config/utility.cpp: get_text_stream_content", "modules/config/yato/config/ini/ini.cpp: read", "modules/config/yato/config/xml/xml.cpp: read", "modules/config/yato/config/json/json.cpp: read", "modules/config/yato/config/yaml/yaml.cpp: read"]}
{"id": "C94", "title": "What a config says about itself is true of its entries", "statement": "For every config, whatever it was read from: the valid indices are those below size(); what is found under a name is the first entry with this name, at the index that is told; in an associative config every entry can be looked up by its name, in another one none; no two entries of a config that is not multi-associative have the same name; a config that has two properties has them together.", "quantifier": "every config of every backend (made in the program, json, yaml, xml, ini, command line), every name, every index, every combination of properties", "why_tests_cant": "Code over configs of unknown origin decides by these answers; each backend gives its own answers from its own container, and tests look at a few documents of each.", "anchors": ["modules/config/yato/config/config_backend.h: config_property", "modules/config/yato/config/config.h: has_property, is_associative, is_ordered, is_multi_associative", "modules/config/yato/config/json/private/json_config.cpp: do_has_property, do_find", "modules/config/yato/config/yaml/private/yaml_config.cpp: do_has_property, do_find", "modules/config/yato/config/xml/private/xml_config.cpp: do_has_property, do_find", "modules/config/yato/config/ini/private/ini_config.cpp: do_has_property, do_find", "modules/config/yato/config/cmd/private/cmd_config.h: do_has_property, do_find"]}
{"id": "C95", "title": "A variant or an optional can be copied, moved and assigned just as its types can", "statement": "A variant or an optional can be copied, moved or assigned exactly if the types it may hold can be; it is then done by their own constructors and assignments, so that no two variants share an object and no object is destroyed twice.", "quantifier": "every combination of what the element types can do (copy and move construction and assignment), every list of alternatives, every program of declarations, copies, moves, assignments and ends of scopes", "why_tests_cant": "Which members a class template has depends on its arguments and on the rules for members that the compiler adds; tests instantiate a few types and cannot look at what must not compile.", "anchors": ["include/yato/variant.h: basic_variant, all_copy_constructible", "include/yato/optional.h: basic_optional", "include/yato/type_traits.h: disable_if_not"]}
{"id": "C96", "title": "A view of a container shows the elements of the container and reports its shape", "statement": "A view made of a vector, an array, a C array, a proxy, a slice or another view has at every multi-index the element of the container, the same dimensions, total size and strides, and is continuous exactly if the container is; reshape keeps the elements and their order; rebind keeps the shape.", "quantifier": "every number of dimensions, all extents, strides (padded or not), element sizes and indices, every way of making the view", "why_tests_cant": "Tests make views of a few shapes; the strides are converted between elements and bytes and recomputed at each conversion, so that an error may show only for padded data or a particular number of dimensions.", "anchors": ["include/yato/array_view.h: view, cview, make_view, array_view_nd, reshape, rebind", "include/yato/array_nd.h: view, strides", "include/yato/vector_nd.h: view, proxy, strides", "include/yato/array_proxy.h: strides, dimensions, continuous"]}
{"id": "C97", "title": "The generic interface of containers reports the shape of the container", "statement": "For every container, whichever methods it has, the generic operations size, dimensions, dimensions_range, total_size, stride, strides and continuous compile and answer what its shape says; width, height, depth and layers name the extents from the last one on; total_size from a dimension on is the number of cells of the remaining dimensions.", "quantifier": "every container: any number of dimensions, extents and strides, any combination of methods that answer truthfully", "why_tests_cant": "The operations choose between methods by traits; tests instantiate a few classes and cannot look at combinations that do not compile.", "anchors": ["include/yato/container_nd.h: container_traits, container_ops", "include/yato/container_base.h: dimensionality, strides_array, length, width, height, depth, layers"]}
{"id": "C98", "title": "Iterators of mapped, zipped and reversed ranges are random access iterators of the elements shown", "statement": "For a range built from random access ranges by map, zip and reverse in any nesting, every random access expression (*it, ++, --, it++, it--, += n, -= n, it + n, n + it, it - n, it[n], it - jt, the six comparisons) compiles and answers as the positions in the list of shown elements say, after any history of moves; leaving the list is the only undefined behaviour; distance() is the number of elements.", "quantifier": "every nesting of map, zip and reverse over sequences of any length, every function, every pair of iterators, every offset, every history of moves", "why_tests_cant": "Nestings, histories and offsets are unbounded; expressions that do not compile cannot be in a test at all.", "anchors": ["include/yato/transform_iterator.h: transform_iterator", "include/yato/zip_iterator.h: zip_iterator", "include/yato/range.h: range::map, range::zip, range::reverse, range::distance"]}
{"id": "C99", "title": "Filter iterators of every kind are positions among the matching elements", "statement": "In every program with filter iterators over a sequence, with or without an end, caching or not, made from positions or copied and converted from one another: an iterator is at the first match from where it was made, ++ goes to the next match, -- to the previous one, *it is the element there, also when elements are changed through iterators or directly; the dereference policy makes no difference to the results. Without an end, going on where no match follows is undefined.", "quantifier": "every program of such statements, every sequence, predicate and element type, any number of iterators", "why_tests_cant": "The number of iterators, the histories and the sequences are unbounded, and undefined behaviour of empty caches shows in no test.", "anchors": ["include/yato/filter_iterator.h: filter_iterator, make_filter_iterator, filter_cache_base, dereference_policy_caching", "include/yato/storage.h: storage"]}
{"id": "C100", "title": "Attribute maps are values, and threads that lock a map share it safely", "statement": "Maps copy, move, assign and swap as values, while validator and lock stay where they are. Any number of threads that use a shared map only while they hold what lock_attributes() returned see one finite map: there is no undefined behaviour, every result is that of executing the calls one after another, while a thread holds the lock no other changes the map, and if locks are taken in one order the program always can be finished.", "quantifier": "all numbers of threads and maps, all programs, all orders of turns", "why_tests_cant": "Schedules and programs are unbounded; a data race may never show in a test.", "anchors": ["include/yato/attributes_interface.h: attributes_map, lock_attributes, mutex_lock, no_lock, swap"]}
{"id": "C101", "title": "Threads share atomic attributes without locks", "statement": "When all attributes are registered, any number of threads may set, read and copy them at the same time without locks: there is no undefined behaviour, the answers are those of the calls made one after another, no attribute changes its type, and no thread waits for another. A copy shows the attributes at one moment.", "quantifier": "all numbers of threads, attributes and calls, all orders of turns", "why_tests_cant": "Schedules are unbounded; races and mixed copies depend on the timing.", "anchors": ["include/yato/atomic_attributes.h: atomic_attributes, any_atomic_assigner", "include/yato/attributes_interface.h: set_attribute"]}
{"id": "C102", "title": "Rows, iterators and pointers into vectors stay valid", "statement": "A row, an iterator or a pointer into a vector stays usable as long as its elements are neither destroyed nor moved to other storage: through it the elements at its position can be read and written. Storage is only replaced when the capacity is too small, by shrink_to_fit and by assignments. A call that has room leaves everything before the place it changes as it was, and moving or swapping vectors takes the elements along.", "quantifier": "all programs with any number of vectors, rows, iterators and pointers, all sizes and numbers of dimensions, all failing copies", "why_tests_cant": "Whether a handle dangles depends on the whole history of reallocations, moves and destructions; reading through a dangling one often gives the expected result in a test.", "anchors": ["include/yato/vector_nd.h: vector_nd, raw_vector", "include/yato/array_proxy.h: proxy_nd", "include/yato/iterator_nd.h: iterator_nd"]}
{"id": "C103", "title": "Real numbers in configs", "statement": "A float, double or long double that is put into a config is read back with the same type as the same number. Between types the nearest value is read: a double read as a float and an integer read as a real number are the nearest one there is, an integer up to 2^53 is exact, and a real number is read as an integer exactly if it is an integer of 64 bits. A real number read as text is written with six decimals and an error of at most half a millionth, text that spells a decimal or hexadecimal number is read as the nearest double, other text is not read, and a number read as text and back is unchanged.", "quantifier": "all numbers of type float and double including infinities, NaN and subnormal numbers, all 64-bit integers, all texts of 7-bit characters, debug and release builds", "why_tests_cant": "There are 2^64 doubles and infinitely many texts; the wrong cases are at the limits of the types and between two neighbouring numbers.", "anchors": ["modules/config/yato/config/utility.cpp: value_converter", "modules/config/yato/config/utility.h: serializer", "modules/config/yato/config/config_backend.h: identity_converter, checked_limits_converter", "modules/config/yato/config/config_builder.h: config_builder::put", "modules/config/yato/config/config.h: value"]}
{"id": "C104", "title": "Decoding characters with a length, and converting scalars", "statement": "Reading an integer, a real number or a boolean from a pointer and a length gives the value that is spelled, between blanks, by exactly that many characters, or fails; without a length it is spelled by the C string. A conversion between scalars by a serializer gives the value that reading from a config gives. A failed conversion into a variant leaves the variant unchanged; after a successful one the variant holds a value of the wanted type.", "quantifier": "all memory contents and lengths, all scalar types, all values of them", "why_tests_cant": "The characters after the given length, the place of the zero byte and the blanks vary independently; tests pass literals, which always end right at the given length.", "anchors": ["modules/config/yato/config/utility.h: details::decode, serializer", "modules/config/yato/config/utility.h: strtobool"]}
{"id": "C105", "title": "Configs as vectors and maps, and values by path and index", "statement": "Converting a config to a vector gives, for every entry in turn, the value that reading it by index gives; converting it to a map gives exactly the values that can be read by name, sorted by name; converting it to a multimap loses no entry and keeps the order of entries with the same name. The first entry that cannot be read decides how the conversion fails, and a config without names is no map. For configs in which names are unique map and multimap are the same. Reading a path in parts gives the same as reading it at once, and the empty path is the config itself. What was stored from a vector or a map comes back.", "quantifier": "all configs of all backends, all types of values, all paths and indices", "why_tests_cant": "Equal names, entries that cannot be read, empty parts of paths and null configs combine freely, and each backend finds entries in its own way.", "anchors": ["modules/config/yato/config/config.h: config::to_vector, to_map, to_multimap, value, cvt, object, array, flag", "modules/config/yato/config/containers.h: std_vector_converter, std_map_converter"]}
{"id": "C106", "title": "A TCP server is told of its peers", "statement": "The server that has bound an address is told of every peer whose connection is accepted, once, with the address of that peer and in the order of connecting, unless the peer has reset the connection; no connection is lost or duplicated. When the server terminates or the listener is stopped, the listener ends: it listens no more and all its connections are closed.", "quantifier": "every interleaving of peers, io thread, listener, actors of connections and server; every number of peers and every choice of addresses", "why_tests_cant": "A reset at the wrong moment, a reconnection from the same port or a server that dies early need a particular schedule, and what goes wrong shows only when the listener should end.", "anchors": ["modules/actors/yato/actors/io/private/tcp_listener.h: tcp_listener, acceptor", "modules/actors/yato/actors/io/private/tcp_remote.h: tcp_remote::pre_start", "modules/actors/yato/actors/io/private/tcp.cpp: tcp_manager::receive", "modules/actors/yato/actors/private/actor.cpp: basic_actor::receive_system_message_"]}
{"id": "C107", "title": "Token iterators are positions in the list of tokens", "statement": "A token iterator behaves as an index into the list of tokens: dereferencing gives the token at the index, both increments go to the next token, the postfix one giving the old position, copies are independent, two iterators over the same tokens are equal exactly if they are at the same token, and an iterator equals tokens_end exactly if no token is left. A range-based for visits all tokens in order.", "quantifier": "every program over any number of token iterators and sequences, every separator predicate, both values of skip_empty", "why_tests_cant": "Independence of copies and agreement of ==, has_next and tokens_end must hold after every sequence of increments on every layout of separators.", "anchors": ["include/yato/token_iterator.h: token_iterator::operator*, operator->, operator++, operator==, operator!=", "include/yato/token_iterator.h: tokens_end_t, tokens_range, tokens_crange, tokens_range_if, make_token_iterator"]}
{"id": "C108", "title": "Elements are reached through the generic interface", "statement": "For any container, container_ops::subscript and csubscript reach the element at the index, as a reference and a const_reference, whether the container has an operator [] or only iterators; subscript of a const container reaches it too. Nothing can be written through what a const container gives. data and cdata give a pointer to the first element, exactly for the containers that can provide one; the pointer from cdata cannot be written through.", "quantifier": "every container, with any combination of operators, methods and rights to write, every index", "why_tests_cant": "Which overload is used depends on what the container offers; tests only cover the containers of the library.", "anchors": ["include/yato/container_nd.h: container_ops::subscript, container_ops::csubscript", "include/yato/container_nd.h: container_ops::data, container_ops::cdata"]}
{"id": "C109", "title": "Casts of floating-point numbers and literals give the number that is meant", "statement": "For any two floating-point types, float_cast of a number that both types have gives that number. In builds with checks it gives nothing else: any other number is refused. Without checks it gives the nearest number. The literals _s8 to _u64 give the number that is written, with a minus or without, and are refused in builds with checks if the type does not have it. The literals _f32, _f64 and _f80 give the number of the type that is nearest to what is written, and are refused if it is too large.", "quantifier": "every pair of floating-point types, each format of long double, every number, every literal that can be written", "why_tests_cant": "Whether numbers are rounded, and how, depends on the single number; tests only try a few of them.", "anchors": ["include/yato/types.h: float_cast", "include/yato/types.h: literals::operator\"\"_s8 ... operator\"\"_u64", "include/yato/types.h: literals::operator\"\"_f32, operator\"\"_f64, operator\"\"_f80"]}
{"id": "C110", "title": "Every accessor of a container reaches its elements, and those of a const container cannot be changed", "statement": "The elements of array_nd, vector_nd, their rows and views are reached by any mix of subscripts, iterators and ranges, one for each dimension. Every accessor compiles and its behaviour is defined. No element of a const array_nd or vector_nd can be written, whatever is called on what its accessors give; nor can elements reached by an accessor for reading (cbegin, crange, cdata, cview, cproxy, ...). All accessors of one container agree whether its elements can be written.", "quantifier": "every container class, any number of dimensions, elements const or not, container const or not, every chain of calls on it", "why_tests_cant": "A member of a template that is never used is never compiled, and a test that something does not compile has to be made for each chain of calls.", "anchors": ["include/yato/array_nd.h: sub_array, array_nd_impl", "include/yato/vector_nd.h: vector_nd accessors, erase", "include/yato/array_proxy.h: proxy_nd", "include/yato/array_view.h: array_view_nd", "include/yato/iterator_nd.h: iterator_nd::operator*", "include/yato/range.h: range"]}
{"id": "C111", "title": "Extents mean the numbers they were made from, and a vector has the storage its extents need", "statement": "Extents made by dims are the numbers passed, for every size type. Their total size, from any dimension on, is the product of the extents from it on. Extents compare equal exactly if they are the same numbers, also if their size types differ. A vector made from extents, or reshaped to them, has storage for the product of the extents, and every index in range names its element in row-major order; it is reshaped exactly if the number of elements stays the same.", "quantifier": "every integer size type (width and signedness), every number of dimensions, all extents, all indices", "why_tests_cant": "The products overflow only for extents that no test allocates, and the comparison of mixed size types goes wrong only for particular values.", "anchors": ["include/yato/container_base.h: dimensionality, strides_array, dims, strides", "include/yato/vector_nd.h: init_sizes_, total_size, reshape, operator[]", "include/yato/types.h: narrow_cast"]}
{"id": "C112", "title": "The functions of a sampler are used as documented, and what load gives is there", "statement": "load, loads, at and ats use check_index, transform_index, transform_value and boundary_value of a sampler if it has them, and the documented default otherwise: without functions, the elements in range are read and every other index is refused, for every type of indices. It does not matter how the sampler is given. What load gives is a value, or a reference to something that still exists.", "quantifier": "every sampler class: which members it has and how they are declared; every way to give the sampler; every index type; all containers and indices", "why_tests_cant": "Whether a member is found is decided by the compiler for each declaration; a member that is passed over, or a reference to a value that is gone, shows only for particular classes.", "anchors": ["include/yato/container_nd.h: sampler_traits, load, loads, at, ats, sampler_default, sampler_zero"]}
{"id": "C113", "title": "A method called by pointer is called on the object that was meant", "statement": "yato::invoke(obj, method, args...) calls the method on the object passed by value, reference, pointer or smart pointer: every call that would be allowed directly is made, on that object and no other, and no call that would not be allowed. A null pointer is the only cause of undefined behaviour.", "quantifier": "every argument (object, raw pointer, smart pointer; const or not, lvalue or rvalue; null or not), every class hierarchy, every method with its const and reference qualifiers", "why_tests_cant": "Which overload takes part is decided by the compiler for each combination of types and qualifiers; tests compile a few of them, and calls that must not compile are not tested.", "anchors": ["include/yato/invoke.h: invoke", "include/yato/type_traits.h: is_smart_ptr"]}
{"id": "C114", "title": "The memory of a vector goes back to the allocator that it came from", "statement": "Whatever a program does with vectors whose allocators draw from different arenas (creating, copying, moving, assigning, swapping, reshaping, growing, shrinking and destroying them), every block of memory is returned exactly once, to an allocator equal to the one that gave it and with the size that was asked for, and nothing is lost. A vector keeps its allocator except where the traits of the allocator say that it is propagated.", "quantifier": "all traits of allocators, all arenas, all programs over any number of vectors, of any length", "why_tests_cant": "With std::allocator, which has no state, every mistake is invisible: all allocators are equal. The tests use no allocators that differ.", "anchors": ["include/yato/vector_nd.h: raw_vector, vector_nd_impl::operator=, swap, reshape, constructors", "include/yato/memory_utility.h: allocate, deallocate"]}
{"id": "C115", "title": "Dynamic arrays return their memory to the allocator that it came from, and can be moved", "statement": "Whatever a program does with dynamic arrays whose allocators draw from different arenas (creating, moving, swapping, assigning, resizing, clearing and destroying them, and going on after exceptions), a block of memory is returned at most once, to an allocator equal to the one that gave it and with the size that was asked for; two arrays never share a block; no memory is lost. An array can always be moved to a new one, which is then what the first was; the allocator of an array changes only when it is moved to or swapped.", "quantifier": "all traits of allocators, all arenas, all programs over any number of arrays, of any length", "why_tests_cant": "With std::allocator all allocators are equal and propagate, so that neither a wrong allocator nor a move that throws can be seen. The tests use no allocators that differ.", "anchors": ["include/yato/dynamic_array.h: dynamic_array::_allocate, _destroy, _move_assign, swap, assign, resize, clear"]}
{"id": "C116", "title": "The shortcuts for trivial types do what the loops do", "statement": "The functions that copy, move, transfer and destroy ranges of elements in raw memory have shortcuts for trivial types. Whatever sequence of them is called, with ranges that lie where the function expects them, a program with trivial elements ends with the same elements at the same places and the same pointers as with any other type, in debug and release builds; in particular for the calls that vectors make when they grow, insert and erase.", "quantifier": "all memories, all values, all ranges (overlapping or not, in one block or two), all sequences of calls of any length, debug and release builds", "why_tests_cant": "Which ranges overlap depends on the sizes and offsets; memcpy on ranges that overlap, and differences of pointers to different arrays, are undefined but usually seem to work.", "anchors": ["include/yato/memory_utility.h: memory::trivial_copy_n, copy_operation, move_operation, transfer_operation, transfer_left_operation, transfer_right_operation, destroy_operation", "include/yato/vector_nd.h: insert, erase"]}
