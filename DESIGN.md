# Formal model of agruzdev/Yato: design

The C++ sources in `/repo` were read as text; nothing was compiled or executed.
The model is hand-written Lean 4 in `/verif/lean/Verif`.

## 1. Layout

| place | content |
|---|---|
| `Verif/Model/*.lean` | executable model, function by function, each definition cites the file and lines it models and its simplifications |
| `Verif/Lemmas/*.lean` | helper lemmas about the model |
| `Verif/Props/Cxx_*.lean` | the small independent specification, the property theorems, `example`s that the hypotheses are met by concrete non-trivial cases, and negation witnesses where the code violates the property |
| `properties.jsonl`, `MANIFEST.json` | the English properties and the theorem names that establish them |
| `seeded/LOG.jsonl` | mutation log: edits of the model in a scratch copy and the theorems that failed |

## 2. Trusted base

* Lean 4.33.0's kernel. Mathlib is used only as a lemma library; it is checked by the same kernel.
* Axioms: every property theorem depends on at most `propext`, `Classical.choice`, `Quot.sound`
  (checked with `#print axioms`; the build and `vcheck` see the same files). No own axioms, no `sorry`, no
  `native_decide`, no `bv_decide`, no `implemented_by`, no `unsafe`.
* The correspondence between the model and the C++ text is by reading. Each model definition cites the lines.
* C++ semantics assumed by the model: sequential consistency for code under `std::mutex`; `std::map`,
  `std::multimap`, `std::vector`, `std::deque/queue`, `std::stack`, `std::string` and `<algorithm>` behave as the
  standard says (they are modelled by lists with the standard's contract, including its undefined behaviour:
  e.g. `std::move` over overlapping ranges in the wrong direction, dereferencing `end()`).

## 3. Modelling conventions

* **Undefined behaviour is an outcome.** Partial operations return `Option`/`Except`/an outcome type with a distinct
  `ub` constructor; out-of-range reads are never replaced by default values. `YATO_REQUIRES`/`YATO_ASSERT` are no-ops
  in release builds, so the model is of the release build, and each precondition appears as a hypothesis or as `ub`.
* **Exceptions are outcomes** distinct from UB.
* **Integers** are `Nat`/`Int` when overflow is irrelevant, with the range bound stated as a hypothesis;
  `BitVec`/explicit `% 2^w` where the property is about wrap-around.
* **Object lifetime** is modelled by slots that are `raw`, or `live v`; constructing over a live slot, destroying a raw
  slot or reading a raw slot is `ub`. Allocation state is modelled where leaks matter.
* **Concurrency** is modelled by a transition system whose atomic steps are the critical sections under the
  object's mutex and the individual unlocked actions between them; theorems are invariants over all reachable states
  (all interleavings, any number of threads).
* When a property is **false of the code**, the file proves the negation on a concrete witness (`..._violated`),
  keeps the full statement in view, and proves the strongest true part as `..._partial`.

## 4. Plan per property

| id | model | proof |
|---|---|---|
| C01, C02 | `std::map` as a key-sorted association list, iterators as `Option key`; `assign` statement by statement | `lookup (assign m b e v) = update (lookup m) [b,e) v` for well-formed maps; invariant (sorted, starts at the lowest key, adjacent values differ) preserved; induction over the list of calls; empty interval no-op |
| C03, C04 | token iterator state (positions into a list), the three private functions and next/has_next | refinement to a recursive `split`; loop variant gives termination; join/concat laws |
| C05 | `basic_path::is_root` and `tokenize` on char lists | reuses C03; equality of both characterisations; insensitivity to empty segments |
| C06, C07 | address arithmetic on `Nat`, `select_offset_type` table, block as byte memory | div/mod arithmetic; read-after-write with user writes elsewhere |
| C08 | filter iterator over list positions, skip loops, `--` with UB when nothing earlier matches; the cache of the caching policy, by size and kind of the value type | collecting loop = `List.filter`; `--` after `++`; undefined for every range if the value type is not small and trivial |
| C09 | zip/transform iterators over positions; folds | loop = `List.zip`/`map` for equal lengths; UB witness for different lengths |
| C10 | `numeric_iterator` over BitVec-like wrap arithmetic of width w, signed/unsigned | enumeration; `i+(j-i)=j`; counterexample for 32-bit unsigned difference (converted after wrapping) |
| C11 | byte addresses, `ptrdiff / size_t` division on 64-bit words | forward distances proved; negative distances refuted |
| C12, C13 | extents list, suffix products, recursive subscript, `at` | positional-number-system bijection by induction on the dimensions; lexicographic order |
| C14, C15 | descriptor lists (size,total,offset) from both constructors; sub-view recursion; `continuous` | induction on dimensions; injectivity and bounds; `continuous` forces all inner strides tight when rows do not overlap |
| C16 | sampler policies with int32 index conversion | decision logic per sampler; counterexample for indices >= 2^32 |
| C17, C18 | integral lookup table in size_t arithmetic | nearest formula for `first = 0`; counterexample otherwise; linear index/weight bounds |
| C19-C23 | `raw_vector` as block of slots + counters; every operation with a fault counter (k-th copy throws) | refinement to lists of rows; slot invariant; exception outcomes; capacity potential argument; aliasing counterexample |
| C25 | `std::move`/`move_backward` on slots, with UB on wrong-direction overlap | counterexamples; proof for the cases without overlap |
| C26 | blocks with live/freed state | invariant over operation lists without move assignment; leak counterexample |
| C27-C29 | optional/variant/any with lifetime flags, several objects in a store | refinement to `Option`/tagged value; counterexamples (swap, moved-from variant, nested any) |
| C30 | list of cases with type tags | dispatch = first match specification |
| C31 | conversions between `BitVec` widths with signedness | exactness iff representable |
| C32 | guards with armed flags; which calls of `make_finally` compile | invariant for single moves; counterexamples for moving a moved-from guard, for named and for move-only actions |
| C33, C34 | attribute stores | refinement to finite maps; counterexamples |
| C35 | meta lists as `List` functions with the code's recursion | sortedness, permutation; instability witness |
| C36 | strings as `List Char`, parser as in the source incl. 3-argument `std::equal` | round trip for all valid names; UB witness for strict prefixes of `yato://` |
| C37-C40 | mailbox + senders + executor tasks as transition system | inductive invariants over all reachable states; UAF trace witness |
| C41, C42 | queue + workers; sorted event vector | invariants; LIFO witness for equal due times |
| C43-C46 | actor cell state machine and tree | invariants over message histories; counterexamples |
| C47-C49 | name generator, execution list lookup, behaviour stack | induction; counterexamples |
| C50-C55, C57 | config trees, builders, path walks, merge and copy functions | structural induction; refinement to finite maps; counterexamples |
| C56, C59 | `strtoll`, `strtobool`, `decode` on lists of characters; the conversion table | equivalence with a grammar of literals and words |
| C58 | ini parser events, multimaps, access functions | invariant over event lists |
| C60–C62 | the JSON, YAML and XML adapters as instances of one backend interface; the libraries are parameters | simulation along chains of names and indices |
| C63 | `store`/`load` by recursion on a universe of C++ types | induction over the type |
| C64 | `storage` over the object lifetimes of `Cells`, both layouts | simulation of a map of values; ledger of lifetimes |
| C66 | the root, its queue and flags, the four guardians as stages | invariant over all schedules; decreasing measure |
| C67 | the promise as a fold over what happens to the actor (`Model/Ask.lean`), which is the life of `Model/ActorCell.lean` | invariant over the life given by C43; witnesses for the early timeout, shutdown and uncopyable replies |
| C68 | system queues, the user queue of the root, and the forwarding of `selection` with its moved-from copies (`Model/Selection.lean`), paths from `Model/ActorPath.lean` | invariants over all executions (a token that is never doubled, the way it has gone, the queue order of `attach_child` before `selection`); witnesses for twins and foreign systems |
| C65 | any number of mailboxes with their threads; `execute` in two steps, since it has no lock of its own (`Model/Pinned.lean`) | invariant over all interleavings for each mailbox; traces for the race, the limit, the late sender and the thread that never ends |
| C69 | the socket in the kernel, the receiver on the io thread, `tcp_remote` with its mailbox and the handlers (`Model/Tcp.lean`) | invariants over all interleavings, with the assumptions on the kernel as predicates on the steps; witnesses |
| C70 | the socket in the kernel, the receive operation with its reused buffer, `udp_remote` with its mailbox, and the handler (`Model/Udp.lean`) | invariants over all interleavings; witnesses |
| C71 | the recursion on indices, functors with state, the order of evaluation as a parameter (`Model/Tuple.lean`) | induction on the index; witnesses |
| C72 | builder, `cmd_config`, `cmd_value`; TCLAP as a parameter (`Model/Cmd.lean`) | induction over the arguments added, sorted maps; witnesses |
| C73 | the dispatcher with its map of alternatives (`Model/Cmd.lean`) | refinement of the history; witness |
| C74 | whole-vector members over the heap of C19 (`Model/VectorObjs.lean`), programs over variables (`Props/C74_VectorObjsSpec.lean`) | ownership invariant (each block has one owner), simulation of the program on values |
| C75 | size deduction, recursive copy and clean-up over the heap of C19 (`Model/VectorFrom.lean`); meaning of a nested list in `Props/C75_VectorFromSpec.lean` | induction over the levels: what is copied is one sequence of values, ended by the list or by the refusal |
| C76 | construction from views, recursive and plain copies (`Model/VectorFrom.lean`) over the heap of C19 and the addresses of C14 | induction over the dimensions; C15 for the plain copies; `push_back` and `insert` shown equal to those of C19 |
| C77 | macros as declarations of overloads, overload resolution through the bases of `meta::number`, manager and registration with failing allocations (`Model/Reflection.lean`) | invariant over the macros: which overloads are declared; invariant over calls: what the map holds |
| C78 | buffer of 2049 bytes with checked accesses, `snprintf` by its contract, `int` arithmetic with overflow as undefined (`Model/Logger.lean`) | shape of the buffer after each print: cut text, zero byte, rest |
| C79 | threads inside `receive` as idle / waiting / woken, critical sections as atomic actions, arbitrary clock readings (`Model/Inbox.lean`) | invariant over executions: record of events well formed, queue = accepted minus handed out, messages ≤ awake threads while one sleeps |
| C80 | template instantiation as partial functions, types as a small syntax tree (`Model/TypeTraits.lean`) | arithmetic of the limits for each width; induction over types and packs; cases over callables |
| C81 | programs over shared memory, pointers as byte distances, rows pointing into the descriptors of their view (`Model/ArrayNd.lean`, on `Model/Views.lean`) | refinement to a specification in which views and rows are fixed positions, by induction over programs |
| C82 | A heap of reference-counted objects (documents, backends, values made by `new`, resident backends) and variables holding configs and entries; every use of an object with count zero is undefined behaviour | Invariant: each count is the number of pointers to it from variables and living objects, pointers go to older objects; simulation of a specification whose variables hold immutable trees; reachability by induction from the newest object. |
| C83 | Systems, contexts, cells with mailboxes and reference variables; executors reduced to the actions handle, close and free of the environment; null and dangling pointers are undefined behaviour | Simulation of a specification whose variables name actors by number; invariant: a reference with a mailbox has the path and the system of its cell, no user path is the dead-letters path; order by prefix induction over the specification. |
| C84 | Iterators with backend, index and size, 64-bit arithmetic with overflow undefined, assertions evaluated only in debug builds | Simulation of a specification over integers and lists, step by step; loops by induction on the rounds. |
| C85 | A pool of mailboxes of the Mailbox model with one FIFO queue of tasks and a number of threads | An invariant naming the only working task and its count; a potential (messages the running turns may still hand out) for the pool bound. |
| C86 | The cells of the ActorCell model with their mailboxes, one step per taken message, per call, per message sent and per closing of a mailbox | An invariant of 22 clauses over the tree kept by every step; a potential that drops in every step of an executor; induction over the tree from the leaves for stopping. |
| C87 | Classes as trees of bases with paths as subobjects and the rules of dynamic_cast, variables of the three wrappers over objects that can be destroyed | Paths enumerate subobjects; invariants of the variables by induction over programs; any_ptr against the history of assignments. |
| C88 | One step per access to the static pointer and per call of the creator, any number of threads | An invariant kept by every step: at most one thread is creating, and then no other is in a call. |
| C89 | The callback that is set and the number of locks in scope | Induction over the statements from the end. |
| C90 | The two implementations, their constructors and accessors; the layout according to the Itanium ABI | A simulation between the variables and pairs of values; arithmetic of rounding up for the layout. |
| C91 | The members that are visible in the chain of classes, and overload resolution with ranks of conversions | Induction over the cases: the visible members are the last cases of each type. |
| C92 | Both storages, with the flag and with the pointer only, the choice of the constructor, and all operations | A simulation between the storages and options, statement by statement; induction over the nesting for flatten. |
| C93 | The overloads of read and get_text_stream_content over a model of std::istream with position and state | Case analysis over the stream and induction over the text. |
| C94 | has_property of all backends on numbers, with their size and find | One lemma for configs that are lists of entries, to which each backend is reduced; invariants of the containers for unique names. |
| C95 | which special members the class declares, those the compiler adds (C++14 12.8), programs with objects as numbers | Case analysis on the traits; an invariant (each object belongs to one variable) over all programs, and for the converse a program for each bad list. |
| C96 | the constructors of views, dimensions and strides as each container reports them, on the descriptors of C11-C15 | Induction over the dimensions: each way gives the dense descriptors, or those of the proxy up to the size of the whole. |
| C97 | containers as the set of their methods and answers, the overloads of container_ops, dimensionality | Case analysis on the methods; induction over the extents. |
| C98 | trees of adaptors over positions, each operator with the operators of the underlying iterators it is written with | Induction over the tree of adaptors and over the history of moves. |
| C99 | programs over iterator variables with positions and caches; both classes, both policies, converting constructors | Simulation of a machine with positions only, by induction over the program; the loops by induction. |
| C100 | small-step threads over maps with mutex owners, calls with begin and end, data races as undefined behaviour | Invariant: each thread owns what it accesses; simulation of the sequential specification by the log; a maximal lock for progress. |
| C101 | small-step threads, calls with begin and end, one atomic access each; copying one attribute at a time; data races as undefined behaviour | Invariant with the log; each answer is explained by the sequential state at its end, a copy by the states during it. |
| C102 | heap of C19/C74 with blocks and live slots; a row is a pointer, an offset and a pointer to the descriptors inside a vector object with a lifetime; programs with handle variables | Refinement to handles that follow the holder of the elements; freed blocks are never used again; storage is replaced exactly when the capacity changes. |
| C103 | IEC 60559 numbers as a sign and a natural number of units of 2^-1074; rounding to nearest even in any binary format; strtod and %f as functions on character lists; converters of config_backend.h | Rounding gives a nearest element of the format, by cases on the spacing; the text grammar is matched in both directions with the longest-prefix parser; half a millionth is below a quarter of the spacing from 2^34 on. |
| C104 | memory after the pointer as a list of characters with an end, beyond which reading is undefined; details::decode with the C functions of C56 and C103 that need a zero byte; serializer::cvt_from for scalars | Case analysis over decode with the longest-prefix lemmas of C56 and C103; equality with the model for strings if the zero byte follows; case analysis over the types. |
| C105 | to_vector, to_map and to_multimap over the interface of any backend, with any function for reading a value; value, object, array and flag by path and by index, and cvt, for configs made in the program and the types of C63 | A config that is truthful (C94) is a list of entries; induction over it for the loops, with the lemmas on emplace of C63; splitting of paths at a separator for joined paths. |
| C106 | the listener with its mailbox, its acceptor on the io thread, the actors of the connections as its children, the watched server, and peers that connect and reset | Invariants by induction over executions; connections counted by place for the accounting; a measure of the remaining work for termination, and the states without own steps for what is told and closed in the end; an invariant of the hanging listener for the negation. |
| C107 | programs that construct, copy, increment, dereference and compare token iterators over several sequences, with the splitting of C03 | Simulation between the iterators of the model and indices into the list of tokens by induction over programs; states after k increments are pairwise different because their remaining tokens are. |
| C108 | containers given by what their operators, methods and iterators hand out, the flags deduced from these, and the overloads that the flags enable | Case analysis over the operators and methods that are present. |
| C109 | formats of float, double and three kinds of long double over the arithmetic of Reals, static_cast between them, the assertions of float_cast and of the literals, narrow_cast of Numeric | Rounding is exact on numbers of the format and nearest otherwise; formats are nested, so a result is converted back to itself. |
| C110 | the types that the accessors of the five classes, of iterators, ranges and pointers give, with the right to write and constness; chains of calls | A predicate on types that excludes writing is kept by every call, so by every chain; paths to an element by induction over the dimensions. |
| C111 | dimensionality with the arithmetic of its size type (promotion, wrapping, overflow as undefined); the descriptors, storage size, reshape and indexing of vector_nd in size_t | Induction over the extents; products of suffixes are bounded by the whole product; conversions to the common type by the ranges of the types. |
| C112 | how a sampler class declares its members, whether the traits find and can call them, the functions that result (those of the model of samplers of C16) and what kind of result load returns | Case analysis over declarations; the default comparison in size_t is shown to be the range check by conversion lemmas; reading reuses the lemmas of C16. |
| C113 | the two overloads of invoke: when each takes part, which is chosen, and the object on which the method is called or the null pointer that is dereferenced | Case analysis over the kinds of arguments, for an arbitrary relation of derived classes. |
| C114 | the allocator and the block of each vector, the arena and size of each block, and the allocations and deallocations of every member that creates, copies, moves, assigns, swaps, reshapes, grows, shrinks or destroys a vector; a block returned to another arena, twice or with another size is undefined behaviour | An ownership invariant (every block belongs to one vector with its arena and size, no other block is allocated, unused blocks are free) by induction over programs. |
| C115 | the allocator and the block of each array, the arena and size of each block, and the allocations and deallocations of every member, over the memory of the model of C114; a block returned to another arena, twice or with another size is undefined behaviour; a move can throw | An ownership invariant by induction over programs; that all memory belongs to an array is a second invariant, kept by all operations but the move assignment to an array that has memory. |
| C116 | memory as objects at pointers (block, offset), the loops of all functions with undefined reads and destructions of dead objects, memcpy (undefined on overlap), memmove, and the assertions with pointer differences | A closed form of each loop by induction on the length, equal to memmove where ranges lie properly; a simulation (the objects of the general run are in the trivial run) by induction over programs. |

## 5. Not modelled

Third-party parsers (inih, TCLAP; the json, xml and yaml libraries are parameters that read back what they wrote), sockets and `io`, loggers, RTTI beyond type tags,
memory-model weaker than sequential consistency, wall-clock behaviour (only the ordering decisions based on it),
floating-point lookup tables, and compile-time overload resolution except where named.

## 6. Where the code disagrees with a property

Each line is a theorem that proves the negation on a concrete witness or for a whole class of inputs. The property then has the status
"partial", unless the witness only shows that a stated precondition is needed. What is proved instead is in `MANIFEST.json`.

| id | theorem | what happens |
|---|---|---|
| C06 | `C06_length_overflow_violated` | The hypothesis `Fits` is needed: the length computation of l.68 is not checked for overflow. With 2^61 elements of 8 bytes the product wraps to 0 and a 64-byte block is returned for 2^64 bytes of elements. |
| C08 | `C08_caching_small_violated` | C08 is violated by the caching policy for every small type that is not trivially copyable (a string, a shared pointer): the range cannot even be built without moving a cache that holds no object, whatever the elements and the predicate. |
| C08 | `C08_caching_big_violated` | C08 is violated by the caching policy for every type larger than 64 bytes: the range can be built, but every loop over it copies the end iterator, whose cache is a null pointer. |
| C08 | `C08_caching_reverse_violated` | Reversing a range filtered with the caching policy dereferences a dangling reference. |
| C09 | `C09_zip_unequal_violated` | C09 is violated for ranges of different lengths: no loop over the zipped range ends; it reads past the shorter one. |
| C10 | `C10_checked_minus_negative_violated` | In a checked build subtracting a negative offset from an `int` iterator overflows inside the assertion, for every position. |
| C10 | `C10_reverse_violated` | C10 is violated for reversed numeric ranges: a reverse iterator returns a reference into a temporary numeric iterator, for every non-empty range (also through `fold_right`). |
| C10 | `C10_reverse_zip_violated` | C10 is violated for a reversed zip of a numeric range with any other range: the tuple of references points into a temporary. |
| C10 | `C10_unsigned_distance_violated` | C10 is violated: the difference of 32 bit unsigned iterators is never negative. |
| C10 | `C10_checked_negative_offset_violated` | In a checked build adding a negative offset to an `int` iterator overflows inside the assertion (undefined behaviour), for every position. |
| C10 | `C10_checked_unsigned_violated` | In a checked build `i + (j - i)` with `j < i` fails an assertion for 32 bit unsigned iterators. |
| C100 | `C100_relock_violated` | A thread that asks for a lock it holds, for example in a function that is called under the lock: undefined behaviour. |
| C100 | `C100_validator_violated` | A validator is said not to be propagated. Without a mutex it is, by every copy and assignment. |
| C100 | `C100_move_violated` | A map without a mutex that was moved from still has its attributes: it was copied. |
| C100 | `C100_class_violated` | A class with another validator and a mutex can be neither copied nor moved nor assigned, and only the default class can be swapped: such programs do not compile. |
| C101 | `C101_copy_violated` | A copy made while another thread sets two attributes may have the old value of the one that was set first and the new value of the one that was set afterwards: it never was so. |
| C101 | `C101_clear_violated` | Reading an attribute while another thread clears it. |
| C101 | `C101_register_violated` | Reading an attribute while another thread registers some attribute. |
| C102 | `C102_throw_violated` | "In the case of exception the vector remains unchanged" (vector_nd.h l.1680-1683) is not true of its storage: if the copy of the new row throws after the elements were moved to a larger block, the vector shows what it showed before, but all its rows, iterators and pointers dangle. |
| C102 | `C102_swap_violated` | Swapping two vectors does not leave their rows valid, although no element is moved: a row shows the sizes of the *object* it was taken from, which are now those of the other vector. It may show another shape, or reach behind the elements. |
| C102 | `C102_move_violated` | A row of a vector that was moved to another one dies with the *old* object, although its elements live on in the new one. |
| C103 | `C103_integer_violated` | There is an integer that is read as another number. |
| C103 | `C103_range_violated` | Reading infinity, NaN, or a number from 2^63 on as an integer is undefined behaviour. |
| C103 | `C103_text_violated` | 2^-30 is written as `0.000000`, which is read as zero. |
| C103 | `C103_blank_violated` | Text of blanks is read as zero. |
| C103 | `C103_long_double_violated` | Putting and reading a `long double` is undefined: the converter returns a reference to a temporary. |
| C103 | `C103_float_inf_violated` | An infinite `float` and a NaN can be put, but reading them fails an assertion in debug builds. |
| C103 | `C103_optional_float_violated` | A `float` can be put, an optional `float` cannot: the call does not compile. |
| C104 | `C104_length_violated` | Characters after the given ones are read too: the first two characters of `123` spell 12, the first one of `yes` is a word, and the first three of `12` with two blanks spell 12, but none is read. |
| C104 | `C104_terminator_violated` | Without a zero byte behind the characters the call is undefined, although there are as many characters as the length says. |
| C104 | `C104_blanks_violated` | It is also undefined if there are more blanks than the length says. |
| C104 | `C104_empty_violated` | An empty C string is read as zero, unlike an empty string. |
| C104 | `C104_agree_violated` | One and a half is converted to the integer one but not read as an integer, and two is read as a boolean but not converted to one. |
| C105 | `C105_default_comparator_violated` | The default comparator compares values of type `T`, not keys: `config.to_map<int>()` does not compile, the user has to give `std::less<std::string>`. |
| C106 | `C106_hangs_violated` | A peer that resets its connection after it was accepted and before its actor starts keeps the listener from ending for ever: the server has terminated, the listener has learned it, and the program has nothing left to do; but the socket goes on listening whatever happens later. No address is used twice. |
| C106 | `C106_untold_violated` | A peer connects from the address of a connection whose actor has not started yet. When the second connection ends, the first one is closed instead: its peer was accepted and did not reset it, but the server is never told of it; the second one stays open. |
| C106 | `C106_orphan_violated` | A server that dies before it has handled the message that it is watched leaves the listener behind: it goes on listening, and nobody is told. |
| C106 | `C106_order_violated` | The server may be told of the peers in another order than that in which they connected. |
| C107 | `C107_postfix_violated` | `*v++` and `w = v++` do not give the old position: the operator returns a reference to a local variable. |
| C107 | `C107_equal_settings_violated` | Iterators over the same characters, split differently, may be equal although what follows is not: with `skip_empty` and without, both are equal at the first token of `a,,b;c,` and differ after `++`. |
| C107 | `C107_moved_violated` | The constructor moves `first` twice. With underlying iterators that a move changes the construction is undefined, or the whole sequence becomes one token in spite of its separators. |
| C108 | `C108_const_violated` | The full property is false: for a container whose operator `[]` is not for `const` containers, `subscript` of a `const` container does not compile at any index, although its iterators reach the elements, and `csubscript` does. The flag that is asked is that of containers that are not `const` (container_nd.h l.627, 633). |
| C108 | `C108_cdata_violated` | Nor is it true that the pointer from `cdata` cannot be written through: that of an `array_view` can, as its `const_value_pointer` is a constant pointer to elements that are not `const` (array_view.h l.370, and array_proxy.h l.74, 447). |
| C109 | `C109_nan_violated` | NaN is a value of all types, yet a checked cast refuses it: NaN is not equal to itself (types.h l.70). |
| C109 | `C109_beyond_violated` | A number that is beyond all numbers of the other type is not refused: to find out, it is converted (types.h l.70), which is undefined. |
| C109 | `C109_least_violated` | The least number of a signed type cannot be written: the digits alone are too large. With checks, this is refused; without, the result is another number or is undefined. |
| C109 | `C109_nearest_violated` | The literal `_f32` does not always give the nearest number, because it is rounded twice: to `long double`, which here is just the middle of two numbers, and then to `float`. |
| C11 | `C11_backward_violated` | C11 is violated for every backward distance over rows of at least two bytes: the result is never negative. |
| C11 | `C11_empty_rows_violated` | The distance of iterators over empty rows divides by zero. |
| C110 | `C110_cdata_violated` | The pointer from `cdata()` can be written through, for views and proxies: `const_value_pointer` is a constant pointer, not a pointer to `const` (array_view.h l.370, array_proxy.h l.74, 447). |
| C110 | `C110_cbegin_violated` | `cbegin()` and `crange()` of a view with several dimensions give rows that can be written: its `const_iterator` is its `iterator` (array_view.h l.46). |
| C110 | `C110_range_violated` | `range()` and `crange()` of a vector with several dimensions do not compile: they are declared to give ranges of plain iterators, and return ranges of rows (vector_nd.h l.1334-1345). Nor does `erase` of a range, for any vector: it uses a function `last` that a range does not have (l.1956-1959, 3138-3141). |
| C110 | `C110_at_violated` | `at` of a proxy with several dimensions is undefined behaviour for all indices: there is no return statement (array_proxy.h l.164-169). |
| C110 | `C110_crange_violated` | `crange()` and `plain_crange()` of a proxy whose elements are not `const` do not compile: they return ranges of iterators for writing (array_proxy.h l.373-384, 719-730). |
| C110 | `C110_row_violated` | The accessors of a `const` row of an array disagree: through `begin()` and `data()` it cannot be written, through `[]` and `plain_begin()` it can (array_nd.h l.151-156, 210-214, 268-271, 299-302). A copy of the row can be written by all. |
| C110 | `C110_convert_violated` | An iterator of an array does not convert to a `const_iterator` (`sub_array` has no such conversion, array_nd.h l.137-149), as that of a vector does; nor does a view convert to a proxy, as its conversion operator returns a proxy with `const` elements (array_view.h l.472-475, 128-131), and with one dimension for no elements (l.275-278). |
| C111 | `C111_total_zero_violated` | The total is a number of the type, namely zero, but computing it overflows. |
| C111 | `C111_total_small_violated` | An unsigned type narrower than `int` does not wrap: the product is computed in `int` and overflows. |
| C111 | `C111_total_start_violated` | From the dimension past the last on there are no extents, the product is 1; what is given is the last extent. |
| C111 | `C111_total_none_violated` | The total size of no dimensions is 0, so the total size is not the first extent times the total size of the others if there is one dimension. |
| C111 | `C111_equal_violated` | Different extents that compare equal. |
| C111 | `C111_transitive_violated` | Two extents equal to a third are not equal to each other. |
| C111 | `C111_vector_violated` | A vector of 2^32 times 2^32 elements is made with storage for none. Its indices are in range and no assertion fails, but there is no element. |
| C111 | `C111_reshape_violated` | A vector without elements is reshaped to one of 2^32 times 2^32. |
| C112 | `C112_other_type_violated` | A function that returns another integer type than `size_t` is passed over without a word: the element read is not the one it says. |
| C112 | `C112_lvalue_violated` | Likewise one that is declared for lvalues only, on an lvalue. |
| C112 | `C112_not_template_violated` | Likewise one that is not a template over the dimension. |
| C112 | `C112_not_const_violated` | A function that is not const works with a sampler that is an lvalue, and does not compile with one that is made by `load` or is an rvalue, although that is not const either. |
| C112 | `C112_dangling_violated` | A function for values that returns a value, in a class without `return_type`: `load` gives a reference to what is gone. |
| C112 | `C112_values_violated` | The same with `sampler_default` and a container that gives its elements as values (one of the generic category, which is read by its subscripts, container_nd.h l.996-1014). |
| C113 | `C113_rvalue_violated` | `yato::invoke(Foo(), &Foo::bar)` with `void bar() &&` is allowed directly, and does not compile. |
| C113 | `C113_pointer_like_violated` | An object by another pointer-like class, such as `yato::not_null`, is not reached: neither is `obj` a pointer nor has it the method. This holds of each method, so that it is no matter of reference qualifiers. |
| C113 | `C113_temporary_violated` | `yato::invoke(Foo(), &Foo::bar)` with `void bar() &`, which changes the object in place and cannot be called on a temporary, compiles. |
| C114 | `C114_copy_assign_violated` | `v = w` returns the memory of `v` to the arena of `w`. |
| C114 | `C114_view_violated` | `v = view` returns the memory of `v` to the default arena, though only one vector is there, with its own allocator. |
| C114 | `C114_later_violated` | An assignment to an empty vector succeeds, but its memory is now the one of another arena: the destructor is undefined. |
| C114 | `C114_pocma_violated` | Assigning a vector that is moved replaces the allocator, though `propagate_on_container_move_assignment` is false. |
| C114 | `C114_reshape_violated` | A copy by `reshape` draws from the default arena, though a copy of the vector would draw from the one of the vector. |
| C115 | `C115_move_violated` | An array of two elements from arena 5 is to be moved to a new one (l.136-139). |
| C115 | `C115_kept_violated` | The target of a move assignment has memory, which nobody returns (l.84-96), also if all allocators are equal. |
| C116 | `C116_two_blocks_violated` | In debug builds a copy of trivial elements from one block to another, as when a vector grows, is undefined, however long it is: the assertion subtracts pointers to different arrays (l.50, 395). |
| C116 | `C116_debug_violated` | So the property is false in debug builds: two elements are copied from block 0 to block 1. |
| C116 | `C116_doc_violated` | "dst_first must not belong [src_first, src_last)" (l.291, 357) is met by a copy of two elements one place to the left. The loop does it; the shortcut is undefined. |
| C116 | `C116_right_violated` | The assertion of `transfer_to_right`, that the last place of the target is behind the first of the source (l.437), lets through a transfer of three elements to the left: the loop writes the last element three times, the shortcut does not. |
| C14 | `C14_byte_stride_check_violated` | The check of the byte stride constructor (`extents[i] <= strides[i-1]`, array_view.h l.77, 80) compares a number of elements with a number of bytes: it accepts strides with which different elements overlap. |
| C15 | `C15_overlapping_rows_violated` | Without the hypothesis on the rows the answer may be wrong: three dimensions, byte strides whose inner rows overlap the next. |
| C16 | `C16_wide_index_violated` | C16 is violated for an index of 2^32 passed as a 64 bit integer: it is narrowed to 0, so the zero sampler reads element 0 and the clamp sampler the first instead of the last element. |
| C16 | `C16_clamp_empty_violated` | C16 is violated for an empty dimension: the clamp sampler reads outside the (empty) container. |
| C17 | `C17_rounded_samples_violated` | C17 is violated even for tables starting at 0, because sample arguments are rounded down but the query is not: argument 7 in a table of 7 samples over [0, 17] gets the sample taken at 5 although another was taken at 8. |
| C17 | `C17_nonzero_first_violated` | C17 is violated for tables that do not start at 0: a valid query reads outside the table. |
| C18 | `C18_rounded_sample_violated` | C18 is violated at samples whose argument was rounded: the table of 4 samples over [0, 10] has a sample at 3 but the query at 3 does not return it. |
| C18 | `C18_negative_first_violated` | C18 is violated for negative `first` when `N - 1` is not a power of two: the samples are taken at wrong arguments. |
| C18 | `C18_negative_values_violated` | C18 is violated for negative values: the mean is computed with unsigned numbers. |
| C19 | `C19_empty_rows_violated` | C19 fails for rows without elements: after `resize(3)` of an empty vector there are three (empty) rows; adding a row of another shape is accepted instead of rejected and leaves one row instead of four. |
| C19 | `C19_push_empty_rows_violated` | The same with rows that are pushed: of two empty rows only one is counted. |
| C19 | `C19_assign_nothing_violated` | Assigning nothing to a vector without storage violates a contract (`default_capacity_policy::increase` requires growth), and so does copying an empty vector (it asks for a block of no elements). |
| C21 | `C21_insert_alloc_violated` | C21 fails when the allocation in `insert` throws: the size becomes zero although both elements are still alive. Destroying the vector then loses them, and adding an element constructs it over a live one. |
| C22 | `C22_self_push_violated` | C22 fails at full capacity: the argument refers to the old block, which is freed before the copy is made. |
| C25 | `C25_insert_middle_violated` | C25 fails for every insertion before the end: the ranges given to `std::move` overlap in the way the standard forbids. |
| C25 | `C25_insert_overrun_violated` | C25 fails when there is room for the new elements but not for twice as many: cells behind the buffer are overwritten. Here the buffer has four cells, three are used, one is inserted; the cell behind the buffer holds 99 before and 8 afterwards. |
| C25 | `C25_insert_outside_violated` | If the memory ends with the buffer, the access is outside. |
| C25 | `C25_erase_violated` | C25 fails for every erasure with a tail longer than what is erased (in particular for erasing one element before the last two): the ranges given to `std::move_backward` overlap in the way the standard forbids. |
| C26 | `C26_move_assign_violated` | C26 fails: move assignment leaks. The elements of the target are never destroyed, its block never freed: after both arrays are gone, block 0 still holds a live 7. |
| C26 | `C26_assign_alias_violated` | C26 fails: `x.assign(n, x[k])` destroys the element before copying it, for every array and every `n > 0`. |
| C26 | `C26_assign_list_violated` | C26 fails: `x = {...}` always ends in undefined behaviour, if it does not throw. |
| C26 | `C26_throw_assign_violated` | C26 fails when an element constructor throws in `assign`: the destructor of the array then destroys elements that were never constructed. |
| C26 | `C26_throw_ctor_violated` | C26 fails when an element constructor throws in a constructor: what was constructed is never destroyed, the block never freed. |
| C26 | `C26_size_violated` | After an `assign` that failed to allocate, `size` reports elements that do not exist, `at` reads through a null pointer, and `clear` does not help. |
| C27 | `C27_swap_violated` | C27 fails for `swap`: exchanging any optional that holds a value with any empty one loses the value; both are empty afterwards. |
| C28 | `C28_move_violated` | Two objects are constructed: the one of the source (0), and the one moved into the target (1). The source reports the index 255 after the move although its object is alive, and only the second object is ever destroyed. |
| C28 | `C28_move_assign_violated` | The same for a move assignment: of the objects 0 and 1, the object 1 of the source is never destroyed. |
| C28 | `C28_valueless_violated` | A variant that has become valueless, by a move or by an exception, cannot be assigned to, emplaced into, copied, moved or asked for its type: each of these is undefined. |
| C29 | `C29_copy_violated` | A copy of a variable that is not const, by `any x(y)` or `x = y`, does not hold a value equal to the one of `y`: it holds an `any` with such a value, and `get` for the type of the value throws. |
| C30 | `C30_const_violated` | A case `T&` for a const value is passed over without an error, although it is the first case of the stored type: the default case is called. |
| C30 | `C30_valueless_violated` | A match of a valueless variant reads outside of the table of its alternatives. |
| C32 | `C32_twice_violated` | A moved-from guard that is moved again gives an owner of the action, if this still works: it runs twice. |
| C32 | `C32_assign_violated` | Every move assignment between guards that compiles is undefined (for a lambda, which cannot be assigned, it does not compile). |
| C32 | `C32_named_violated` | No guard can be made from a variable that holds the action: `auto f = [...]{...}; auto g = make_finally(f);` does not compile, whatever the class of `f`. |
| C32 | `C32_move_only_violated` | No guard can be made for an action that cannot be copied, such as a lambda with a `std::unique_ptr`, though it is moved in. |
| C33 | `C33_validator_violated` | An attribute that the validator rejects is stored, and the answer says that it was accepted. |
| C33 | `C33_any_violated` | An attribute that is set to a variable of type `any` cannot be read with the type that this has. |
| C34 | `C34_clear_violated` | After `clear`, setting an attribute to a value of its registered type throws, whatever the state: it can never be set again, and copies throw, too. |
| C34 | `C34_register_violated` | Registering an existing key answers `false` but replaces the value; with another type the attribute cannot be read or set with the type it was registered with, nor be set with the new one. |
| C35 | `C35_reverse_violated` | The reverse of the empty list does not compile. |
| C35 | `C35_merge_violated` | Merging two empty lists does not compile. |
| C35 | `C35_sizeof_violated` | With `void` twice the program does not compile. |
| C36 | `C36_slashes_violated` | A name of slashes only is accepted by the constructor, but parsing the path fails. |
| C36 | `C36_prefix_violated` | Parsing a proper prefix of `yato://` reads at the end of the string. |
| C40 | `C40_use_after_free_violated` | C40 is violated: an execution ends with an access to the destroyed cell. |
| C40 | `C40_runs_after_stop_violated` | C40 is violated: a stopped actor with a closed mailbox processes another system message. |
| C41 | `C41_zero_workers_violated` | A pool of zero workers accepts a task, and its destructor returns although the task never ran. |
| C41 | `C41_throwing_task_violated` | A task that throws makes the worker use the logger that was never created. |
| C41 | `C41_enqueue_during_drain_violated` | A task that submits another task while the pool is being destroyed hits the same null logger. |
| C42 | `C42_fifo_violated` | C42 is violated: events 1 and 2 have the same due time, 1 is submitted first, 2 runs first. |
| C44 | `C44_failed_start_violated` | C44 is violated by a failing `pre_start`: the watcher is never told. |
| C44 | `C44_lost_watch_violated` | C44 is violated for a `watch` between the end of an actor and the destruction of its cell: actor `2` watches actor `1` after `1` has run its `post_stop`; when everything has come to rest, `2` is running and was never told. |
| C45 | `C45_failed_start_violated` | C45 is violated: a failing `pre_start` closes the actor without `detach_child` to its parent, so the parent keeps the child for ever and can never stop. |
| C45 | `C45_stop_before_attach_violated` | C45 is violated: an actor that is stopped before its parent has attached it (`m_parent` is still null) closes without `detach_child` as well; the parent attaches the dead cell afterwards and keeps it for ever. |
| C45 | `C45_failed_start_hangs_violated` | C45 is violated when a child's `pre_start` fails: the child closes without telling its parent, and a parent told to stop waits for ever although it has no running child. |
| C45 | `C45_stop_before_attach_hangs_violated` | C45 is violated when an actor is stopped right after its creation, before its parent has attached it. |
| C46 | `C46_same_name_violated` | C46 is violated for two children of the same name: the second child (cell 2) stops and its `detach_child` destroys the first one (cell 1), which is still running. |
| C46 | `C46_same_name_destroys_running_violated` | C46 is violated for two actors of the same name: stopping the second one destroys the first, which is running. |
| C47 | `C47_prefix_violated` | Different prefixes can give the same name. |
| C47 | `C47_race_violated` | Two callers at the same time can get the same name, for the same prefix. |
| C48 | `C48_second_violated` | A second context is never used, although an actor asks for it. |
| C48 | `C48_unknown_violated` | An unknown name is not reported, and neither is an unknown default context. |
| C51 | `C51_copy_spent_violated` | Copying a builder that has created its config is undefined. |
| C52 | `C52_root_violated` | The full property fails for a path without names: the value is stored under the empty name, which no path reaches. |
| C52 | `C52_multimap_violated` | In a multimap the second entry of the name becomes null, though only the first one is reached by the path. |
| C53 | `C53_scalar_violated` | The full property fails above the path: a value that is not a config is replaced by a null config. |
| C53 | `C53_array_violated` | A path through an array, where there is nothing to remove, throws. |
| C54 | `C54_dot_violated` | An entry whose name has a separator is lost. |
| C54 | `C54_dot_throws_violated` | If both have it, merging throws. |
| C54 | `C54_multimap_violated` | The second value of a name of a multimap is replaced by a second copy of the first. |
| C54 | `C54_conflict_violated` | If one has an object and the other another value, the paths below the object may be lost. |
| C56 | `C56_blank_violated` | A string of blanks decodes to zero though it has no literal. |
| C56 | `C56_overflow_violated` | The literal `2^63` decodes to another number. |
| C56 | `C56_ub_violated` | A byte over 127 gives undefined behaviour. |
| C57 | `C57_nested_violated` | For a nested path the iterator of `find` points to another entry. |
| C60 | `C60_multimap_violated` | The values under equal keys are lost, except the first. |
| C60 | `C60_order_violated` | With the order chosen by the root, an ordered object in an array, or in an unordered object, loses its order. |
| C60 | `C60_null_violated` | A null config is read back as a config that is not null. |
| C60 | `C60_unsigned_violated` | A number above 2^63 - 1 in a document is read as a negative integer. |
| C61 | `C61_multimap_violated` | Of values under equal keys the config gives the first, but the written YAML has the last. |
| C61 | `C61_order_violated` | An ordered object is read back as one that does not keep the order. |
| C61 | `C61_null_violated` | A value that cannot be read, here a null config, is read back as an empty object. |
| C61 | `C61_type_violated` | A boolean is read back as a boolean, but no longer as an integer. |
| C62 | `C62_array_violated` | An array is read back as an object with entries `i`. |
| C62 | `C62_zero_violated` | A string with a zero byte is cut. |
| C62 | `C62_root_violated` | A document without a root element gives a config that is not null, and looking up a name in it has undefined behaviour. |
| C63 | `C63_vector_violated` | Empty optionals in a sequence are lost. |
| C63 | `C63_nested_violated` | An empty optional inside an optional gives an exception, a null pointer inside an optional has undefined behaviour. |
| C63 | `C63_narrow_violated` | An integer out of the range of the type is read as another number. |
| C64 | `C64_default_violated` | A default-constructed storage can be destroyed on the heap, but destroying it on the stack has undefined behaviour. |
| C64 | `C64_assign_violated` | On the stack an assignment whose copy throws leaves the variable without an object; its destructor has undefined behaviour. |
| C64 | `C64_swap_violated` | The same for `swap`. |
| C64 | `C64_copy_violated` | Copying an empty storage on the heap, one that was moved from or default-constructed, dereferences a null pointer. |
| C65 | `C65_race_violated` | Starting two threads races. `execute` has no lock of its own, so two senders that start the threads of two different actors at the same time modify the executor's vector of threads at the same time. |
| C65 | `C65_limit_violated` | Threads that ended still count. With a limit of one thread, the thread of an actor that has stopped and gone is not replaced: the next actor gets no thread, and its message stays in the mailbox, with no thread and no sender that would ever look at it. |
| C65 | `C65_late_sender_violated` | A late sender. Without the hypothesis that the mailbox is open, `C65_safe_partial` is false: a slow sender may look for work through an actor that was destroyed. |
| C65 | `C65_join_violated` | The executor may never be destroyed. A sender that is late starts a second thread for an actor that has stopped; the thread handles the left-over message and waits for more, but the mailbox is closed. In every continuation the thread is still there, so that the destructor of the executor, which joins its threads, does not return. |
| C66 | `C66_ext_violated` | Who stops the guardians `user` and `remote` by their references shuts the whole system down, though nobody requested it. |
| C66 | `C66_order_violated` | If somebody stops the guardian `system` by its reference, it stops while user actors run. |
| C67 | `C67_early_timeout_violated` | If the timeout ends before the asking actor was started, its future is broken: `get` throws. |
| C67 | `C67_early_timeout_find_violated` | The same for `find`. |
| C67 | `C67_shutdown_violated` | When the guardian of temporary actors is stopping, the cell of a new asking actor is destroyed at once (C66, `G.attach`; actor.cpp l.224-227), without any message: its future is broken, and not null. |
| C67 | `C67_uncopyable_violated` | A reply that cannot be copied is lost: the caller gets the null value, though there was a reply. |
| C68 | `C68_twins_violated` | When two siblings have the same name, only the first is searched: the child `b` of the second one is there all the time and not found. |
| C68 | `C68_other_system_violated` | The name of the system is not looked at: the path of an actor in another system finds the actor with the same scope and names here. |
| C69 | `C69_short_read_violated` | Short reads. The buffer is told as it was allocated, not as it was filled: if a read gives fewer bytes than were available, as POSIX allows, the handler is told bytes that nobody has sent. |
| C69 | `C69_spurious_violated` | Spurious readiness. A socket that is reported readable without having data ends the connection: the handler is told that the peer has closed it, though the peer has not. |
| C69 | `C69_short_send_violated` | Short sends. The socket does not block, so that a send may take only the beginning of the data; the rest is dropped, and the next write goes on after the gap. |
| C69 | `C69_orphan_violated` | A handler that dies early. If the handler has died but its mailbox still exists when it is assigned, or if it dies before it has handled the request to be watched, nobody tells `tcp_remote`: the connection stays open without a handler, and no message is on its way that would close it. |
| C69 | `C69_bind_violated` | A failed bind. An address that does not resolve is undefined behaviour instead of `command_fail`; an endpoint that cannot be opened, for instance because it is in use, is reported as bound. |
| C70 | `C70_freed_violated` | A datagram arrives between the destruction of the receiver and the closing of the socket: the reactor writes the address of the sender into freed memory. |
| C70 | `C70_orphan_violated` | Nobody watches the handler of a UDP binding: after its death the socket stays open and the port taken. |
| C70 | `C70_bind_violated` | A port in use: no answer. (And a free one: the socket accepts datagrams on every interface, not on the host asked for.) |
| C71 | `C71_transform_violated` | A functor that numbers the elements: with a compiler that evaluates from right to left (as gcc and msvc do in many cases) the numbers are reversed. |
| C71 | `C71_rvalue_arg_violated` | `tuple_transform(tuple, functor, std::vector<int>{1, 2})` with a functor that takes the vector by value: the first call moves it away, and the second gets an empty one. |
| C72 | `C72_used_violated` | `set_ostream` dereferences the null pointer. |
| C72 | `C72_unreadable_violated` | `--num abc`, for an integer with the default 7: parsing succeeds, and the argument is there, but has neither a value nor its default. |
| C72 | `C72_exit_violated` | A required argument is missing: TCLAP ends the program. |
| C73 | `C73_again_violated` | Two command lines with the same first argument: the builder was used, and `set_ostream` dereferences null. |
| C74 | `C74_empty_copy_violated` | C74 fails for empty vectors of one dimension: copying one, assigning from one, and reshaping an empty vector to one dimension ask for a block of no elements, which violates a contract of the library (a debug build stops). |
| C75 | `C75_no_elements_violated` | C75 fails without elements: the form of a nested list is checked only while elements are copied, so a list of lists of different lengths is taken when there is no element at all; and with one dimension the empty list violates a contract of the library. |
| C76 | `C76_overlapping_violated` | C76 fails for views whose rows overlap, which the constructor from byte strides does not refuse (it compares a stride in bytes with an extent in elements): `continuous()` may then be true of a view whose elements are not consecutive, and the vector gets other elements than the view shows. Here: 2 x 2 x 2 elements of 4 bytes with rows at a distance of 4 bytes and planes at a distance of 16. And with one dimension an empty view violates a contract of the library. |
| C77 | `C77_functions_violated` | False of the code: the list of member functions of a class with a data member and two functions holds the data member, and only one of the functions. |
| C77 | `C77_retry_violated` | False of the code: if memory runs out while the second of two members is registered, then every later call throws, although memory is available again. |
| C77 | `C77_as_ptr_violated` | False of the code: `as_ptr`, documented as an access with a check of the type, gives a pointer to `int` (2) for a member of type `float` (1), and does not compile for any class (3). |
| C78 | `C78_zero_violated` | False of the code: a text with a zero byte (`"%c"` with 0) is written without a newline. |
| C78 | `C78_long_violated` | False of the code: with a text of 2^31 - 1 bytes the sum of the lengths overflows `int`. |
| C79 | `C79_null_means_nothing_violated` | A null answer does not mean that no message came: a message with an empty `any` is taken from the queue and gives the same answer as giving up. |
| C79 | `C79_moved_from_violated` | `receive` on an inbox which was moved from is undefined. |
| C79 | `C79_wait_for_ever_violated` | Waiting "for ever" (`std::chrono::microseconds::max()`) on an empty inbox is undefined. |
| C79 | `C79_poll_violated` | `receive()` can sleep when the clock is set back between its two readings. |
| C80 | `C80_lref_to_const_violated` | For a reference type it does not: `add_lvalue_reference_to_const_t<int&>` is `int&`. |
| C80 | `C80_noexcept_violated` | Under C++17 and C++20 a closure with `noexcept` counts as callable but its signature cannot be found: `callable_trait` does not compile. |
| C80 | `C80_noexcept_pointer_violated` | A pointer to a `noexcept` function is not callable at all. |
| C80 | `C80_const_pointer_violated` | A `const` pointer to a function is not callable, so `make_function` refuses it. |
| C80 | `C80_function_name_violated` | Nor is the name of a function without `&`. |
| C80 | `C80_qualified_violated` | Nor a member function with a reference qualifier, nor a C variadic function. |
| C81 | `C81_continuous_converse_violated` | The converse does not hold: a view made from a row of a padded view has no gaps but does not answer that it is continuous. |
| C81 | `C81_row_after_view_violated` | Rows are not values: a row used after its view has been destroyed (for example a row kept from a temporary view, `auto row = view(array)[1];`) is undefined behaviour, although its elements are still there. |
| C81 | `C81_row_after_assign_violated` | And a row is changed by an assignment to its view: the same row has three elements before and two after; and it can be made to reach beyond the end of the array. |
| C82 | `C82_self_move_violated` | Moving an entry onto itself: all variables exist, and the value is lost. |
| C83 | `C83_constructor_throws_violated` | If the constructor of an actor throws, `create_actor` dereferences a null pointer. |
| C83 | `C83_moved_system_violated` | An actor system that was moved from cannot be destroyed. |
| C83 | `C83_moved_ref_violated` | After an actor system is moved, the references to its actors cannot be used. |
| C83 | `C83_same_name_violated` | Two actors of one name watch a third; only the first is told that it stopped: what the specification says does not hold. |
| C83 | `C83_unwatch_same_name_violated` | `unwatch` through a reference to an actor of the same name takes away the other's watch. |
| C84 | `C84_negative_offset_violated` | In debug builds `it += d` with a negative offset overflows in the computation of the assertion, although the new position is that of an entry. |
| C84 | `C84_find_behind_violated` | `find(i)` behind the end is not the end: the loop from it to the end does not stop, however many rounds it makes (until the position overflows). |
| C84 | `C84_has_next_violated` | Before the beginning `has_next` is true, but `next` gives no entry. |
| C84 | `C84_minus_left_violated` | `d - it` compiles, and gives `it - d`: from the end of three entries, `1 - it` is the last entry. |
| C85 | `C85_system_messages_uncounted_violated` | C85 is false for system messages: however many there are, one turn may go on handing them out; the user message that waits is not handed out and the thread serves nobody else. |
| C86 | `C86_failed_start_hangs_violated` | C86 is violated when `pre_start` fails: the root, told to stop, waits for ever for an actor that has ended. |
| C86 | `C86_stop_before_attach_hangs_violated` | C86 is violated when an actor is told to stop before its parent has attached it: the root, told to stop, waits for ever. |
| C86 | `C86_same_name_violated` | C86 is violated for two actors of the same name: the end of the second destroys the first in the middle of a message. |
| C86 | `C86_message_after_notice_violated` | C86 is violated for what a notice means: actor `2` has received the notice that actor `1` has ended, and after that the mailbox of `1` still takes a message, which is lost although nobody is told. |
| C86 | `C86_lost_watch_violated` | C86 is violated for a `watch` of a living actor that has just taken its last message: actor `0` asks after actor `2` has returned from `post_stop` and before its mailbox is closed; when all is at rest, `0` runs and was never told. |
| C87 | `C87_ambiguous_violated` | An object that is a `T` twice is refused with the message that it is not an instance of `T`. |
| C87 | `C87_copy_violated` | A variable that is not const cannot be copied: the constructor template is the better match and does not compile. |
| C87 | `C87_not_null_violated` | A release build accepts null. |
| C87 | `C87_smart_reset_violated` | A `not_null` of a smart pointer is null after the smart pointer was reset, also in a debug build. |
| C87 | `C87_smart_scope_violated` | A `not_null` of a temporary smart pointer refers to nothing. |
| C87 | `C87_any_equal_violated` | Two `any_ptr` to different objects compare equal: both are converted to `bool`. |
| C88 | `C88_race_violated` | Two first calls at the same time: two objects are created, and the one that the first call returned is destroyed. |
| C89 | `C89_nested_violated` | The end of an inner lock sets the default callback although the outer lock is in scope: the next failed assertion ends the program. |
| C90 | `C90_default_violated` | C90. A pair of numbers declared without initializer has no values: reading it is undefined, although the same pair with an empty first class has a second value. |
| C90 | `C90_move_out_violated` | C90. `get<0>` and `get<1>` of an rvalue do not compile, whatever the types. |
| C90 | `C90_shared_violated` | C90. The pair of an empty class and a class that begins with a part of it is larger than the second. |
| C90 | `C90_second_violated` | C90. An empty second component is not compressed, nor is an empty first one of a final class. |
| C91 | `C91_same_type_violated` | C91. Two cases of the same type do not make the call ambiguous: the first of them is silently never called. |
| C92 | `C92_copy_bool_violated` | The full property is false: an optional of `bool` copied from a variable that is not `const` holds whether that variable holds something. The copy of an empty one is not empty, and the copy of one that holds `false` holds `true`. |
| C92 | `C92_filter_violated` | The same happens in `filter` of a variable that is not `const`: of an optional with `false` the values that are `false` are `true`. |
| C92 | `C92_emplace_violated` | `emplace` of a null pointer violates a requirement. |
| C92 | `C92_swap_violated` | `swap` of an optional that has a value with an empty one loses the value. |
| C93 | `C93_pipe_violated` | The full property is false: from a stream that cannot be positioned, such as standard input, ini and xml get an empty text. |
| C93 | `C93_zero_violated` | A text with a zero byte is cut there by ini and xml. |
| C93 | `C93_text_mode_violated` | In text mode, the text is followed by zero bytes, one for each line; the stream is at its end and has failed. |
| C94 | `C94_yaml_violated` | yaml-cpp keeps all the pairs of a map in a document, also if keys are equal, and the config says that it is not multi-associative. |
| C94 | `C94_together_violated` | An ordered object is associative and keeps the order, but says no to `associative / keeps_order`: every `do_has_property` is a `switch` over the single properties. |
| C95 | `C95_variant_violated` | Copying a variant that holds the pointer compiles, and the pointer is deleted twice. |
| C95 | `C95_assign_violated` | An alternative that can be copied but neither assigned nor moved: assigning the variant shares the object of the source and gives up that of the target. |
| C96 | `C96_slice_continuous_violated` | A 3-D view whose planes are padded: a plane is continuous, and so is `yato::view` of it, but a view constructed from it denies it, and its `print_size()` counts the padding after the plane; `reshape` then refuses it. |
| C97 | `C97_c_array_violated` | C arrays: the sizes are known, but neither `dimensions` nor `total_size` compiles: they call the method `size()`. |
| C97 | `C97_dimensions_range_violated` | `std::vector`, `std::array`: `size(c, 0)` compiles, and so does `dimensions`, but `dimensions_range`, which would call `size(c, dim)`, does not: the condition asks for less than one dimension. |
| C97 | `C97_strides_violated` | A 1-D container with `stride(dim)` and without `strides()`: the flag promises `strides(c)`, which does not compile. |
| C97 | `C97_continuous_violated` | A list with one dimension that does not say whether it is continuous, is taken to be. |
| C97 | `C97_total_size_violated` | From past the last dimension on, `total_size` answers the last extent, and `sub_dims()` of one dimension has no cells. |
| C98 | `C98_minus_violated` | The random access category promises `it - n`, `it[n]` and `n + it`: they compile for no mapped and no zipped range. |
| C98 | `C98_reverse_plus_violated` | For the same reason `it + n` compiles for no reversed mapped or zipped range, since `std::reverse_iterator` subtracts; there `it - n` does. |
| C98 | `C98_le_violated` | `a <= b` compiles for no zip iterators (a forgotten `_t` in the return type), nor `a >= b` for reversed ones. |
| C98 | `C98_zip_distance_violated` | If the first of the zipped ranges is the longer one, `distance()` counts more elements than there are tuples. |
| C98 | `C98_ge_violated` | Zip iterators whose components are at different distances are neither equal nor ordered, yet `>=` holds both ways. |
| C99 | `C99_write_violated` | Writing through a caching iterator never changes the sequence: the reference is to the cached copy. |
| C99 | `C99_write_witness_violated` | So the specification is missed: the program writes 20 over the 2 and reads 2 from the sequence. |
| C99 | `C99_stale_violated` | A caching iterator shows the element as it was when the iterator came to it. |
| C99 | `C99_convert_violated` | A caching iterator that is made of one that does not cache has nothing to show: reading it is undefined, wherever it is. |
| C99 | `C99_const_violated` | A const iterator without an end cannot be dereferenced, and such iterators convert to no other kind of filter iterator. |
| C99 | `C99_small_violated` | For small values that are not trivially copyable the first element looked at is assigned to an object that does not exist: a caching iterator cannot be made where there are elements. |
