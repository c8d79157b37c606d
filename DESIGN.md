# Design: a Lean 4 model of clean-core

## Method

The model is a set of small total functions in `lean/Verif/<Component>/Model.lean`, each definition citing the file and
lines in `/repo` it follows.  `Spec.lean` (or a section of the property file) holds the independent specification.
`Lemmas*.lean` holds helper proofs.  `Props.lean` holds only the property theorems, each followed by an `example` that
exhibits a concrete non-trivial case meeting its hypotheses.

Failures are outcomes, not assumptions: a failing `CC_ASSERT`/`CC_CONTRACT` and undefined behaviour (out-of-bounds access,
use of a dead object, bad shift) are `none` or an explicit fault constructor in the model, so "the code does not fault" is
something that is proved.

Assertions: clean-core compiles `CC_ASSERT`/`CC_CONTRACT` in or out depending on build flags.  Theorems that say "returns
`some`/`ok`" show that no assertion fires, so they hold for both build modes.

## Trusted base

* Lean 4.33.0's kernel.
* Axioms: at most `propext`, `Classical.choice`, `Quot.sound` (checked with `#print axioms` for every theorem in MANIFEST.json).
* The reading of the C++ source: the model is hand-written from the text of `/repo`; nothing is extracted mechanically.
* Machine arithmetic is modelled with `BitVec`/`UIntN`/explicit modulo where wrap-around matters, and with `Nat`/`Int` elsewhere
  (each such place says so).  64-bit `size_t`, `int64_t`, LP64 data model, two's complement.
* Concurrency (`Mpmc/`, `Spin/`, `LPool/`, `APool/`, `Alloc/AtomicLinear`): any number of threads, all schedules of the individual atomic steps.
  In `Mpmc/`, `Spin/` and `LPool/` the C++ memory model is over-approximated: a relaxed or acquire load may return any value ever stored, a successful
  compare-exchange or exchange reads the newest one, a release store carries the storing thread's view of the non-atomic accesses, an acquire
  load adds it, and a non-atomic access by a thread that does not know all earlier accesses is a data race, undefined. Consume, fences and out-of-thin-air
  values do not occur in the code. In `APool/` the links inside of the blocks are read and written like atomic variables (more generous than C++).
* Intrinsics (`popcnt`, `lzcnt`, `tzcnt`, byte swaps) do what Intel documents (`Bits/`).
* The C library: `memcpy`, `memmove`, `memcmp`, `strlen`, `strncmp` on lists of bytes; `strtol`, `strtoul` and integer `snprintf` as specified by
  C11 in the "C" locale (`Num/`, `Fmt/`). `char` is signed. Streams are lists of characters.
* Memory: a heap of blocks of slots (raw, live, moved-from); an access outside of a block or to a slot in the wrong state is undefined behaviour
  (`Mem/`). Pointers are compared as in the code; addresses are numbers only where the code computes with them (`Alloc/`, `Tlsf/`), there with wrap-around.
  Little-endian byte order and stores through unaligned pointers are assumed to work where the code relies on them (`Sha1/`, `Hash/`, `Alloc/`).
  Bit fields are laid out from the least significant bit (`LPool/`). `operator new` and `malloc` may fail only where the model says so (`TPool/`: an oracle).
* The operating system's pages (`Alloc/Pages`): reserve, commit and decommit of address ranges, access to an uncommitted page is undefined behaviour.
* `Tlsf/`: the control structure is kept apart from the pools (in the code it lies in front of the first pool); the self-check walks with a given number of rounds,
  and the theorems hold for every sufficiently large one. `AVec/`, `AArr/`: one heap per allocator.
* Base64: the cells of local arrays that the code reads without having written them are a parameter (`junk`), so results do not depend on them.
* Floating point: numbers are rationals with a sign, infinities and NaN without payload; rounding to nearest even (`Rsqrt/`, `Flt/`). `snprintf` with `%e %f %g`, `strtof` and `strtod` as C11 with annex F
  describes them, correctly rounded, in the "C" locale; `%a` and the report of underflow are parameters.
* Not modelled: templates and overload resolution (types are parameters), exceptions except where a component says so, stack traces, demangling and Windows-specific code.

## Properties and plan

* **C01** map behaves like an abstract finite map — Model `_entries`+`_size` with forward_list chains as `List`s of nodes, `hash : K -> UInt64` a parameter compatible with `eq`. Every assertion is an explicit fault. Refinement: abstraction to `K -> Option V`, one simulation lemma per operation, induction over histories.
* **C02** map iteration visits every entry exactly once — The iterator (curr,last,it) as a small state machine; prove its trace is the concatenation of the chains, then a permutation of the abstract entries.
* **C03** map references stay valid until their key is removed — Nodes carry an address; prove an address keeps its key and stays linked by every step except removal of that key / clear.
* **C04** map reserve(n) prevents rehashing for n elements — `capacity unchanged` by induction over histories under the size bound.
* **C05** map equality is extensional — Iff theorem on two maps satisfying the reachable invariant.
* **C06** set behaves like an abstract finite set — Same shape as C01 with `set`'s own location function and growth rule.
* **C07** set reserve(n) never invalidates a set — False of the code: witness reserve(0) on a non-empty set faults. `_partial`: reserve(n) for n>0.
* **C08** sort yields a sorted permutation — Array model where every get/swap is bounds-checked and faults; sort_ex_impl by well-founded recursion. Prove no fault + Perm + sorted for every strict weak order.
* **C09** quickselect puts the right element in place — Same engine with select=index_in_range.
* **C10** quickselect_range sorts the requested window — Same engine with select=overlaps_range, int64 conversion explicit. False for count >= 2^63 (witness), partial for idx+count < 2^63.
* **C11** partition splits exactly by the predicate — Two-pointer loop on the bounds-checked array.
* **C12** is_sorted decides sortedness — Loop model; iff theorem under strict weak order.
* **C13** multi-array sort keeps rows together — Engine run on an array of rows.
* **C14** base64 decode inverts encode — Byte-level model; round-trip by induction on 3-byte groups.
* **C15** base64 decode is total and bounded — Model loop; equality with independent spec decoder.
* **C16** bit utilities compute their arithmetic meaning — BitVec 32/64 (8/16 where offered); spec in Nat arithmetic.
* **C17** alignment and integer helpers are exact — Nat/BitVec model with explicit no-wrap hypotheses.
* **C18** vector behaves like a sequence — Slots (`Option`-like uninit/live/moved) + capacity; refinement to `List`.
* **C19** vector elements have exact lifetimes — Same slot model with construction/destruction events counted; shrink_to_fit violation as witness, rest partial.
* **C20** vector push_back of its own element is safe — Emplace argument given as a slot reference into the buffer.
* **C21** ringbuffer behaves like a deque — data/begin/end/mask with slots; refinement to `List`.
* **C22** disjoint_set computes connected components — Parent/size arrays; equivalence closure spec (`Relation.EqvGen`).
* **C23** flat_vector_of_vector behaves like a list of lists — start indices + flat elements; refinement to `List (List a)`.
* **C24** chunked_buffer chunk iteration covers all elements — Chunk list; false when the current chunk is full: witness + partial.
* **C25** mpmc queue is FIFO and loses or duplicates nothing — Schedules of atomic steps under the C++ memory model (stale loads, release/acquire views, data races undefined); ghost history; inductive invariant.
* **C26** mpmc queue reports full and empty only when justified — Same model; outcome characterisation at the deciding load.
* **C27** spin_lock gives mutual exclusion — Schedules of the test-and-set loop under the same memory model, with the protected data as a non-atomic variable.
* **C28** atomic_linked_pool never hands out a slot twice — Interleaving semantics with the versioned head; ghost ownership; invariant.
* **C29** atomic_linked_pool handles detect staleness — Bit-field packing over BitVec 32; generation state machine. Wrap-around witness.
* **C30** pool initialisation writes only inside its allocations — Write trace of the initialiser; overflow witness.
* **C31** radix sort of free indices is a sorted permutation — LSD radix sort, 4 byte passes; stable counting sort lemma.
* **C32** pool iteration visits exactly the live nodes — Sequential model over the free list; uses C31.
* **C33** atomic_pool_allocator never hands out a block twice — Interleaving semantics without versions: ABA witness execution (negation), sequential correctness as partial.
* **C34** linear_allocator allocations are aligned, in-bounds and disjoint — Nat addresses; alignment by C17.
* **C35** stack_allocator is LIFO-exact — Nat addresses, header store as a map; exact-undo theorem.
* **C36** atomic_linear_allocator hands out disjoint blocks concurrently — fetch_add interleavings.
* **C37** virtual allocators keep committed memory ahead of use — Nat addresses with committed end.
* **C38** fixed-size pool allocation never aliases live blocks — Pool lists of blocks.
* **C39** TLSF size mapping is good-fit — Nat arithmetic on the mapping functions.
* **C40** TLSF keeps a consistent heap — Memory of words with block headers in it, control arrays apart; invariant over a list of blocks that tiles the pools; every history of operations by induction, against a specification that reads the memory.
* **C41** SHA-1 matches the standard for every chunking — BitVec 32 model, unrolled transform vs FIPS spec, streaming buffer.
* **C42** string_view searching is exact — Loops over index-checked characters.
* **C43** string_view split and trim are lossless — Split iterator state machine; join inverse.
* **C44** string_view subview respects bounds — size_t arithmetic in BitVec 64/explicit modulo; wrap witness.
* **C45** string behaves like a character sequence across the small-buffer boundary — short/heap representation; refinement to `List Char`.
* **C46** c_str is always null-terminated at size() — Buffer with terminator; violated by remove_prefix/suffix (witness).
* **C47** string replace forms agree — Two loop models, equality.
* **C48** integer to_string/from_string round-trip — Digit loops; round-trip.
* **C49** from_string rejects what does not fit — strtol model; violation witnesses.
* **C50** string formatting options pad correctly — Pure function on lists.
* **C51** format substitutes arguments by the documented rules — Parser state machine vs. grammar spec.
* **C52** capped_vector behaves like a bounded sequence — Slot model.
* **C53** optional models at-most-one value — State machine with lifetimes.
* **C54** variant holds exactly the alternative last assigned — Index function + lifetimes.
* **C55** shared_ptr destroys the object exactly when the last owner goes — Heap of control blocks; refcount invariant.
* **C56** unique ownership types never double free — Heap with alive flags.
* **C57** spans never index out of bounds — size_t/int64 arithmetic.
* **C58** flags is a set of enum values — BitVec with C++ int shift semantics explicit.
* **C59** bitset is a set of indices below N — BitVec with C++ int shift semantics explicit.
* **C60** array::empty tells whether there are no elements — One-line functions; violation witness.
* **C61** hash combination agrees with equality and is order-sensitive as specified — Pure functions.
* **C62** forward_list copy and assignment preserve order — Heap-free list model with object identity for self-assignment.
* **C63** moved-from map and set can still be used — Model the defaulted member-wise move; prove the stale size makes lookups assert, and that clear() repairs the object.
* **C64** set add of its own element is safe — References to elements by node address; show the growing add reads a freed node; safe without growth.
* **C65** set reserve(n) prevents rehashing for n elements — Run-level invariant on the bucket count; counterexample with a duplicate add at full capacity.
* **C66** vector reserve(n) keeps the buffer in place up to n elements — Same model as C18: after reserve the capacity is at least n and emplace_back below capacity keeps the data pointer; induction over the appended list.
* **C67** chunked_buffer destroys its elements — Model the destructor with a count of the objects whose storage is freed without their destructor having run; induction over histories. The code never destroys elements: prove the exact number of leaked objects and the partial statement for trivially destructible types.
* **C68** dynamic array is a value with correct element lifetimes — Slot-level model as for capped_vector (block of exactly size slots); refinement to lists by history induction; witness for resize with an own element.
* **C69** formatted integers — Model parse_args, unsigned_to_string_impl and int_to_string_impl over the character list of the specification; prove that the parser accepts exactly the grammar, then the layout for every value by cases on the type; numerals by induction on the digits. Witnesses for the many combinations where the code is wrong.
* **C70** TLSF self-check and heap walk are exact — Tlsf/Check.lean models tlsf_check, tlsf_walk_pool, tlsf_check_pool, validate_heap and get_allocation_size, the loops with a number of rounds. Proved from the invariant of C40 by induction over the free lists and over the blocks of a pool; the converse by induction over the rounds.
* **C71** alloc_vector behaves like a list and keeps to its allocator — `AVec/`: the vector operations of `Vector/` run on the heap of the allocator the vector reports (one heap per allocator; a block number is only meaningful within its heap, so returning memory to the wrong allocator is undefined behaviour in the model). Constructors, move construction and assignment (with the check for self-assignment), comparison across allocators and reset_reserve are modelled on top. Invariant: for each allocator the vectors that report it satisfy the vector invariant of that heap. Theorems: contents by refinement of lists with an allocator, unique ownership, no undefined behaviour, all memory returned, moves.
* **C72** alloc_array behaves like a list and keeps to its allocator — `AArr/`: same worlds and the same shared members as `AVec/`; constructors, reset, resize and access of alloc_array on top, with arguments by reference (read when the code reads them). False of the code in two cases, shown by witness theorems: arrays of trivially constructible types created by size hold uninitialised elements (`C72_sized_is_uninitialised`, for every size), and refilling an array with one of its own elements reads a destroyed element (`C72_own_element_is_dead`). Everything else is proved (`_partial`).
* **C73** result holds exactly the value or the error last given to it — `Result/`: storage slots for value and error and the flag, all members in the order of the code; refinement to a sum type with moved-from states, lost objects counted. Self-move is false of the code: witness theorem, the rest `_partial`.
* **C74** capped_box holds exactly one object and destroys it exactly once — `CBox/`: storage with the dynamic type of its object and the two type erased functions; refinement to an optional (type, value) pair; destroying an object of the wrong type or no object is undefined, objects overwritten without destructor are counted. False in four situations (witness theorems), proved otherwise.
* **C75** system allocator: buffers are disjoint, aligned, keep their bytes and are given back — `SysAlloc/`: byte memory and the blocks of the C library, which is a parameter with a specification (fresh, aligned, may fail); both compiled variants, headers in front of the buffer included; refinement to a table of buffers with bytes. False for failing try_realloc and for sizes near 2^64 (witness theorems); proved otherwise.
* **C76** allocator helpers and temp_cstr: objects, arrays and strings live exactly as long as they should — `AHelp/`: the helpers over an abstract allocator with a specification (fresh, aligned, null for size 0 only); objects with destructors are tracked by address, loops get a number of rounds; refinement to a table of items. False for wrapping array sizes, for loops of 2^32 rounds and, by the letter of the standard, for misaligned headers and null arguments (witness theorems); proved otherwise.
* **C77** string_stream collects exactly what is written to it — `SStream/`: streams as members over a heap of character blocks (uninitialised characters are not readable), `to_string` through the string model; refinement to a list of characters per stream; each block is owned by exactly one stream.
* **C78** fwd_array holds exactly its elements and destroys each of them — `FArr/`: arrays over the heap of `Mem`, `new T[n]` and `delete[]` with lifetimes; refinement to a list of optional values per variable, with the general ownership lemmas of `Mem/Own`. Violated for list and span constructors (objects constructed over living ones): exact number of lost objects proved.
* **C79** value boxes hold exactly one object and destroy it exactly once — `VBox/`: the three templates over the heap of `Mem`, objects with class and value, deletion through a base class; refinement to one optional object per box. Violated for a `poly_box` assigned its own object, for the unchecked conversion of a moved-from box, and for classes without virtual destructor: each proved.
* **C80** integer ranges visit exactly the numbers from begin to end — `IRange/`: integer types by their bounds and what overflow does; loops with a bound on the rounds, shown to suffice. Violated for `reversed` of a range that begins at the least value of `int` or a longer signed type: proved.
* **C81** copy, fill, range comparison, any_of and cascaded_less do what they say for all ranges — `Algo/`: contiguous ranges in one memory, so that all overlaps are included; induction over the loops; `cascaded_less` against the lexicographic order.
* **C82** calling through function_ref, stream_ref, range_ref and unique_function is calling the callable — `Call/`: callables with class and state, functions and a global state; references as untyped pointer with invoker; unique functions on the heap of `Mem` with their allocator; refinement to direct calls. Violated for the default `stream_ref`, which keeps the address of a temporary, and for `unique_function` from lvalues, which it moves from: both proved.
* **C83** error messages for substrings show every error — `ErrMsg/`: the layout code line by line, painting as a list of writes with the contracts of `operator[]`; `Spec.Picture` says what must be visible where, existentially in the rows. Violated for every target that reaches into a later line (negative index, assertion): proved in general.
* **C84** file watches report exactly the changes of their files — `Watch/`: monitors with files and event queues, flags and watch variables; thread steps and file changes are operations of the history; refinement to watches with a `changed` bit, and from that the theorem that no change is lost. Violated for several watches for one file: on unix the search stops at the first match; proved for every later history.
* **C85** make_hash_xxh3 computes XXH3 on every machine — `Xxh3/Model`: the 64 bit one-shot functions over byte lists, with a configuration for vector path, byte order, multiplication and assertions; registers as lists of 32 bit lanes. `Xxh3/Spec`: one formula per range of lengths, little endian numbers. Equality for all of them; every read outside of data or secret would be `ub`. Not modelled: NEON and VSX paths, prefetching, alignment of the accumulators, the 128 bit hashes, XXH32 and XXH64.
* **C86** xxh3 hashes of short data do not collide — Each step of the short paths is shown to be injective (xor shifts, odd multiplications with the inverse, the two rotations since eight applications are a rotation by eight bits).
* **C87** streaming xxh3 agrees with hashing at once — `Xxh3/Stream`: states at addresses, pointers to secrets, all calls of the 64 bit streaming API; invariant: a multiple of 256 bytes is in the accumulators, the rest in the buffer. Violated (old bytes of the buffer are used when data bypassed it; copies of states with a seed point into the original); proved for all other histories.
* **C88** the assertions of xxh3 never fail — `xassert` in the model; violated for data of eight bytes, proved for every other length.
* **C89** capped_array behaves as a fixed-size array and keeps object lifetimes — `CArr/Model`: storage as slots (raw, live, moved), the size field and its type, every constructor and assignment with the loops of container_impl_util. `CArr/Spec`: a list of optional values. Violated by `emplace` with an own element (storage is destroyed first), by moves (the moved-from elements are never destroyed) and by self-move; proved for the other histories. The comparison operators cannot be called (`template<int M>` against a size_t capacity) and are not modelled.
* **C90** synchronized allocators are linearizable — `Synced/Model`: threads over the lock of `Spin/Model` with its memory model; a call is a program of any number of accesses to the backing state, which other threads may run between. `Synced/Spec`: traces of begin, effect and return, and the replay of the effects. Invariant: the lock holder is the only thread in a body, and its remaining accesses lead to what the call does alone. `Synced/Backings` instantiates it with the heaps of C37 and C40, blocks being named by their pointers. Not modelled: what threads do with their blocks, `validate_heap`, `destroy`.
* **C91** wide and UTF-8 strings are converted faithfully, within the destination — `WChar/Model`: the two functions over `std::wcsrtombs`/`mbsrtowcs` as ISO C describes them, in the C locale and in one with UTF-8 (glibc: strict decoding, 4 byte wchar_t), on lists of code units with reads beyond the end undefined. `WChar/Spec`: UTF-8 by `String.utf8EncodeChar` of Lean. Violated for source counts; proved without a count (and, for ASCII sources of char_to_widechar, with one). The Windows branch is not modelled.
* **C92** to_string of a wide string is its UTF-8 form — `WChar/Model.toString` over the conversion of C91: violated for every text with a character that is not ASCII, proved for the others.
* **C93** approximate inverse square roots are as good as their documentation says — `Rsqrt/Model`: floats as rationals, infinities and NaN, with rounding to binary32 (nearest even, gradual underflow, overflow) computed exactly; the instruction `rsqrtss` is a parameter with the error its documentation gives (`Rsqrt/Spec.Documented`). Proof over the reals: one iteration maps a relative error d to at most 1.501 d^2 plus the rounding errors. Violated for zero, denormals and infinity (NaN). The sign of zero and flush-to-zero modes are not modelled.
* **C94** processor features are reported as they are — `Cpu/Model`: a processor is any function from levels to registers. Violated: the shifted register is compared with zero without a mask.
* **C95** a failed assertion calls the handler of its thread and never goes on — `Assert/Model`: histories of events of threads over the thread-local handlers; `Assert/Spec`: what is seen, by the history alone. Violated in one respect: without a debugger the process ends by SIGTRAP, not by abort. Windows (SEH, debugger queries) and the output text are not modelled.
* **C96** the bundled XXH32 and XXH64 compute the published hashes — `Xxh64/Model`: both hashes over a block at an address, with the switch statements as lists of labels and lines, so that a missing or misplaced label shows; misaligned aligned reads and reads outside the block are `ub`. `Xxh64/Spec`: the published algorithm. Proof by induction over stripes and over the remaining length; the no-collision parts by inverting every mixing step. Forming pointers before the block (`bEnd - 16`) is not modelled.
* **C97** XXH32 and XXH64 in pieces are XXH32 and XXH64 at once — `Xxh64/Model.run`: histories of calls over many states; `Xxh64/Spec.observations`: by the data since the last reset. Invariant: accumulators of the full stripes so far, the buffer holds the remainder, lengths modulo 2^32 with the flag for large input.
* **C98** the canonical representation of a hash is the same on all machines — `Xxh64/Model.canonical32/64`, `fromCanonical32/64` against `Spec.bigEndian`; the order by induction over the digits.
* **C99** to_string of a floating-point number is its six-digit rounding — `Flt/Model`: numbers are rationals with a sign; `snprintf` with `%e`, `%f` and `%g` as C11 describes them, computed exactly, through the buffer of the code. `Flt/Spec`: `Rounded` (nearest among the numbers with six digits, ties to even) and `Usual` (how a decimal number is written), neither of which mentions how it is computed. Uniqueness by showing that a number with six digits has one normal form.
* **C100** formatted floating-point numbers follow the format specification — `Flt/Model.floatFmt` after `Fmt/Model.parseArgs`; `Flt/Spec.FloatText`. Violated: texts longer than the buffer of 31 are read from behind it, alignment and fill character are ignored, `long double` is passed for `%g` without `L`. `%a` is a parameter of the model.
* **C101** from_string of a floating-point number reads exactly the numbers — `Flt/Model.strtod`: the longest prefix, as C11 describes it; `Flt/Spec.Denotes`: a grammar with values. The proof shows that the scanner consumes the whole text exactly if it is in the language, and that the language is unambiguous. Violated for views of 256 characters or more and views with a zero. Whether an inexact denormal result is an error is a parameter (`under`), as in C.
* **C102** floating-point numbers survive to_string and from_string — From C99 and C101. Violated, since six digits are not enough; partial: exact for the numbers nearest to a decimal number with at most six digits, accepted always, stable from the second time on.
* **C103** the atomic operations are atomic, with either compiler — `Atom/Model`: both variants of each operation over the built-in functions of the compilers with their own argument order; threads are functions of the results they have got so far. `Atom/Spec.Chain` describes the events on one variable. The chain by induction over the schedule, the rest by induction over the chain. That the built-in functions are atomic and sequentially consistent is their documentation.
* **C104** sorting costs what the documentation says — `Sort/Cost`: the functions of `Sort/Model` with a count of the calls of `compare` or `is_right`, line by line; dropping the count gives the model back (`C104_counts`). Upper bounds by induction over the recursion with the invariants of C08; lower bounds by running the algorithm on equal elements, where every partition splits off only its pivot.
* **C105** containers grow at amortised constant cost — `Vector/Growth`, `Str/Growth`, `SStream/Growth`, `Map/Growth`, `Set/Growth`: the histories of the existing models, run together with a count of the elements moved (vector: elements of a block that was exchanged; string and stream: characters; map: entries linked again; set: nodes made), of the exchanges, and of the greatest number asked for. Every call keeps the memory or at least doubles it, so the capacity is the potential of the amortised count. For `string::resize` and `set::reserve` the count of a growing history is computed for every length and is quadratic.
* **C106** print writes exactly the text, println a whole line that has arrived — `Print/Model`: each overload by the C string it hands to `fputs` or `puts` (the existing model of `cc::format` for the formatted ones), which read up to the first zero; threads as sequences of accesses under the lock of the stream; a scheduler that also decides when the library hands over which part of the buffer. Invariants over all schedules: device and buffer are the concatenation of the texts in the order of the accesses; each thread's texts are in its order; each line is covered by the device unless its thread is between `puts` and `fflush`. Of the C library: one call is atomic on the stream, writing does not fail.
* **C107** deferred code runs exactly once, at the end of its scope — `Defer/Model`: an interpreter of the part of C++ that matters (scopes, functions, loops with break and continue, return, exceptions, handlers, objects with the destructor of `deferred`, copies of them), which yields the trace of what happens. `Defer/Spec`: a grammar of proper traces. Induction over programs: whatever proper things follow a statement, with the destructors of its objects behind them the whole is proper. Counts of calls follow from the grammar.
* **C108** tuples and pairs are the sequence of their components — `Tuple/Model`: the recursive class template as nested pairs over a family of types indexed by positions; `get` by recursion on the position; the fold expressions as short-circuit evaluation of results that may be faults. Induction over the number of components.
* **C109** a value of any type is formatted by the functions its type offers — `Disp/Model`: a type is the record of the functions it offers; `do_format` as the choice made by `if constexpr`, with the outcome 'does not compile'. The specification says which functions may be used for which call; case analysis over the offered functions, with arbitrary functions.
* **C110** the text of flags lists exactly the flags that are set — `Flags/Text`: the loop over `Bits` with the tests of the model of C58. Induction over the remaining iterations; the negation for more than 32 bits by the same induction up to index 32.
* **C111** the allocator's bit searches give the same answer with every compiler — `Tlsf/Scan`: all branches of the conditional compilation, intrinsics by their documented meaning. The generic version by the invariant 'bit + log2(word) is constant' over its five steps; `word & -word` by its bits.
* **C112** a cursor never reads or advances past its end — `Cursor/Model`: a derived class is given by its three functions, every call is recorded with the state of the object. The guarantee for loops by induction over the rounds; programs with a cursor refine programs with the list of the elements left, by induction over the program.
* **C113** views of elements as bytes or as another type show exactly the same bytes — `Reint/Model`: memory of bytes with a block that may be accessed, types by size and alignment. Elements as lists of bytes; the views are shown to give the same concatenation, by induction over the number of elements.
* **C114** what is called a collection can be used like one — `Coll/Model`: a type is the record of the functions it offers, the traits are computed from it. Case analysis over what is offered, with arbitrary functions.
* **C115** optionals and variants compare like the values they hold — `Mixed/Model`: types built from base types by optional and variant; overload resolution as a function on pairs of types, the comparison as a partial function (none = does not compile). Induction over the size of both types.
* **C116** the assertion and hint macros mean what their argument means, for every expression and compiler — `Macro/Model`: tokens, the expression grammar of C++ as a parser with bounded depth, macros as functions on token lists, evaluation with a record of the names evaluated. The parser is shown to be monotone in the bound and to read an expression in the same way in front of `)` and `,`; each macro is then parsed with arbitrary expressions in its holes.
* **C117** memory ranges are reserved, committed and freed byte by byte — `NMem/Model`: pages with protection, bytes and physical memory; `mmap`, `munmap`, `mprotect` as in their manual pages; the functions of memory.cc on 64-bit addresses. `NMem/Spec`: reservations, committed bytes and values. Single calls are characterised for all ranges, histories by an invariant between the two.
* **C118** converting a capped box keeps the object — `CConv/Model`: storage as bytes, classes with size and move constructor; the conversion with `memcpy` or the stored move function. The cases in which it leaves the storage are characterised exactly.
* **C119** 128 bit hashes are the same on every machine — `Xxh128/Model`: the functions of xxh3.hh 1916-2370 on memory as a list of bytes, on the accumulators of `Xxh3/Model`, with the machine as a parameter. `Xxh128/Spec`: one formula per range of lengths. Equality for all data by induction over the loops; injectivity for short data from the inverses of the mixing steps.
* **C120** 128 bit hashes can be computed in pieces — The streaming functions use the states of `Xxh3/StreamModel`; histories are related to sessions (key, data so far) by the invariant of C87, for both widths.
* **C121** 128 bit hashes compare and serialise as numbers — `Xxh128/Model`: memcmp, the comparison and the canonical form; specification by the 128 bit number.
* **C122** all forms of to_string give the same text — `Text/Model`: the overloads as one function per form over a type of arguments, on top of `Num`, `Fmt`, `Flt` and `WChar`; pointers by `%.16zx`. The forms are compared case by case; the digits of pointers by induction over places.
* **C123** a container of n elements has memory for n elements — `Room/Model`: only sizes: a block is a number of bytes or null, products are modulo 2^64, and the C library is any function that grants or refuses requests. Each way of making a container is asking for memory and then filling it (`Room.gen`); the condition for something undefined is computed exactly for each container (`Spec.Bad`), and the outcomes for granted and refused requests are given.
* **C124** the copying string functions give what the changing ones give — `Str/Forms`: the copying forms as views of the string turned into new strings; `Form.Text` says what each function makes of a text, as a relation. For every string in every history (`Str.run_ok`) both forms give exactly that text or both assert.
* **C125** destroying a file watch returns — `Watch/Stop`: the thread, the destructor and the rest of the world as a machine whose steps may come in any order, one for unix and one for Windows; the events are counted. Invariants over all runs; while the destructor waits, a measure decreases with each step of the thread, and a step is always possible.
* **C126** The size that an mpmc queue reports — `Verif/Mpmc/Size.lean` puts the counter on top of the step machine of C25: after the store of the sequence number a thread owes one more step. Invariant: counter = count at the beginning + published - given back - owed (modulo 2^64); from it and the ownership invariant of C25 the error is the number of threads between claim and return, which are distinct threads. Violated after a second `initialize`, which keeps the old count (`C126_wrong_after_initialize`); `C126_initialized_again` says exactly what is reported then. The report can be negative and above the capacity (witnesses).
* **C127** containers compare like their elements — `Verif/SeqEq`: the loops over arbitrary element operators, with reads outside the elements as faults. Each result is characterised by a pointwise relation; opposite and equivalence are lifted to containers and, through one-element containers, back. The operators of `capped_array`, `capped_array<T, 0>` and `capped_vector<T, 0>` cannot be called at all (template argument of the wrong type, private or missing member) and are not modelled.
* **C128** owning pointers are usable as keys — `Verif/Own/Key`: on the pointer worlds of C55 and C56, objects get addresses that are different only while the objects live. The invariant of these worlds (every usable pointer owns a living object, reference count = owners) makes the address comparison exact; stability and moves follow from the specification of the histories. The hash of shared pointers is the generic hash of C61 on the bytes of the address. The comparison of a box with a plain value goes through the unchecked conversion operator and is undefined after a move (`C128_box_value`).
* **C129** set references stay valid until their element is removed — `Verif/Set/RefSpec`, `RefProps`, on the model of C06 with the addresses of its nodes. Invariant: addresses pairwise different and below the next fresh one; from it a reference reads its element, copies are disjoint, and every rebuilding of the table makes all references dangle (`C129_growth_dangles`), so the property is false as soon as the set grows. `C129_stable_partial`: it holds after `reserve(n)` as long as elements are added only while there are fewer than n.
* **C130** the bucket statistics of a map tell how its keys collide — `Verif/Map/Stat` (the functions, double arithmetic exact over ℚ), `StatSpec` (entries in a bucket, pairs of entries that share one, the badness as a mean over entries), `StatProps`. From the placement invariant of C01 the chain at i is the set of entries whose key belongs to i, so that the sum of the squares of the chain lengths counts the sharing pairs. That greater tables only take buckets apart is the divisibility of powers of two. Left out: rounding of double.
* **C131** allocators own their memory from initialize to destroy — `Verif/Life/Virtual` (objects, members, the ranges the operating system has reserved), `VirtualSpec` (what each object should hold, as a relation), `VirtualProps` (refinement: all legal histories; a range that no object knows stays reserved for ever). `Verif/Life/Tlsf`, `TlsfSpec` (who has which heap), `TlsfProps` (invariant: no heap has two objects). Not covered: use of the memory in between (C37, C40).
* **C132** The body of a loop over a map or set may change the container — `Walk/Model` is a live iterator (array, current bucket, end bucket, address of the current node) over a table of chains that may change between two steps; reading through a node that is gone, or the array after it was replaced, is undefined behaviour. `Walk/Lemmas` proves for any such table: if a round only removes other nodes, changes nodes in place or adds nodes at the front of chains, the loop ends and shows what it has to. `Walk/Map` and `Walk/Set` instantiate it with the modelled containers; the body is any function from what has been shown to a list of calls. Proved as partial: the array must be kept (`C132_map_room` says when that is so); for sets, replacing the array or removing the current element is always undefined behaviour.
* **C133** References to vector elements stay valid exactly while capacity() stays — On the vector model of C18: a reference is the memory block and the index it was taken from. `Vector/RefSpec` says, from the elements and the numbers that `capacity()` returns alone, what every call does to the capacities (`capStep`) and which vector has the block of a reference after a call (`track`, `none` if it was given back). `C133_references` proves for all histories before and after that reading and writing through the reference is access to the current element of that vector, or undefined behaviour; `C133_capacity` that the model's capacities are those of the specification.
* **C134** The body of a loop over a vector may change vectors, within limits that can be told — `Vector/Loop` is the loop with the two pointers that `begin()` and `end()` return, on the model of C18; the body is any function from what has been shown to a list of calls. `Spec.loopFrom` is the loop on lists, with the vector that has the memory (`track` of C133). Proved equal for all bodies: elements shown, final contents, contract violations of the body and undefined behaviour (for trivially copyable elements: whenever the specification allows the loop). Consequences: bodies that do not change the vector, and the loop that appends the vector to itself, for which the capacity decides.
* **C135** References to elements of a chunked_buffer stay valid — `Chunk/Mem` is `chunked_buffer` with the blocks its elements are in; a reference is a block and a position. The program keeps all references it is given. `Spec.run` is the list of the elements. Invariant: block i holds chunk i, the full ones without a gap; the references are the positions in order. Proved for all histories.
* **C136** Loops over the chunks of a chunked_buffer show all elements, also if the body adds some — On the model of C135, with the array of `_full_chunks` that moves when it grows. The body is any function from the chunks shown to a list of calls. `Spec.loopChunks` and `Spec.forEachChunk` are the loops on the list of the elements and the sizes of the chunks, proved equal for all bodies, with the cases in which memory is read that has been given back. Consequences: what a loop over `chunks()` shows, that it may add anything while there is one chunk, and witnesses for the failures.
* **C137** References to elements of a forward_list stay valid until the element is removed — On the model of C62: a reference is the address of a node. `Spec.track` says where element k of list i is after a call, on lists alone. The step lemma of C62 now tells which nodes each list has after each call (`tagStep`); from that, by induction over the history, the node is the tracked element, and it is free exactly when the element has been removed.
* **C138** The body of a loop over a forward_list may change lists, within limits that can be told — `loop` is the loop with an iterator that is a pointer to a node; the body is any function from what has been shown to a list of calls. `Spec.loop` is the loop on lists, with `track` of C137. Proved equal for all bodies and numbers of rounds. The number of elements behind a tracked element never grows, hence the loop ends.
* **C139** References to elements of a ringbuffer stay valid within its capacity — The ringbuffers of C21 over a memory of blocks with addresses; a simulation shows that it does the same as the model of C21; a reference is block and slot, a specification on lists says which element it refers to after each call; invariant: element k of the ring is at slot (begin + k) & mask of its block. Blocks that have been given back stay so.
* **C140** sorting with a comparison that is not an order stays inside the range — Reuses the sort model. A second set of lemmas assumes only that the comparison is asymmetric: sort3 leaves its third element not less than its second by asymmetry alone, this is the sentinel of the first unguarded scan, and the later scans are stopped by elements swapped before. The limit is proved for all reflexive comparisons by running the model on equal elements.
* **C141** sorting and unordered removal do not harm an element by swapping it with itself — `Sort/Self` makes the effect of swap(a, a) a parameter of the sort model, and gives it for variant, result and optional with the constructors and assignments of their models. Positive part: equality with the sort model by induction over the loops, since all exchanged positions differ. Negative part: a symbolic run on n equal elements for every n above 16.
* **C142** references to elements of an alloc_vector stay valid exactly while capacity() stays, whatever the allocators — `AVec/RefSpec`: the vector that has the memory of a reference, and the capacities, call by call, from elements and capacities alone. `AVec/RefLemmas`: every step of `AVec/Model` exchanges memory exactly where the specification says, by running the proof of C133 in the heap of one allocator; whole-vector operations directly. As in C133 `realloc` is taken to move the block, which an allocator may do.
* **C143** all forms of == and != on strings compare the texts — `Str/Compare`: the conversions to `string_view` that overload resolution chooses and the comparisons with views, pointers, literals and characters; `Text.Shows` says what text an operand has (for a string: by its history, as in C45). `Str/CompareProps`: by C42 and the loop that looks for the zero. An array without a zero is undefined, for every other operand.
* **C144** views of a string stay valid exactly while the string has the room it needs — `Str/Model` names the block an object holds by the number of blocks it obtained (ghost field `news`). `Str/ViewSpec`: the memory `c_str()` points to, reading through a view, the room each call needs, histories within a capacity. `Str/ViewLemmas`: each call keeps the memory if there is room and adopts a larger block otherwise; calls on other variables leave the object as it is. `Str/ViewProps`: by induction over histories, with the texts of C45. For `replace(old, new)` that does not fit, the change of the capacity is proved and not the number of blocks taken.
* **C145** The body of a loop over a string may change it within its capacity — `Str/LoopSpec`: the loop with iterators fixed at the beginning, reading through the memory of C144 at that time, over bodies that are histories; the specification is a loop over texts. `Str/LoopProps`: induction over the iterations with the induction over histories of C144; a body after which the string uses other memory makes the next iteration undefined.
* **C146** The body of a loop over an alloc_vector may change vectors of any allocators, within limits that can be told — `AVec/Loop` is the loop with the two pointers that `begin()` and `end()` return, into the heap of the allocator the vector had at that time, on the model of C71; the body is any function from what has been shown to a list of calls. `Spec.loopFrom` is the loop on lists, with the vector that has the memory (`track` of C142). Proved equal for all bodies by induction on the rounds: elements shown, final contents and allocators, contract violations of the body and undefined behaviour (for trivially copyable elements: whenever the specification allows the loop). Consequences: bodies that do not change the vector, and the loop that appends the vector to itself.
* **C147** The body of a loop over a capped_vector may change it, and appending in a loop never dangles — `Capped/Loop` is the loop with the two pointers that `begin()` and `end()` return into the storage inside the vector, on the model of C52; the body is any function from what has been shown to a list of calls. `Spec.loopFrom` is the loop on lists. Proved for all histories and bodies: where the specification lets the loop end, it ends with these elements and contents, and contract violations are the same; for histories without whole-vector moves (which leave living moved-from objects behind, C52) and elements with destructor also: undefined behaviour in all other cases. Consequence: the loop that appends the vector to itself.

## Disagreements between code and documentation/expected behaviour

Each item is proved as a theorem about the model (the negation of the property, with a concrete witness or for a whole
class of inputs); the part that does hold is proved with the suffix `_partial`.

* **C07** `set::reserve(0)` on a non-empty set trips an assertion (`Set.C07_set_reserve_zero_asserts`): `reserve` calls `_reserve`
  unconditionally, also for sizes below the current one.
* **C10** `quickselect_range(values, idx, SIZE_MAX)` sorts nothing and `idx + count` beyond the `int64_t` range is signed
  overflow (`Sort.C10_quickselect_range_huge_count`, `Sort.C10_quickselect_range_overflow`).
* **C63** a moved-from `map`/`set` keeps its old size without a table; lookups assert (`Map.C63_map_moved_from_not_usable`,
  `Set.C63_set_moved_from_not_usable`).
* **C64** `s.add(*s.begin())` / `s |= s` read freed memory when the add rehashes (`Set.C64_set_add_own_element_dangles`).
* **C65** adding an already contained element to a set holding exactly the reserved number of elements rebuilds the table
  (`Set.C65_set_reserve_rehashes`).
* **C15** `base64_decode` stores the text length in an `int`: a text of 2^32 characters decodes to nothing
  (`Base64.C15_decode_drops_long_text`), one of 2^31 characters overflows the `int` (`Base64.C15_decode_overflow`).
  (For inputs with one trailing character the code also reads array cells it never initialised; the model makes them an arbitrary
  parameter `junk`, and the results do not depend on it.)
* **C18** `remove_range(1, SIZE_MAX)`: the contract check `start_index + count <= size()` wraps around, the call goes on and
  writes behind the elements (`Vector.C18_remove_range_wraps`).
* **C19** `vector::shrink_to_fit` moves the elements into a tight block and frees the old one without destroying the moved-from
  elements (`Vector.C19_shrink_to_fit_leaks`, `Vector.C19_shrink_to_fit_leak_size`).
* **C20** (beyond the property) `v.push_back_range(v)` reads the freed block when it reallocates
  (`Vector.C20_push_back_range_own_elements_fails`).
* **C24** `chunked_buffer::for_each_chunk` skips the last chunk when it is exactly full
  (`Chunk.C24_for_each_chunk_skips_full_chunk`, with the default size after 1024 pushes: `Chunk.C24_for_each_chunk_default_size`).
* **C67** `~chunked_buffer` frees the chunks without running element destructors (`Chunk.C67_chunked_buffer_never_destroys`).
* **C52** move construction and move assignment of `capped_vector` set the source's size to 0 without destroying its moved-from
  elements (`Capped.C52_move_construction_leaks`, `Capped.C52_reuse_after_move_leaks`, `Capped.C52_move_leak_size`).
* **C57** `span::subspan(1, SIZE_MAX)` (and the same in `strided_span`): the contract check `offset + count <= size` wraps around; the
  accepted span reaches far behind the array (`Span.C57_subspan_wraps`, `Span.C57_strided_subspan_wraps`).
* **C58** `flags` over a 64-bit storage: `1 << value` is computed in `int`. Value 31 sign-extends to 33 bits
  (`Flags.C58_flags64_value_31`), values from 32 on and the iteration are undefined (`Flags.C58_flags64_value_32`,
  `Flags.C58_flags64_iteration`). With 8- or 16-bit storage `single()` and iteration do not compile (ambiguous overload of
  `count_trailing_zeros`), so the model has no such case.
* **C59** `bitset` neither masks `~` nor its constructor, so `any`, `all` and `==` see bits at N and above
  (`BitSet.C59_complement_not_masked`); index 31 touches all higher bits, index 32 and up are undefined
  (`BitSet.C59_large_index_wrong`), and the mask expression overflows for N >= 31 (`BitSet.C59_mask_overflows`).
* **C62** assigning a `forward_list` to itself (by copy or move) empties it (`FList.C62_self_assignment_clears`,
  `FList.C62_self_assignment_loses_elements`).
* **C60** `array<T, N>::empty` returns `N > 0` (array.hh:34): inverted for every `N`.
* **C61** There is no `hash<string_view>`; the generic hash accepts it (trivially copyable, no padding) and hashes pointer and size, so equal
  string views at different addresses hash differently. `stringhash_n(s, 0)` is 0, while `stringhash("")` is not; `stringhash_n(s, n)` reads
  `s[n]` before it looks at `n`.
* **C68** `array<T>::resize(n, value)` destroys the old block before it reads `value` (array.hh:134-140).
* **C53** copy-assigning an `optional` to itself destroys the value and leaves it empty (optional.hh:117-132,
  `Opt.C53_self_copy_assignment_clears`); `o.emplace(o.value())` reads the destroyed value (`Opt.C53_emplace_own_value`).
* **C54** `index_of_type` never returns -1: for a type that is not an alternative it yields the last index (variant.hh:30-36). Construction from
  an lvalue looks up `X&`, so the value is stored as if it were the last alternative (`Variant.C54_construct_from_lvalue`); `is<T>` of a foreign
  type is true when the last alternative is held (`Variant.C54_is_of_foreign_type`). Self-assignment destroys before it reads
  (`Variant.C54_self_assignment`).
* **C55** assigning a `shared_ptr` from a pointer inside the object it solely owns (`p = p->next`, by copy or move) drops the old object before it
  reads the source (shared_ptr.hh:96-116, `Own.C55_assign_from_own_member`); resetting, through a raw reference, the pointer by which an object owns
  itself writes into freed memory (`Own.C55_reset_self_owner`).
* **C56** the same for `p = move(p->next)` with `unique_ptr`, `poly_unique_ptr`, `box` and `unique_function`
  (`Own.C56_assign_from_own_member`).
* **C25** the sequence numbers are compared as `intptr_t` differences; at position `2^63` this signed subtraction overflows, which is undefined
  (mpmc_queue.hh:52, 81). The theorems hold up to that point.
* **C26** `enqueue` fails although nothing is stored when a dequeue has claimed the oldest cell and not yet given it back, while later cells have
  been emptied (`Mpmc.C26_false_while_claimed`).
* **C30** `atomic_linked_pool::initialize` allocates `size - 1` entries for the free list and writes entry `size - 1` (atomic_linked_pool.hh:58-69):
  out of bounds for every size (`LPool.C30_init_overflows`). The theorems about the pool assume that this entry exists. A pool of size 1 is refused.
* **C28/C29** `is_alive` reads the generation without a check of the index, so a foreign handle reads outside of the array.
* **C33** `atomic_pool_allocator` has no version in its free-list head: the ABA situation gives a block to two threads
  (`APool.C33_block_given_twice`); the check for a full pool and the load are separate, so the loser of a race for the last block dereferences null
  (`APool.C33_null_dereference`); `free` accepts the address behind the buffer (`APool.C33_free_behind_the_buffer`, `<=` instead of `<`). Strictly, reading the link of
  a block that another thread owns is a data race already; the model reads it like an atomic variable.
* **C34** `linear_allocator::alloc` checks `padded + size <= end`, which wraps around for sizes near 2^64: the request is accepted and the head moves back
  (`Alloc.Linear.C34_huge_request_accepted`).
* **C35** `stack_allocator` has the same wrap-around (`Alloc.Stack.C35_huge_request_accepted`); the padding is kept in 32 bits, so the head is not restored for alignments
  above 2^32 (`Alloc.Stack.C35_huge_alignment`); ids are used again after a free, so a second free of a block can be accepted and end another live block
  (`Alloc.Stack.C35_double_free_accepted`).
* **C36** `atomic_linear_allocator::alloc` stores the header before it checks the bound, so a request that does not fit writes outside of the buffer
  (`Alloc.AtomicLinear.C36_overcommit_writes_outside`); sizes near 2^64 wrap around (`Alloc.AtomicLinear.C36_huge_request_accepted`); the header is stored through
  an unaligned `size_t*` for alignments below 8 (example at the end of `Alloc/AtomicLinearProps.lean`).
* **C37** With a chunk size below the page size `decommit_idle_memory` takes away pages that are in use (`Alloc.VLinear.C37_small_chunk_faults`,
  `Alloc.VStack.C37_stack_small_chunk_faults`). If the range that the operating system reserves is aligned to pages but not to chunks, it returns a number near 2^64
  (`Alloc.VLinear.C37_decommit_returns_nonsense`). `grow_physical_memory` rounds up the whole requirement and refuses requests that fit
  (`Alloc.VLinear.C37_refuses_what_fits`). `is_latest_allocation` checks `_physical_end` for null instead of comparing with it (`Alloc.VStack.C37_is_latest_unchecked`).
* **C38** Blocks that are given back on another thread are not available to the thread that needs them (`TPool.C38_no_reuse_across_threads`: a known TODO in the code). `cc::alloc<T>` with `sizeof(T) > 65536`
  can never succeed: `block_size` is 0 (`TPool.C38_large_objects_fail`).
* **C39** `tlsf_add_pool` accepts a pool whose first block has exactly `block_size_max` bytes; its first-level index is 25, one behind the arrays
  (`Tlsf.C39_largest_pool_out_of_range`). `adjust_request_size` wraps for requests of more than 2^64-8 bytes and hands out the smallest block
  (`Tlsf.C39_huge_request_accepted`).
* **C40** `tlsf_realloc` to more than 2^32-8 bytes takes the adjusted size 0 for a request to shrink: it returns the pointer, the block keeps no bytes and its size word
  0 ends the pool for every walk over it (`Tlsf.Example.C40_realloc_huge_fails`). `tlsf_memalign` with alignment 2^63 wraps and looks for 24 bytes: the block is misaligned
  and can be too small (`C40_memalign_huge_misaligned`, `C40_memalign_huge_too_small`). Requests of more than 2^64-8 bytes get 24 bytes (`C40_malloc_huge_too_small`).
  The largest pool accepted is filed behind the arrays (`C40_largest_pool_undefined`). `tlsf_allocator::realloc` ignores `align` (`C40_realloc_ignores_alignment`), and
  `tlsf_allocator::initialize` does not notice that no pool could be added (`C40_initialize_without_pool`).
* **C42** `ascii_lexicographical_less` uses `strncmp`, which stops at a zero character: two different texts with embedded zeros are unordered but not equal
  (`StrView.C42_ascii_less_stops_at_zero`).
* **C43** `split` with `keep_empty` yields no piece for the empty text, although a text of n separators yields n+1 pieces (`StrView.C43_split_keep`).
* **C44** the checks `offset + size <= _size` of `subview` and `subview_clamped` wrap around (`StrView.C44_subview_wraps`, `StrView.C44_clamped_wraps`).
* **C45** `sbo_string`: moving a string onto itself releases its block and leaves a small string with a size over its capacity (`Str.C45_self_move_loses_text`). A string that was moved from keeps its
  size, so that `s[0]` passes the bounds check and reads through null (`Str.C45_moved_from_keeps_size`). `insert` and `replace` with a view of the string itself shift the characters before
  they copy them (`Str.C45_insert_own_view_wrong`). `replace(pos, count, s)` checks `pos + count <= size` with wrap-around (`Str.C45_replace_count_wraps`). `reserve(size_t(-1))` writes behind a block
  of zero bytes (`Str.C45_reserve_max_wraps`).
* **C46** `remove_prefix` and `remove_suffix` do not store the terminating zero (`Str.C46_remove_prefix_no_zero`, `Str.C46_remove_suffix_no_zero`).
* **C49** `from_string` for integers: `strtol`/`strtoul` work on 64 bits and the results are cut to 32, so "4294967297" is read as 1 by the overloads for 8, 16 and 32 bits
  (`Num.C49_wide_number_accepted`); "-1" is accepted for unsigned types (`Num.C49_negative_accepted`); leading white space is accepted (`Num.C49_leading_space_accepted`); the overloads for views look at the text
  up to the first zero and at most at 255 characters (`Num.C49_embedded_zero_accepted`, `Num.C49_long_view_truncated`); views of 2³¹ characters are read behind their end (`Num.C49_huge_view`).
* **C50** Strings that are cut to the precision are not padded to the width (`Fmt.C50_cut_not_padded`). Sizes are converted to `int`, so that texts of `2^31` characters make the loop that pads endless
  (`Fmt.C50_huge_text`).
* **C69** Formatted integers: formatting the least `int`, `long` or `long long` is undefined even with an empty specification (`Fmt.C69_least_undefined`); zero in binary is the empty text, and the width is ignored in
  binary (`Fmt.C69_binary_zero_empty`, `Fmt.C69_binary_not_padded`); `#x` overflows its buffer (`Fmt.C69_hex_prefix_overflows`); prefixes are misplaced when padding (`Fmt.C69_prefix_misplaced`); alignment is
  ignored and fill characters are put behind the sign (`Fmt.C69_align_ignored`); signs are ignored for unsigned types; `char` and `bool` ignore the width. The printf-style specifications `%i` and `%ld` are
  accepted by `cc::format` but fail a contract here.
- C51: the index in `{N}` is computed modulo 2^64 (`Format.C51_index_wraps`); the conversion character of a `%` specification is read without a check for the end of the view, so a view `%5` inside a longer text
  makes the loop run past its end (`Format.C51_reads_past_view`, `Format.C51_unterminated`). The form `{.2f}` named in a comment of format.hh is rejected. `format_to(string&, …)` (format.hh 247-251) ignores its `Formatter`
  template argument (not modelled), and `has_to_string_args` is defined with the wrong trait.
* **C72** arrays of trivially constructible types created by size hold uninitialised elements (`AArr.C72_sized_is_uninitialised`); refilling an array with one of its own elements reads a destroyed element
  (`AArr.C72_own_element_is_dead`).
* **C73** `r = cc::move(r)` destroys the content and constructs from the destroyed object (result.hh, `Result.C73_self_move_reads_dead_object`).
* **C74** move construction of a `capped_box` takes the destructor function away from the source although the moved-from object is still there: it is never destroyed (`CBox.C74_move_construction_loses`). Move
  assignment keeps it, so assigning from a box that was assigned away before installs a destructor without an object (`CBox.C74_moved_from_source_destroys_twice`). Self-move and emplacing a box's own object read a
  destroyed object (`CBox.C74_own_object_is_dead`). `get()` and, for trivially destructible bases, `emplace` do not compile.
* **C75** `system_realloc` copies before it looks whether the allocation succeeded: resizing a buffer without memory copies to null (`SysAlloc.C75_try_realloc_without_memory`). Without `aligned_alloc`, the size with the header
  wraps around, and a request for 2^64 - 16 bytes is answered with a pointer behind a block of 16 bytes (`SysAlloc.C75_huge_request_accepted`).
* **C76** `new_array` computes its size modulo 2^64 (`AHelp.C76_array_size_wraps`) and counts with 32 bits, so that 2^32 elements with a constructor are never finished (`AHelp.C76_new_array_hangs`). The number of elements
  is stored as a `size_t` at an address that is aligned for the element type only: with alignments below 8, and so for every `temp_cstr` that allocates, the access is misaligned (`AHelp.C76_size_unaligned`). A
  `temp_cstr` of an empty view and `new_array_sized(0)` hand null to `memcpy` and `memset` (`AHelp.C76_null_source`). The last two are undefined by the letter of the standard and harmless on common machines; the model has a
  switch for them.
* **C78** the constructors of `fwd_array` from a list and from a span create the elements with `new T[n]` and then construct the copies over them: the destructors of the first objects never run
  (`FArr.C78_list_loses_objects`, `FArr.C78_span_loses_objects`).
* **C79** `poly_box` deletes its object before it reads the argument of an assignment or `emplace`, so that its own object as argument is dead (`VBox.C79_own_object_is_dead`); nothing checks for a virtual destructor
  (`VBox.C79_no_virtual_destructor`); `operator T&` of all three boxes refers to nothing after a move, where `operator*` asserts (`VBox.C79_conversion_unchecked`).
* **C80** `irange::reversed` decrements the begin, which overflows for ranges that begin at the least value of a signed type (`IRange.C80_reversed_overflows`).
* **C82** The default constructor of `stream_ref` assigns a temporary lambda to a `function_ref`, which keeps its address: writing to the stream uses a dead object (`Call.C82_default_stream_dangles`). `unique_function`'s
  constructor forwards with the decayed type, so that an lvalue argument is moved from (`Call.C82_lvalue_is_moved`).
* **C83** For a target over several lines, `marker_start` is negative in the later lines and is used as index: `make_error_message_for_substrings` fails an assertion of `operator[]` (`ErrMsg.C83_several_lines`).
* **C84** `filewatch::create` makes a new flag for each watch, but the unix thread stops at the first entry with the name of the changed file (`break`; commented out in the Windows version): a second watch for the same
  file never reports a change while the first exists (`Watch.C84_second_watch_blind`).
* **C87** `XXH3_update` consumes full 256 byte pieces directly from the input and leaves the buffer as it was; `XXH3_digest_long` takes the bytes before the last 1 to 63 from the end of the buffer. One update with 300 bytes
  and a digest give a hash different from `XXH3_64bits` of the same bytes (`Xxh3.C87_stale_buffer`; later versions of xxHash copy the last stripe into the buffer).
* **C87** `XXH3_copyState` copies the pointer `secret`, which for a state with a seed points into the original (`Xxh3.C87_copy_seed`, `Xxh3.C87_copy_dangles`).
* **C88** `XXH3_len_4to8_64b` asserts `len < 8` but is called for eight bytes too (`Xxh3.C88_eight_bytes`).
* **C89** `capped_array::emplace(n, a[k])` destroys all elements before it reads its argument (`CArr.C89_emplace_own_element`); moving a whole `capped_array` sets the size of the source to 0 without destroying
  its moved-from elements, so that n destructors never run (`CArr.C89_move_leak_size`); self-move-assignment loses the elements (`CArr.C89_reuse_and_self_move`). `operator==` and `!=` are `template <int M>` against
  `capped_array<T, M>` whose parameter is a `size_t`: never deducible. The specialisation for capacity 0 accesses a private member.
* **C90** `initialize` and `get_backing()` of the synchronized allocators do not take the lock: any use of them concurrent with a call, or without other synchronisation before one, is a data race (`Synced.C90_unguarded_races`).
  `synced_virtual_linear_allocator` does not pass on `get_allocation_size` and `validate_heap`.
* **C91** `widechar_to_char(dest, src, n)` limits the bytes written to `n / sizeof(wchar_t)`: of up to three characters nothing is converted (`WChar.C91_counted_narrow_fails`); `char_to_widechar(dest, src, n)` limits the
  characters written to n, so that it reads more than n bytes of a text that is not ASCII (`WChar.C91_counted_wide_fails`). Both depend on the locale: in the C locale other characters give -1 (`WChar.C91_c_locale`).
* **C92** `to_string(wchar_t const*)` makes a string with `wcslen` bytes: every text with a character that is not ASCII is cut off (`WChar.C92_to_string_truncates`).
* **C93** `intrin_rsqrt_nr1` and `intrin_rsqrt_nr2` give NaN for zero, for every denormal number and for infinity, where `intrin_rsqrt` and `1 / sqrt` give infinity or zero (`Rsqrt.C93_zero_is_nan`, `Rsqrt.C93_infinity_is_nan`).
* **C94** `test_cpuid_register` computes `(info >> bit) != 0`: true if any higher bit is set. In every virtual machine (bit 31) `test_cpu_support_popcount` answers yes (`Cpu.C94_popcount_hypervisor`, `Cpu.C94_wrong`).
  The answer of `__get_cpuid` is ignored, so that for a level the processor does not have uninitialised memory is read (`Cpu.C94_missing_level`).
* **C95** "aborts": `is_debugger_connected` always answers yes outside of Windows, so that `raise(SIGTRAP)` ends the process first and `std::abort` is never reached (`Assert.C95_never_aborts`).
* **C100** the formatted text of a floating-point number goes through a buffer of 31 characters, and the stream is then given as many characters as `snprintf` announced: `{:f}` of 1e30 or a width of 40 reads behind the
  buffer (`Flt.C100_long_text_undefined`); with exactly 31 characters the last one is a zero. Alignment and fill character are parsed and ignored (`Flt.C100_align_ignored`). `long double` is passed to `%g` without `L`
  (`Flt.C100_long_double_undefined`).
* **C101** views are copied to a buffer of 256: longer numbers are silently cut and another number is read (`Flt.C101_long_view_cut`); text behind a zero is ignored (`Flt.C101_view_with_zero_accepted`).
* **C102** six digits are not enough for a round trip: 16777216 comes back as 16777200 (`Flt.C102_not_exact`).
* **C104** `partition_right` puts elements equal to the pivot to the right, and the part of pdqsort that handles them (`partition_left`, and the fallback to heap sort) is not there: n equal elements take about n*n/2
  comparisons and n-15 nested calls (`Sort.C104_sort_quadratic`, `Sort.C104_sort_not_nlogn`, `Sort.C104_quickselect_not_linear`, `Sort.C104_sort_depth`). The documentation promises O(n log n) in the worst case with a TODO beside it.
* **C105** `string::resize` (and `reserve`, `pad_start`, `pad_end`) takes exactly the memory it needs, unlike `push_back` and `+=` and unlike `vector::reserve`, which double: `resize(size() + 1)` moves the whole string each time
  (`Str.C105_string_resize_quadratic`). `set::reserve` makes all nodes anew on each call: `reserve(size() + 1)` before each `add` is quadratic (`Set.C105_set_reserve_quadratic`); `map::reserve` returns at once if the table suffices.
* **C106** `print` and `println` hand a C string to the C library: the output ends at the first zero character of the text (`Print.C106_zero_cuts`); a `cc::string` shortened by `remove_suffix` is printed with the removed characters
  (`Print.C106_stale_tail`). The template parameter `Formatter` of `print`, `println` and `format_to(string&, ...)` is not passed on (`Print.C106_formatter_ignored`, `Print.C106_format_to_ignores_formatter`). A format string without arguments is
  printed as it is, with its `%%` and `{{` (`Print.C106_no_arguments_no_escapes`).
* **C107** `detail::deferred` has the implicit copy constructor: the result of a function with `CC_RETURN_DEFER` can be copied or moved, and then its function runs twice (`Defer.C107_copy_runs_twice`). Its destructor is `noexcept`: an exception
  out of a deferred function ends the program (`Defer.C107_throw_terminates`).
* **C109** `has_to_string_args` (format.hh 102) is defined by `has_to_string_ss_t` instead of `has_to_string_args_t`. So a type with only `to_string(stream, value)` does not compile (`Disp.C109_stream_only_rejected`), neither does one with only
  `to_string(value, spec)` (`Disp.C109_string_with_spec_rejected`), and with `to_string(value)` in addition the specification is not handed to the function of the type (`Disp.C109_spec_not_passed_witness`).
* **C110** `to_string(flags)` tests `1 << i` for all `i < Bits`: for enums with a 64 bit type that is undefined for every flags object, even the empty one (`Flags.C110_wide_undefined`). Flags from `Bits` on that fit into the storage are
  contained but not listed (`Flags.C110_not_counted`).
* **C111** in the variant for SNC (PlayStation 3) `tlsf_ffs(0)` calls `__builtin_clz(0)` (`Tlsf.C111_snc_empty`); the allocator does not call it with 0.
* **C112** the header of `cursor` guarantees that `advance()` and `get()` are never called if `is_valid` is false, but `operator++` and `operator*` do not check (`Cursor.C112_not_guaranteed`). `iterator_cursor::get` has the contract
  `bool(_curr)`, so ranges whose iterators have no conversion to `bool` (map, set, forward_list) cannot be read through `to_cursor` (`Cursor.C112_needs_bool`), and an iterator that is false at an element fails (`Cursor.C112_false_element`).
* **C113** `span::reinterpret_as` and `from_byte_span` check the size but not the alignment: at an address that does not suit the new type they succeed and every access is undefined (`Reint.C113_misaligned`, `Reint.C113_from_bytes_misaligned`).
* **C114** the traits of `cc::array<T, N> const` declare functions that return `T*` for a `T const*`: such arrays are called indexed ranges, but `collection_begin` of them does not compile (`Coll.C114_const_array`). Maps with integer keys
  are called indexed ranges because they have a size and a subscript operator; their "element 0" is the value of key 0, which is added (`Coll.C114_map_is_indexed`).
* **C115** `variant == variant` is ambiguous between the two templates with a variant on one side (`Mixed.C115_variants_rejected`), likewise `optional == variant` (`Mixed.C115_optional_variant_rejected`). The templates of optional are not
  constrained, so `permissive_equal` does not fall back to "different" for an optional alternative but fails to compile (`Mixed.C115_optional_alternative_rejected`).
* **C116** with gcc `CC_ASSUME(x)` is `((!x) ? ...)`: `CC_ASSUME(a < b)` assumes that `(!a) < b` is false, which makes a correct program with `a = 1`, `b = 2` undefined (`Macro.C116_assume_fails`). With msvc `CC_LIKELY(x)` is `x`:
  `!CC_LIKELY(a == b)` is `(!a) == b` (`Macro.C116_likely_fails`). All uses inside the library are in parentheses, where it makes no difference (`Macro.C116_likely`).
* **C117** `decommit_physical_memory` rounds the range outwards, so committed bytes next to it can not be accessed any more (`NMem.C117_decommit_neighbour`). It changes the protection only, the physical memory stays in use
  (`NMem.C117_decommit_keeps_memory`). `mmap` is called with offset 4096, which fails on machines with larger pages (`NMem.C117_large_pages`, `NMem.C117_large_pages_commit`).
* **C118** `capped_box<Base, 64>` from `capped_box<Derived>` with trivially movable classes copies 64 bytes out of a smaller box; `capped_box<Base>` from `capped_box<Derived>` compiles and writes past its end, or cuts off the object
  (`CConv.C118_out_of_bounds`, `CConv.C118_cut_off`). The checks of triviality are missing too, so a destructor can get lost (`CConv.C118_not_destroyed`).
* **C120** The two defects of C87 are in the 128 bit variant too (`Xxh128.C120_stale_buffer`, `Xxh128.C120_copy_dangles`).
* **C122** `to_string(stream, INT_MIN)` negates it and `to_string(stream, long double)` passes a `long double` to `%g`, although `to_string(value)` is right for both (`Text.C122_least`, `Text.C122_long_double`). Wide strings and null
  pointers to characters ignore a specification, even a malformed one (`Text.C122_ignored`). `to_string(void const*, string_view)` is declared in to_string.hh:105 but defined nowhere.
* **C123** The number of bytes `n * sizeof(T)` is not checked for overflow by `array`, `vector(size)`, `alloc_array`, `alloc_vector`, `chunked_buffer`: `array<uint64_t>(1 << 61)` asks for 0 bytes and is made (`Room.C123_no_memory`). `vector` uses the
  result of `system_malloc` without looking at it (`Room.C123_refused`), and `system_realloc` copies to it before `system_allocator_t::realloc` can assert (`Room.C123_push_refused`). A string of 2^64 - 1 characters asks for 0 bytes (`Room.C123_string`).
* **C125** If a directory is deleted while a file in it is watched, destroying the watch never returns: `inotify_rm_watch` fails and nothing wakes the thread (`Watch.Unix.C125_deleted_hangs`, `Watch.Unix.C125_stuck_for_ever`).
  `inotify_rm_watch` may get a descriptor that the thread has closed already (`Watch.Unix.C125_closed_descriptor`). On Windows the two events of a monitor are never closed (`Watch.Win.C125_windows_leak`).
* **C126** `mpmc_queue::initialize` does not reset `_current_size`: a queue that is initialized again reports the old number of elements in addition (`Mpmc.Size.C126_wrong_after_initialize`). The reported size can be negative and bigger than the capacity while calls are running (`C126_negative`, `C126_above_capacity`).
* **C128** Comparing a `box` that was moved from with another box is caught by an assertion; comparing it with a plain value is not, because the conversion operators do not check (`Own.Key.C128_box_value`).
* **C129** `set::_reserve` makes new nodes, so that every reference to an element dangles when the set grows; `map` keeps its nodes (`Set.C129_growth_dangles`).
* **C131** A second `initialize` of a `virtual_linear_allocator` or `virtual_stack_allocator` is not refused and the first range is never given back (`Life.Virtual.C131_virtual_leak`); after `destroy` the sizes are addresses (`Life.Virtual.C131_virtual_size_after_destroy`).
* **C131** `tlsf_allocator` has an `operator==` where a move assignment was meant: comparing with an object that is moved gives up the heap of the left one (`Life.Tlsf.C131_tlsf_equal_moves`). `alloc` without a heap is not refused (`Life.Tlsf.C131_tlsf_uninitialised_alloc`).
* **C132** A loop over a map that uses `operator[]` only with keys which are in the map is undefined behaviour when the map has one entry more
  than buckets (`Walk.C132_map_lookup_breaks`), or ends early (`Walk.C132_map_lookup_stops`); growing in a loop can show an entry twice
  (`Walk.C132_map_grow_repeats`). `s |= s` reads freed memory for every set that has as many elements as buckets (`Walk.C132_set_self_breaks`).
* **C136** A body that adds elements while a loop goes over the chunks of a `chunked_buffer` can make the internal array of full chunks move; the loop then reads
  memory that has been given back (`Chunk.Ref.C136_chunks_fails`). `for_each_chunk` leaves out the chunk that was current when it began if that gets full during the loop
  (`Chunk.Ref.C136_for_each_chunk_misses`).
* **C141** `partition_right` ends with `swap(pivot_pos, start)` also if both are the same position, and `remove_at_unordered` of the last element swaps it with
  itself (`Sort.C141_equal_elements`, `Sort.C141_remove_last`). The generic `cc::swap` then move-assigns the object to itself, and `variant` and `result` destroy
  before they read (`Sort.C141_variant`, `Sort.C141_result`), so a sort of 17 equal results is undefined.
* **C144** `operator=(sbo_string const&)` exchanges the block of a long string even if the new text fits into it (sbo_string.hh:181-210, `Str.C144_assign`), and
  `clear()` gives the block back (281-289, `Str.C144_clear_shrink`), so unlike with `cc::vector` an unchanged `capacity()` does not mean that views are still valid,
  and `reserve` before `clear` or an assignment is lost.

