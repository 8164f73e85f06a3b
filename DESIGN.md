# Formal model of `oct` — design

Subject: the `oct` crate v0.14.5 and its derive macros `oct-macros` (repository bjoernager/bzipper),
read from /repo. Everything here is Lean 4 (`/verif/lean`), built with `lake build`.

## Trusted base

* Lean's kernel, and the axioms the theorems depend on: at most `propext`, `Classical.choice` and
  `Quot.sound`. AXIOMS.md lists them theorem by theorem, from `#print axioms` on every theorem named
  in MANIFEST.json. No axioms of our own, no `sorry`, no `native_decide`, no `bv_decide`.
* The reading of the Rust source into `Verif/Model/*.lean`. Every definition cites file and lines
  and states its simplifications.
* Documented behaviour of Rust's `core`/`std` used by the code (see "External behaviour").
* The English-to-Lean reading of the specifications in `Verif/Spec/*.lean` and the statements in
  `Verif/Props/*.lean`.

## Layout

* `Verif/Model/` — the code, function by function.
* `Verif/Spec/` — what the properties talk about, written without reference to the model's helpers.
* `Verif/Proofs/` — lemmas.
* `Verif/Props/` — the property theorems, named after the property (`C03_…`), each with an `example`
  showing a concrete case that meets its hypotheses, and with the negations (`…_false`) of the
  claims the code violates.

## What is modelled

* `Output`, `Input` with explicit states `{buf, pos}` (Model/Stream).
* `encode` / `decode` of every impl in encode/encode/mod.rs and decode/decode/mod.rs, of `SizedSlice`
  and `SizedStr`, and of the code generated by the derive macros, as functions
  `state → outcome × state`, where an outcome is `ok`, `err`, `panic` or `ub`. The state after an
  error or a panic is kept (Model/Prim, Encode, Decode).
* The set of types is a deep embedding: `Ty` (with `Fields` and `Variants`) has one constructor per
  impl (or family of impls with the same body), `Ty.Val` is the type of its values, and `Ty.encode`,
  `Ty.decode`, `Ty.maxSize` dispatch to the per-impl definitions. So "for all supported types" is a
  quantifier over `Ty`, and proofs go by structural induction over it (Model/Ty).
* `MAX_ENCODED_SIZE`, with `size_of` as a parameter, used by `Result` only (Model/SizedEncode).
* The derive macros (Model/Macro): items as syntax trees, the choice of what to derive for, `Repr::get`,
  `Discriminants`, `GenericName`, the impl header, and the emitted code as patterns, captures,
  statements and match arms with an interpreter that gives it Rust's meaning.
* `Slot` (Model/Slot), `SizedSlice` and `SizedIter` (both as abstract value and as `MaybeUninit`
  buffer; Model/SizedSlice), `SizedStr` (Model/SizedStr).
* Which destructors run when (Model/Ownership): items with identities, and a world of what is held.
* The client/server example of the crate documentation (Model/Party), over a network that keeps every
  datagram sent and delivers any of them at any time, any number of times.
* Threads (Model/Shared): schedules of encoders and writers of a `Mutex` or `RwLock` step by step, with
  panics and poisoning; relaxed loads and stores of atomics with one modification order per atomic.
* Streams and slots in memory (Model/Memory, SlotMemory): allocations with cells that may be
  uninitialised, pointers, `ptr.add`, `copy_nonoverlapping`, `from_raw_parts`, allocation and release,
  each undefined unless its documented conditions hold. Encoders and decoders are programs of writes
  and reads with local arrays anywhere in memory.
* How vectors, arrays, sized slices and strings are built in memory (Model/BuildMemory), from a buffer
  of uninitialised cells to `set_len` and `assume_init`; items are cells, not octets.
* Decoding with an account of the heap (Model/Track): each allocation is owned, kept by a sized slice,
  freed, or lost, by Rust's rules of when locals, temporaries, vectors and maps are dropped.
* The conversions of error values to the generic error types (Model/Basic).
* The error types (Model/ErrorTypes): the associated `Error` of every impl and whether the bounds of the
  impl hold, the conversions to `Infallible` and to the generic errors, which error types are `Error`s,
  `source`, and the text that `Display` prints, with the formatting of numbers. `StringError` and
  `Utf16Error`, which no impl has as its `Error`, have theirs in Model/StringErrors.
* Recursive types with derived impls (Model/Recursive): systems of declarations that refer to each other,
  by their unrollings. In the unrolling of depth `n`, calls nest at most `n` deep; the innermost ones are
  those of a type without values, whose decoding is marked. Values are those of all unrollings.

* Conditional compilation (Model/Features): each `cfg` on a part of the crate, the uses of names that do
  not stand under every configuration (extracted with a script from the source and read over), and the
  impls of the four traits with their conditions.
* The blocks of oct-benchmarks/src/main.rs that use this crate, and its types (Model/Benchmark).
* The capacities of strings and vectors made from sized ones (Model/Capacity).
* Decoding with an account of costs (Model/Cost): calls of `decode`, allocations, and items for which space
  is reserved in buffers. A table of a map counts as many items as asked for; sizes of items do not count.
* Locks inside locks (Model/Locks): any number of threads that encode and update locks which contain
  locks, under every schedule and every policy of the system for readers. What is encoded between two locks
  is one step, and an update replaces what is in a lock at once.
* Impls by users of the crate (Model/Custom): arbitrary functions from streams to streams, inside the
  crate's containers and derived types, with any `==` and `Hash` of keys (hash maps and sets take their keys
  whole), and as what `Slot::write` calls.
* Programs in safe Rust that use streams (Model/Client): any number of buffers, streams and slices, with
  the rules of the borrow checker as a condition on steps, on values and in memory.
* Panics of the user's code (Model/Unwind): each call of `clone`, `decode`, `next` or a destructor returns,
  fails or panics as a list says that is quantified over; unwinding destroys locals as Rust does, and a panic
  while unwinding aborts. Hash maps and sets are in Model/UnwindMap: std's table compares the new key with
  whichever it likes, and it is a parameter in which order it destroys its slots, and whether it gives up at a panic.
* How `MAX_ENCODED_SIZE` is evaluated in `usize` of a target's width (Model/SizeConst).
* `Debug` and `Display` of containers and slots, with the options of formatters (Model/Formatting); what the
  standard library prints for octets and slices follows its documentation.
* Lazy values (Model/Lazy): initialisers that force others, give a value or panic, any number of threads that
  encode such values, under every schedule. How `force` of the standard library works is stated, not derived.
* Names (Model/Scope): what the place of a derived type makes of the names in the emitted code: the crate, integer
  types, and identifiers in patterns. A binding whose name is taken counts as refused.
* Iterators over plain data (Model/CopyIter): reading an item leaves it in the buffer. In Model/SizedSlice reading
  moves the item, so that reading it again counts as undefined; that is so only for items that own something.
* Sized slices, their iterators and boxed slices in memory (Model/SliceMemory): a program has any number of them, each
  with an allocation of its own, and does with them what safe code can. Cells are items, not octets.
* Generic items (Model/Generic): the types of fields with parameters in them, the bounds of the item on `Encode`,
  `Decode`, `SizedEncode` and their error types, and what rustc finds from these. Other bounds are taken to be
  declared; fields of other generic items are left out.
* Object graphs (Model/Graph): heaps of objects of recursive types, with addresses for references. Calls nest `n` deep
  at most, and the program stops where they would nest deeper; a program without end is one that stops so for each
  `n`. No lock is met again while it is held.
* `==` (Model/Equality): which types have it, which can be keys, and what it gives; floats by their bit patterns after
  IEEE 754, hash maps by lookup. Structures and enumerations are taken to derive `PartialEq`.
* Unsafe functions (Model/Contracts): all of them, in builds with and without debug assertions, and programs that mix
  them with safe functions. Types for which an uninitialised cell is a value (`MaybeUninit`) are told apart. What the
  documentation demands is written down next to its words in Spec/Contracts.
* `SizedStr::chars` and `char_indices` (oct/src/sized_str/mod.rs:125-135) with core's `Chars` and `CharIndices`:
  `Model/Chars.lean`. `next_code_point` and `next_code_point_reverse` of core are written down with their masks and
  shifts; an octet taken that is not there, and a number made a char that is none, are undefined behaviour. Not
  modelled: the overrides of `count`, `last` and `advance_by`, which core provides for speed.
* Machines on which buffers can be too large (Model/Reserve): `isize::MAX`, the sizes of types and the lengths at which
  a hash table cannot be laid out are parameters; asking for too much panics. That memory runs out, which aborts the
  program, is not modelled.
* The order of entries of hash maps and sets (Model/Order): after each insertion, any permutation. Model/Decode puts
  new entries last; C132 shows that this is no restriction. Hashing itself is not modelled; keys are equal if their
  values are, and hashing does not panic.
* Encoding with an account of work (Model/Tally): each call of `encode` that is written in the source, and each
  `Output::write`. Nothing else counts (steps of iterators, locks, conversions of errors), and neither do
  optimisations of the compiler.
* Exchanged types (Spec/Recast, C135) add nothing to the model: the relation `Recast` between types is a
  specification, written without the model's encoders and decoders. Its first index tells whether the exchange is one
  where octets that nobody has encoded are treated alike.
* Programs that hold guards (Model/Guards): any number of threads, each with a list of commands (take a guard, drop it,
  set what is behind it, encode a value, encode what is behind a guard). Commands do not depend on what is read. A lock
  that the thread itself holds makes it wait.
* What std does with the iterator of a sized slice (Model/Consumer): programs are trees of calls of `next`,
  `next_back`, `nth` and `size_hint`; `for`, `collect` into a `Vec`, `extend`, `rev`, `skip` and `step_by` are such
  trees, written down from std's source as of Rust 1.85 (not part of the repository, so part of what is trusted;
  `C138_std` shows that they do what they should on an iterator that does). What the allocator grants is any function.
* Collecting from any iterator (Model/Source): `next` is any function of a state. The recursion that collects a
  sized string has no fuel; that it ends is proved. What was collected before a panic is not kept there (Model/Unwind
  has it).
* Octets that arrive in pieces (Model/Receiver): a program, such as users of the crate write, that decodes from what has
  arrived and tries again when it was too little. What is expected next may depend on the values so far.
* Values that are packed into datagrams (Model/Sender): a program, such as users of the crate write, that encodes values
  behind each other until one finds no room, then sends and begins anew.
* Memory that runs out (Model/Scarce): an allocator is any function of what it was asked for before; if it refuses, the
  program aborts. What is freed is not followed, and what nodes and tables take are parameters.
* Reading and replacing parts of encoded values (Model/Place): places in values of every type but hash tables (fields,
  items, what is in a variant, however deep), offsets added up from `MAX_ENCODED_SIZE`, and programs that decode from, or
  encode to, `buf[offset..]` (a panic if that is out of bounds). The crate has no such programs; its users write them for
  files of records. `Ty.maxSize` is also defined for types without `MAX_ENCODED_SIZE`, of which nothing is claimed in
  Rust.
* The order of values (Spec/Sorted): `Ord::cmp` of the types that have it, after std's documentation, as with `derive` for
  structures and enumerations, and as in oct/src/sized_slice/cmp.rs and oct/src/sized_str/cmp.rs. A `RefCell` compares
  what is in it (it panics if it is mutably borrowed, and is not encodable then).
* The derived `Debug` of errors (Model/DebugErrors), as `{:?}` and `{:#?}` show it; what `derive(Debug)`, `DebugStruct`
  and `DebugTuple` write is modelled after their documentation. Other options of formatters are left out there.
* Programs that use a slot and decide by what they see (Model/Secrecy), with the operations of Model/Slot and `recv` of
  Model/Party. Time and memory are not seen by them.
* `Display` of errors, and `Debug` and `Display` of containers and slots, as programs that call a writer that may fail
  (Model/Writers). `write!` is modelled after `core::fmt::write`; how the standard library cuts numbers into pieces is a
  parameter.
* Aliasing (Model/Borrows): the pointers and references that the methods of sized slices make, and two models of Rust's
  aliasing rules, Stacked Borrows and Tree Borrows. Rust has settled on neither. `UnsafeCell`, threads, and
  references to neighbours under Tree Borrows are left out. The borrow checker is
  modelled for programs that own one sized slice (Spec/Borrows).
* Aliasing of slots and streams (Model/SlotBorrows): the pointers and references that the methods of slots make, and those
  that streams make which `write` and `read` make of the buffer. The box is the owner of the buffer, and is not given a new
  tag when the slot is moved; streams are in variables of `write` and `read`, and what `Input::read` returns is looked at at
  once. The borrow checker does not follow pointers; Spec/SlotBorrows asks of them what it asks of references.
* Protectors (Model/Protectors): both aliasing rules again, now with what they forbid while a function runs that was given
  a reference, and the methods of sized slices, slots and streams again, with when they are entered and left. Functions of
  the standard library are entered if they are given a reference to the buffer (`as_ptr` of arrays and slices).
* Aliasing of iterators (Model/IterBorrows): the methods of `SizedIter` as what they do to pointers, under the same rules.
  What `clone` writes is in a variable of it, and left out. Destructors write to what they destroy.
* Protectors for iterators (Model/IterProtectors): the methods of `SizedIter` with the functions that they call, among them
  `get_unchecked`, `into_iter`, and the destructor and `clone` of items, under the rules of Model/Protectors.
* Aliasing of streams by themselves (Model/StreamBorrows): the methods of `Input` and `Output` as what they do to pointers,
  in programs that hold a stream. The reference to the buffer is taken for its owner. Calls of both kinds of streams are in
  one type; a program has one of one kind, but nothing depends on it.
* Protectors for streams by themselves (Model/StreamProtectors): the methods of `Input` and `Output` with the functions that
  they call, among them `len`, `as_ptr` and `as_mut_ptr` of the stream's slice, under the rules of Model/Protectors. Those
  of the slice that is copied to or from are left out.

The unit tests of the crate, and the examples in its documentation that check something, are replayed against the
model in Props/Tests, each with the lines it is taken from. These are tests of the model, not proofs.

## What is not modelled

* Trait resolution (other than the bounds on error types), lifetimes, hygiene of `macro_rules!`, attributes other than `repr`, where clauses other than in Model/Generic,
  options of formatters other than `#` where errors are shown, `as_ptr` and friends beyond what they point to, `const`ness, what undefined
  behaviour does.
* Parsing by `syn` of the input of the macros, and spans.
* Effects of initialisers of `LazyLock` and `LazyCell` other than to force others; poisoning, other than that the crate ignores it; `try_lock` by callers.
* Allocation failure other than while decoding and in `into_boxed_slice`, and integer overflow of `usize` sums bounded by an allocation's size.
* Floating-point values are bit patterns.
* References to declared types in the keys of hash maps and sets; the size of a stack frame.
* The blocks of other crates, the clock and the scores in `oct-benchmarks`; the sine in a test; documentation
  examples that only print.
* Name resolution and type checking beyond names behind conditions.

## External behaviour (assumed of Rust's core/std)

`to_le_bytes`/`from_le_bytes`, `str::from_utf8` (`valid_up_to`), `char::from_u32_unchecked` is
undefined on surrogates, `Duration::new` carries and panics on overflow, `SystemTime::checked_add` /
`checked_sub` succeed exactly on the platform's range, `duration_since`, `to_bits`/`from_bits` of
addresses in network order, `HashMap::insert` replaces, `==` of the standard types, `Iterator` semantics of `for`/`zip`,
`{}`, `{:04X}` and `{:#02X}` of integers, the text of `BorrowError`, `MaybeUninit` never drops its contents, `alloc` with a layout of size zero is undefined. Rust's rules
for discriminants, `repr`, destructuring and generics are stated in Spec/Macro.

## Properties that the code violates

Each of these has a theorem proving the negation on a witness (or for all inputs of a class), and the
part that holds is proved as `…_partial`.

| Property | Defect | Where |
| --- | --- | --- |
| C09, C46, C52 | `SizedSlice::decode` reads `N` items instead of `len` | sized_slice/code.rs:39 |
| C18, C20 | `SizedSlice::MAX_ENCODED_SIZE` lacks the length prefix | sized_slice/code.rs |
| C18, C19 | `Result::MAX_ENCODED_SIZE` is made from `size_of` | sized_encode/mod.rs |
| C19 | a failing `SizedStr::decode` consumes more than the maximum size | sized_str/code.rs |
| C17, C34 | `char::decode` accepts DE00..DFFF: undefined behaviour | decode/decode/mod.rs |
| C09, C40 | hash maps and sets are encoded without the length that decoding expects | encode/encode/mod.rs |
| C16, C42 | decoding an overflowing `Duration` panics | decode/decode/mod.rs |
| C13, C16 | short input panics (`unwrap`) instead of returning an error | decode/decode/mod.rs |
| C05, C41 | `SystemTime` truncates toward the epoch; −2^63 s overflows; the documented example of 1989 (+13258800) is wrong, the date is +612874800 | encode/encode/mod.rs |
| C09 | the exhausted flag of `RangeInclusive` is lost | encode/encode/mod.rs |
| C43 | addresses are documented big-endian, written little-endian | encode/encode/mod.rs |
| C47 | negative discriminants are sign-extended to 128 bits | primitive_discriminant/mod.rs |
| C23 | `Slot::read` reads past the slot's length | slot/mod.rs:300 |
| C22 | a failed `Slot::write` clobbers the contents | slot/mod.rs:271 |
| C25 | `SizedIter::nth` is off by one, ignores `pos`, panics or is undefined | sized_iter/mod.rs:148 |
| C26 | `SizedIter::size_hint` subtracts the position twice | sized_iter/mod.rs:178 |
| C28 | `SizedSlice::copy_from_slice` does not check the length | sized_slice/mod.rs:81 |
| C27, C68 | `From<[T; N]>` drops the items it has copied | sized_slice/conv.rs:196 |
| C27, C68 | conversion of an empty slice or string to a box allocates zero octets | sized_slice/conv.rs:119 |
| C69 | no `Drop` for `SizedSlice` and `SizedIter`; failing decodings leak | sized_slice, sized_iter |
| C70 | a short datagram is completed with stale octets of the slot (from C23) | slot/mod.rs:300 |
| C70 | the example's client sends what a failed `write` left in the slot | lib.rs:301 |
| C72 | poisoned locks are encoded, so half-made updates are | encode/encode/mod.rs:504, 685 |
| C74 | several atomics are not encoded as of one time | encode/encode/mod.rs:924 |
| C75 | a variant added in front of others is taken for another one (observation; discriminants are positional) | oct-macros/src/discriminants/mod.rs:46 |
| C76 | structures with more fields panic on old octets and are misread in lists (observation; nothing delimits structures) | oct-macros/src/impls/decode_struct.rs:29 |
| C78 | decoding an invalid `char` in memory is undefined (from C17) | decode/decode/mod.rs |
| C82 | a failing decoding of `Vec`, `[T; N]` or `SizedSlice` leaks the items decoded so far, without bound | decode/decode/mod.rs:135, 788; sized_slice/code.rs:39 |
| C83 | a decoded `SizedSlice` never frees what its items own (from C69) | sized_slice/mod.rs:73 |
| C84 | `IndexMut` of a slot reaches the whole buffer, `Index` only the contents | slot/mod.rs:388-403 |
| C87 | `ItemDecodeError<_, E>` converts to `Infallible` for every `E`; the conversion panics | error/item_decode_error.rs:61 |
| C87 | `EnumDecodeError` converts to `Infallible` although it may hold an unassigned discriminant | error/enum_decode_error.rs:85 |
| C88, C89 | the item error of `LinkedList` is a pair, so no `Error` and not convertible | encode/encode/mod.rs:476 |
| C89 | `RefCellEncodeError`, `CharDecodeError` and `EnumDecodeError<bool, _>` do not convert to the generic errors, so such fields cannot be derived | error/generic_encode_error.rs, generic_decode_error.rs |
| C89 | tuples, maps and `Result` need members with one error type (`(u8, usize)` is not encodable) | encode/encode/mod.rs:342, 644, 874 |
| C93 | decoding a type such as `struct Loop { next: Box<Loop> }` never returns, whatever the input | oct-macros/src/impls/decode_struct.rs:29 |
| C94 | the input decides how deep decoding a recursive type nests, so it can overflow the stack (one octet per call) | oct-macros/src/impls/decode_struct.rs:29, decode/decode/mod.rs:475 |
| C45 | `DecodeBorrowed` is promised for `SizedSlice` | sized_slice/code.rs:50 |
| C48 | `Hash` of `SizedSlice` differs from that of the slice it borrows to | sized_slice/mod.rs:254 |
| C51 | `SizedStr::into_raw_parts` hands out uninitialised octets | sized_str |
| C54, C55 | several encodings for bool, Option, Result, Duration, maps, sets | decode/decode/mod.rs |
| C63 | negative, parenthesised, constant, byte-literal discriminants make the macros panic | discriminants/mod.rs |
| C64 | `repr(C)`, `repr(C, u8)`, `repr(align(..))` make the macros panic | repr/mod.rs |
| C66 | defaults of generic parameters are repeated in the impl header | impl_derive_macro.rs |
| C96 | without `alloc` or without `std` the crate uses names that do not stand (imports of two errors, `NullString`, `std` in the impls for atomics) | decode/decode/mod.rs:26-34, 1043-1107, encode/encode/mod.rs:922, error/generic_decode_error.rs:31, 56, 85, 147 |
| C99 | `Named::from_u64` shifts by 2, 4, … instead of 8, 16, … bits | oct-benchmarks/src/main.rs:142-148 |
| C100 | the capacity of `into_string` is the length, not `N`; undefined for the empty string | sized_str/conv.rs:216, sized_slice/conv.rs:123-124 |
| C101, C102 | two octets make 65535 items if items have no octets: as many calls and, in a linked list, allocations | decode/decode/mod.rs:450, 791 |
| C104 | a `Mutex` that contains itself is asked for while it is held; so is an `RwLock` behind a waiting writer | encode/encode/mod.rs:503, 684 |
| C105 | an `RwLock` that contains itself is encoded without end | encode/encode/mod.rs:684 |
| C106 | guards are dropped after each lock, so a value with two of them is encoded as a mixture | encode/encode/mod.rs:497-507 |
| C103 | space for all items is reserved before any is read, so two octets reserve 65535 items | decode/decode/mod.rs:334, 363, 788 |
| C108 | a sized slice that is not full does not come back (as C09) | sized_slice/code.rs |
| C109 | the bound of `Result` is one of sizes in memory, that of `SizedSlice` leaves out the length | encode/sized_encode/mod.rs |
| C111 | the position of a stream that was put in place of the given one is taken for that of the slot's | slot/mod.rs:270-279 |
| C114 | a panic of a destructor in `nth` leaves destroyed items in the iterator | sized_iter/mod.rs:160 |
| C115 | items decoded or cloned before a failure or a panic are leaked by arrays, vectors and sized slices | decode/decode/mod.rs:133, 791; sized_slice/mod.rs:210; sized_slice/code.rs:37 |
| C116 | the declared maximum is larger than any encoding for `Result`, `SizedStr` beyond 65535 and parts without values | encode/sized_encode/mod.rs:228-236; sized_str/code.rs:58-62 |
| C117 | times that the other platform cannot represent are refused; the size of `Result` depends on the platform | decode/decode/mod.rs:738-758; encode/sized_encode/mod.rs:228-236 |
| C118 | the size of large types behind pointers overflows `usize` | encode/sized_encode/mod.rs:100-102, 194-208, 295-305; macros |
| C119 | `Debug` of a slot ignores the options of the formatter (`{:#?}`, `{:x?}`, width) | slot/mod.rs:356-359 |
| C120 | encoding a `LazyLock` whose initialiser needs its own value never ends (a `LazyCell` panics) | encode/encode/mod.rs:454-472, std |
| C121 | derived impls depend on names in scope: `type u8 = u16;` changes the format of `#[repr(u8)]`, `const stream` or another name of the crate refuses the impl | oct-macros/src/impls/, repr/mod.rs:92-153 |
| C122 | over plain data, `nth` returns an item that the next `next` returns again; the crate's own test expects so | sized_iter/mod.rs:169-172, sized_iter/tests.rs:30-35 |
| C123 | safe code writes outside a sized slice (`copy_from_slice`), asks for no memory (`into_boxed_slice`) and reads before a buffer (`nth`) | sized_slice/mod.rs:81-95, sized_slice/conv.rs:119-136, sized_iter/mod.rs:148-175 |
| C124 | derived impls of generic items have no bounds but those of the item: `struct S<T>(T)` is refused, and so is `T: Encode` without `Into<GenericEncodeError>` | impl_derive_macro.rs:66-80 |
| C125 | `encode` of `struct Loop(&'static Loop)` never ends, loops through `Rc` end in a panic when the buffer is full, and shared objects are encoded once per way to them (exponentially many octets) | encode/encode/mod.rs:149-156, 217-226, 615-624 |
| C126 | values that are equal (`==`) may have different encodings (`0.0` and `-0.0`, hash maps in another order of iteration), and different values the same encoding (`{}` and `{()}`, times between seconds, iterated inclusive ranges) | encode/encode/mod.rs:340-376, 585-595, 776-809, 854-867 |
| C127 | `SizedStr::from_utf8_unchecked` needs the text to fit, which its documentation does not say; without debug assertions it writes past the array | sized_str/conv.rs:77-95 |
| C127 | `SizedSlice::set_len` is documented to be valid for enlarging only if `T` may be uninitialised; `copy_from_slice` enlarges for every `T: Copy` | sized_slice/mod.rs:81-95, 149-164 |
| C131 | `Vec`, `HashMap` and `HashSet` reserve as many items as the input says before decoding any, so that on machines of 16 bits two octets make `Vec::<u8>::decode` panic with a capacity overflow, and on machines of 32 bits `Vec::<[u8; 40000]>::decode` | decode/decode/mod.rs:334, 363, 788 |
| C133 | collections of items that write nothing take a call for each item: 65535 units take 65539 calls and two octets; and octets, also those of texts, are written one by one, each with a check of the capacity | encode/encode/mod.rs:207-211, 485-489, 757 |
| C134 | hash maps and sets are encoded without their length, whatever the keys and values: an empty one never decodes, and `{0: 0}` of `u8` comes back empty (as C09 and C40 tell of the crate's own types) | encode/encode/mod.rs:340-376 |
| C135 | octets that are no encoding are read as if they were: a `bool` is `true` for 2 to 255, a `Duration` carries nanoseconds over, and a `SizedSlice` takes items that it drops; so types of the same format read the same octets differently | decode/decode/mod.rs (`bool`, `Option`, `Result`, `Duration`), sized_slice/code.rs:29-50 |
| C136 | `encode` waits for locks that the caller itself holds, or that are taken in another order elsewhere | encode/encode/mod.rs:503, 684 |
| C138 | `collect` of the iterator of a sized slice is undefined for one item and for more than four (eight for octets), `skip` repeats an item, `step_by` panics, or they are undefined | sized_iter/mod.rs:148-182 |
| C139 | collecting a sized string from `by_ref()` of an iterator loses the char that does not fit | sized_str/mod.rs:160-164 |
| C140 | with the length of a vector changed, the fields behind it are misread without an error; a changed `bool` may go unnoticed | decode/decode/mod.rs:781-805, 168-180 |
| C141 | if the decoding of a hash map fails and the destructor of a key panics, the other keys and values are not destroyed (std's tables, not oct) | decode/decode/mod.rs:322-374 |
| C144 | if memory runs out while decoding, the program aborts, and two octets make `Vec` ask for 65535 items; `into_boxed_slice` panics and its items are lost | decode/decode/mod.rs:788, sized_slice/conv.rs:118-137 |
| C145 | a field behind an `Option` is not where `MAX_ENCODED_SIZE` says, and is read from the wrong octets; `Some` written over `None` destroys the next field | encode/sized_encode/mod.rs:184-188 |
| C146 | octets do not sort as the numbers, texts and collections that they encode: `1u16` is `[1, 0]`, `256u16` is `[0, 1]` | encode/encode/mod.rs:854-866, :196-215 |
| C147 | `EnumDecodeError::UnassignedDiscriminant` and `GenericDecodeError::UnassignedDiscriminant` look alike with `{:?}` (within one type, no two errors do) | error/enum_decode_error.rs:39-42, error/generic_decode_error.rs:67-70 |
| C148 | `read` decodes the whole buffer, so an empty datagram makes a server hear and answer the previous request once more, and the stranger that sent it is told the answer (programs that look only where they wrote learn nothing) | slot/mod.rs:295-303, lib.rs:273-290 |
| C149 | options such as a width have no effect on errors: all of them are shown with `write!(f, ..)` (with writers that fail, all is well) | error/*.rs, slot/mod.rs:358 |
| C150 | under Stacked Borrows, of the references that `each_mut` returns all but the last are invalid: it calls `self.as_mut_ptr()` in each turn of its loop (under Tree Borrows, all is well) | sized_slice/mod.rs:135 |
| C157 | under Stacked Borrows, that something may be looked at until something is written there: to ask for the length ends what `as_mut_slice` returned (C157_not_stacked; this is a matter of the rules, and not a fault of the crate) | sized_slice/mod.rs:179-181 |

Observed but outside the model: `encode_struct` emits `let Self(ref value0, ..) = self`, of which the
explicit `ref` under the default binding mode is an error in edition 2024. Messages quote with `'…\``
(c_string_decode_error.rs:42) and without a closing quotation mark (generic_decode_error.rs:95);
`{:#02X}` counts the prefix, so that octets below 16 have one digit (utf8_error.rs:39).
`GenericEncodeError::BadBorrow` is never made.

## Plan per property

* C01, C02 — histories are lists of operations folded over the stream; induction over the history.
* C03, C04, C05 — pure specification `Spec.wire` and `Spec.Encodable`; induction over `Ty` of one
  compositional statement about `Ty.encode` (writes a fixed trace; ends with a fixed outcome; a too
  small stream gives a panic after a prefix of the trace).
* C06, C07 — corollaries about the collection impls, from the same trace lemma.
* C08 — arithmetic on the usize/isize impls.
* C09 — induction over `Ty`: decoding `wire v ++ rest` gives the carried part of `v`. Fails for hash
  maps/sets (no length is written) and for sized slices that are not full (decode reads N items):
  negations proved, `_partial` theorem for the rest. `C09_exactly` says for which values it holds: those
  whose encoding weighs as much as decoding takes (`Proofs/Balanced`).
* C10 — induction over the sequence, from C03 and C09; exactly when, from `C09_exactly`.
* C11, C12 — for all values without hash maps and sets, also sized slices that decoding does not read
  back (`Proofs/Delimited`). C13 — from C09 and C14.
* C14 — compositional predicate on decoders, closed under sequencing; induction over `Ty`.
* C15 — induction over `Ty` that a decoded value is encodable; then C09; exactly when, as for C09.
* C16, C17 — induction over `Ty` on the set of panics / of undefined behaviour that a decoder can
  reach. False for Duration/Infallible (C16) and char (C17): negations and `_partial`; exactly for which
  types, from C128.
* C18, C19, C20 — induction over `Ty`; false for `Result` (uses `size_of`) and `SizedSlice` (length
  prefix not counted), and C19 also for `SizedStr` error paths: negations and `_partial`.
* C21, C22 — invariant over histories of slot operations. C23 is false (read uses the whole buffer).
* C24 — refinement of the iterator over a `MaybeUninit` buffer to a deque. C25, C26 are false.
* C27 — refinement of the buffer model to lists. C28 is false (no bounds check).
* C29, C30, C31 — UTF-8 validation proved equivalent to "is the UTF-8 encoding of some chars" where
  the encoding of one char is Lean core's `String.utf8EncodeChar`.
* C32, C33, C35, C44, C49, C50 — direct from the impls' models.
* C34 — false (surrogates DE00..DFFF are accepted); negation and `_partial`.
* C36, C37, C38 — discriminant assignment and generated code.
* C39 — equality of `wire` across types.
* C40 — false; negation and what does hold.
* C41 — false ("nearest": truncates toward the epoch); `_partial` with the truth. The documented
  examples are checked against the Gregorian calendar (`Spec/Calendar`); that of 1989 is wrong.
* C42 — decoding overflow panics instead of reporting an error; `_partial`.
* C43 — false (the wire order is little-endian); `_partial`: round trip and reversed order.
* C45, C46 — false for sized slices; `_partial`, and exactly when (`Props/Exact`), as for C55.
* C47 — false for negative discriminants (sign-extended); `_partial`.
* C48 — hashing is false for sized slices; `_partial`.
* C51 — the tail bytes of a sized string as `MaybeUninit`; false after `Default` and `Clone`.
* C52, C53 — relations `Accepts`, `Rejects` on octet strings, defined by recursion on `Ty`; every
  decoder shown to parse exactly them (`Parses`, closed under sequencing).
* C54, C55, C58 — consequences of C52 and C53, by induction over `Ty`; types with several encodings
  are set apart by a predicate (`Loose`).
* C56, C57 — `reach` and `elements` by recursion; induction over `Ty`. The factor in C57 has a witness.
* C59 — conversion of encode errors. C60 — relation `Refuses`, as C53 for encoding.
* C61, C62 — the emitted code, interpreted, equals the recursion of `Fields`/`Variants`, by induction
  over the declaration.
* C63, C64, C66 — Rust's own rules (Spec/Macro) against what the macros compute; exact when they agree;
  false for the forms listed above.
* C65 — the emitted constants. C67 — C61/C62 with C09.
* C68, C69 — invariant over histories: what was created is a permutation of what is owned, dropped or
  left behind.
* C70 — invariant over schedules: every datagram is the encoding of a request made or of its answer.
* C71, C72 — invariant over schedules: a running encoder has done what it would have done undisturbed
  on the contents since it got its guard.
* C73, C74 — invariant over schedules relating what was seen to places in the modification orders.
* C75, C76 — a relation between types with the embedding of values; decoders agree up to it unless the
  old one reports an unassigned discriminant, by mutual induction over the relation.
* C77, C78 — a stream in memory shows a stream of the list model; the relation is kept by every write
  and read, so by every program of them; every encoder and decoder is such a program, by induction over
  `Ty`. Frame: regions apart from the one written are read as before.
* C79 — the same for slots, with ownership: invariant over histories that allocations are disjoint and
  that the rest of memory is as at first.
* C80 — the loop that fills cells is related to the loop of the list model by induction over the items
  left; what was filled is a prefix of the buffer.
* C81, C82, C83 — decoding with an account of the heap erases to decoding, and every allocation is in
  exactly one place (counts, by induction over `Ty`); plain types allocate nothing; so tidy ones lose
  nothing. The loss of an item list is computed exactly, and instantiated without bound. For the exact
  conditions, each decoder has both bounds (`Acct`): what can happen at most, on any input, and octets for each
  thing that can happen. Failures are made by ending the input, which fails exactly if something is read.
  For errors only (`LeakyOnError`, and C53's `Refusing`), the same with octets that are rejected anywhere (`Turns`).
* C84 — an index stands for positions (a relation); parts and replacements are stated by list splitting.
  A boundary of chars is a cut of the text between chars, since only first octets of chars lie outside
  80..BF.
* C85 — item-wise comparison is equality of lists.
* C86 — the relations `Refuses` and `Rejects` of C60 and C53 only name errors of the declared type, by
  mutual induction over `Ty`.
* C87 — induction over error types.
* C88 — `source` is a function, so the chain is unique; that it ends is induction over error values.
  Which error types are `Error`s (or convert) is an induction over `Ty`, with `Within` for "occurs in".
* C89 — the same induction, for structures and enumerations.
* C90 — numerals are injective and end before a character that is no digit, so messages of one error
  type can be taken apart from the front; induction over error types. The hextet of a `Utf16Error` and
  the octet of a `Utf8Error` are shown in a field whose width counts the prefix `0x` too, so that leading zeros are lacking
  (`C90_hextet`, `C90_octet`); the numerals stay injective.
* C91, C95 — from C09 at the depth of the value, and C92.
* C92 — deeper unrollings agree with shallower ones up to the mark, by induction over declarations, then
  over the depth.
* C93 — the same, with what is left of the input as measure: behind a length, sign or discriminant there
  is less. Ranks order the declarations that are reached without reading.
* C94 — the same with ranks only; `n` links of a chain as the witness.
* C96, C97 — the sources are finite lists; statements on the lists that do not mention the configuration
  are checked by the kernel and lifted to all configurations; the configurations that remain are
  finitely many.
* C98 — induction over the values drawn, from the trace lemma of C03 and from C09.
* C99 — bit by bit for an arbitrary number, then arithmetic.
* C100 — from C27.
* C101, C102, C103 — decoding with an account of costs erases to decoding; a bound per octet consumed is
  closed under sequencing, and under loops by what their rounds consume; induction over `Ty`. The account
  of allocations agrees with that of C81.
* C104 — invariant: guards held are those of the frames, and frames are nested in the order of ranks. If
  nobody can go on, nobody holds a lock, by induction over ranks.
* C105 — each step lowers a weight that is exponential in the rank; what an encoder will do is an invariant.
  C104_exactly and C105_exactly: mutexes without cycles are ranked by how many others they contain; an encoder
  that is alone and never waits for itself holds ever more of the finitely many locks or comes to an end; and one
  that has come to its end has been through all that a lock contains, which is well-founded then.
* C106 — the same invariant, with times; `C106_exclusive` and `C106_steady` add that guards exclude each other and that nobody changes what a guard holds (proved from an invariant of its own in Proofs/LocksExclude.lean).
* C107, C108, C109 — promises of the leaves (`Promise`), closed under every constructor of `Open` by mutual
  induction, with the octets and values of containers stated from those of their parts. `Codec` relates `Ty` to `Open` by mutual
  induction: same values, same functions (Proofs/Agree).
* C110 — induction over items and fields; what calls are made is stated as a chain of streams.
* C111 — invariant over operations with an arbitrary function in the place of `encode`.
* C112 — refinement: memory shows the state of the program on values (`ShowsClient`); each allowed step keeps
  this, and that what is borrowed mutably is not borrowed twice (`Valid`).
* C113 — each step leaves the octets of all regions that it does not borrow mutably.
* C114 — a Hoare logic for code that returns or unwinds (`Leaves`), with the invariant that owned and destroyed
  items are distinct; one lemma per loop, then induction over histories.
* C115 — the same logic with an account of all that was made since (`Since`); the leaks by computing the loops.
* C116 — the length of the longest encoding by recursion over the type (`longest`), with closure of `IsLongest`
  under sums, products and copies; then `longest` against `maxSize`.
* C117 — `onPlatform` replaces the platform in a type, `moved` carries a value over; the format of a moved value is
  that of the value, so the round trip of C09 applies on the other platform. Platforms differ in the range and
  overflow checks of `SystemTime` and in `size_of`; the width of `usize` does not matter, since it is encoded as `u16`.
* C118 — evaluation of the constant with checked addition and multiplication (Model/SizeConst), by recursion over the
  type: it succeeds exactly if all constants that are read stay in range.
* C119 — options of a formatter as a record, `Debug` and `Display` of the standard library as functions of them
  (Model/Formatting; slices of octets are spelled out). Containers hand their options on; a slot does not.
* C120 — lazy values with states, initialisers as trees of what they force, and threads with the stacks of initialisers
  that they run (Model/Lazy); an invariant (who is busy is on a stack, once) for all initialisers, and a second one (the
  stacks descend, what is left of an initialiser makes what the whole one does) for those in order. No deadlock by
  descent along the numbers; a measure that each step lowers gives the bound, and fairness the end.
* C121 — the emitted bindings are of the listed names, so that an undisturbed place accepts them; a representation
  is emitted by name, and resolving gives the type that `encodeEnum_run` is then used for.
* C122 — `OnTape`: the buffer starts with the tape's items and the iterator is at the tape's place; preserved by each
  operation. `Fuller` (the same iterator with more cells filled) simulates the moving model by the copying one.
* C123 — `ShowsSlices`: each object's allocation has its buffer, no two share one, the rest is as before; kept by each
  operation, whose outcome is that of Model/SizedSlice (`raw_alike`). Those values are lists (`Means`); induction over
  histories.
* C124 — soundness by induction on the types of fields, with the arguments' error types put for names. Conversely
  there are arguments of which nothing holds but the bounds: their error types are towers of arrays, as high as no
  error type in the item (`encFree`, `decFree`), so that different error types stay different.
* C125 — one induction over declarations for every relation of encoders that is kept by sequencing and by mapping errors
  (`EncRel`): equality (no loops), "does the same where less than `B` octets remain" (guarded declarations; `B` grows
  by one with each octet written) and "takes no octets back". What never succeeds makes what refers to it never succeed.
  `exists_lift`: the unfolding is a value of the unrolled type.
* C126 — equality implies sameness by induction over types without floats and hash maps; equal hash maps are
  permutations of each other (`exists_order`), so as long. Conversely by `Ty.wire_delim`, with which C11 and C12 are proved.
* C127 — an invariant (the cells up to the length can be looked at) kept by each operation whose documented condition
  holds; slots in memory by adopting the array into `ShowsHeap` (C79). False for `from_utf8_unchecked`.
* C128 — a relation `Stops` next to `Accepts` and `Rejects`, and a predicate on decoders (`Halts`) closed under
  sequencing given what the first part accepts; induction over `Ty`. Which types have octets that stop is decided by
  a second induction, which needs to know which types have values at all (`Decodable`).
* C129 — the octets of a char by the number of them (`Octets`), from which decoding at either end is arithmetic; one
  lemma for iterators from both ends that show a list; positions by induction on the chars in front. The order by
  octets is that by code points since the octets of two chars have a common part and then differ as the chars do.
* C18, C54, C55, C116, exactly — `Exact` and `Silent` (types only) against `Accepts` and `wire`, induction over
  `Ty`; C18 and C116 from `longest`. The types for which each is true are described by an equivalence.
* C19, exactly — `mostTaken` and `furthest` by recursion over the type; upper bounds by the predicate of C19
  (`Consumes`) sharpened by what the first of two parts accepts, lower bounds by octets that are accepted,
  rejected or stopped at (C52, C53, C128).
* C93, exactly — where a depth is enough for the empty input, one less is enough for each reference before which
  nothing is read; the first depth that is enough is the rank. Which types read nothing is decided by whether
  they decode without octets at some depth.
* C20, C23, exactly — C20 from C18; C23 from C130: what completes the contents is left behind them by an earlier write.
* C130 — a predicate on decoders (`Completes`) closed under sequencing; what completes the first part, then what
  completes the second part with what is left.
* C94, exactly — a depth that is enough for all inputs makes the relation "decoding can get to" well-founded, and
  conversely each type is one deeper than those it gets to; an endless chain gives an input for each depth.
* C11, trailing hash maps — a predicate on values (`Trailing`); the entries at the end are read off until the octets
  end, which tells how many there are as long as each has an octet.
* C125, exactly — each object is a list of steps, octets or calls (`steps`, from the format); one induction shows that
  encoding runs them. Then: well-founded induction over references with nothing in front, inside induction over the
  octets that remain; conversely, where references can be followed without end the innermost call is always made.
* C131 — decoding on a machine is decoding with a test in front of the items. That it agrees unless it panics is by
  composition (`AgreesOn`); that types without large collections never panic is an instance of how decoders end
  (`Ends`); for the others, octets are put together from empty collections in front of the one that is too large.
* C132 — a relation between decoders (same end, same octets taken, related values), closed under all ways decoders are
  put together; maps with the same entries have the same entries after an insertion and after a permutation. For the
  encodings, maps with the same entries are permutations of each other.
* C133 — a spent amount is split in what is spent at once (less if encoding comes to its end) and what is spent for
  each octet; what is spent at once on an item is charged to the octet it writes. The splits add up to the number of
  parts. That the stream does not matter, and the bound on writes, hold of whatever is put together in the ways
  encoders are (`Effort.Inv`).
* C134 — the loops of the decoders are those of arrays of entries, followed by insertions (`inserted`, `added`);
  what the insertions leave is by induction from the end of the entries.
* C135 — two relations, between encoders (`Suits`: where the one succeeds the other does the same) and between
  decoders (`Takes`: what the one reads the other reads as what it becomes, and the one panics only where the other
  does), each kept by all ways in which encoders and decoders are put together; then by induction over `Recast`.
* C136 — invariant: what a thread asks for is of a lower rank than all that it holds, in the call and outside. If
  nobody could go on, the ranks asked for would descend without end. Steps are bounded by a weight as in C105.
* C137 — invariant: guards exclude each other. While a thread holds a guard of the outer lock, nobody sets what it
  covers, so how the call goes on (`Onward`) stays a matter of the contents at the moment when the guard was taken.
  `C137_changes` tells who changes a lock at all: only a thread whose guard excludes the others.
* C138 — by induction over programs; `Represents l` with `pos = 0` as long as nothing was taken from the front. What
  uses `rev()` moves `pos` only by `next_back`, after which it may not ask for the number of items (`Forward`).
  `collect` by induction over the items, the capacity being enough or one too small.
* C139 — `Gave` relates states of an iterator by the items given in between; the loops follow it by induction.
* C140 — decoding is local (C14), so a field that takes as many octets as before leaves the rest in its place; `OnlyPart`
  states the outcome of the whole from that of the part.
* C141 — one invariant for the calls (`Keeping`), taken with destructors that panic (nothing twice), with destructors that
  do not (nothing lost), and with tables that go on after a panic. `C141_paired` by another (`Makes`), of what was made.
* C142 — decoding that does not run out of input is not changed by more of it (C14), so a piece more leads where both
  pieces at once would have led, by induction over what is expected; the state by C52, C53 and C128.
* C143 — by induction over the values: the buffer begins with the octets of a group (`Holds`), and what failed has only
  written behind it (C04). Fewest: no group has room for the first value of the next (`Tight`), so any other grouping is
  never ahead.
* C144 — `Serves` ties decoding with an allocator to the account of C102 and C103: there is a list of requests, given by
  the input, that is followed until one is refused. `Asked` ties what was asked for to the value (`Asks`).
* C145 — `Sits`: the octets of a value are something as long as the offset, the octets of the part, and a rest, and those
  of the value with another part differ in the middle only; by recursion on the place. `C145_exactly`: if a value takes
  more than `MAX_ENCODED_SIZE` octets, choose the octet behind it to differ from the one read instead.
* C146 — `SortsOn`: with anything behind them, the octets are ordered as the values, and then as what is behind; this is
  kept by tuples, arrays and variants. Each other leaf has two values that are in the wrong order.
* C147 — without blanks and line breaks, both forms of the text are read in one way only: names end where no letter
  follows, numbers begin with a digit or a sign, and commas and brackets follow values; by recursion on what is shown.
* C148 — encoding is a program of writes that cannot look (`EncProg`, C77), so it puts the same octets into all buffers of
  a size; then by recursion on the program, keeping that the two slots agree where it is known what is there. A beginning
  of a datagram, received over it, changes nothing in the buffer.
* C149 — `Utters`: some pieces, of which the text is made, are offered one after the other until one is refused; kept by
  `write!`, then by recursion on the error. The room that is left determines what a bounded writer has, whatever the pieces.
* C150 — what a set of rules must promise of each method is a structure (`Sound`); from it, by induction on the program,
  that a program that compiles is defined exactly if it uses only what the rules leave. Both sets of rules are shown to
  keep the promises: for Stacked Borrows by computing the stacks, for Tree Borrows by what is reserved.
* C151 — `as_mut_slice` of slots, and streams, make references of references. What a set of rules must promise of that is
  another structure (`Nest`): how far up references have been made, that what was made last may be read and written, and
  that one may go back to what it was made of. Both sets of rules keep it; each method is a path up and down.
  C151_kept is a remark for users of `as_mut_ptr`: `set_len` compares with the length of the buffer, for which it makes a
  reference to it, and under Tree Borrows this ends the right to write by an earlier pointer that was already written by.
  (`Vec` makes no such reference.)
  C150_written and C151_written follow from a lemma about events: if what happens at a location only uses what was made
  since of the owner, and something is written there, then all that was made before is gone.
* C152 — a program keeps a discipline (`Fits`): whatever is used at a location, or made, is made of the innermost argument
  that covers the location, or of something made since the function was entered. Under such a discipline no argument of a
  function that still runs is touched from outside, so that the rules with and without protectors go the same way; for
  Tree Borrows also that what is left by the access at the end of a function is what was there. Each method is shown to
  keep the discipline. C152_forbidden and C152_conflict show that the rules with protectors are not the old ones.
* C153 — as C151, by `Nest`, with two more promises of the rules (`Glance`): a reference to a reference may be read by,
  and a new `&mut` may be used. `nth` destroys items by references made of a pointer to those that are skipped, by
  recursion on how many. C153_ended: a `&mut self` ends all earlier references under Stacked Borrows, whatever the method
  then does; under Tree Borrows only what is written ends them (C153_written).
* C154 — as C152: each method keeps the discipline, for any position, length and index, so that nothing is asked of the
  program. C154_calls is by rules for `deeds` that follow how a method is put together.
* C155 — as C151, but all that streams return is shared, so that it is enough to keep that it may be read (`Flow`, `Flows`).
  At the stream itself each method is a path up and down (`Nest`); in the buffer all but `write` only read. What
  `Input::read` returns is never ended (C155_input), as its lifetime says. What `as_slice` of an output stream returned is
  ended by a later `write` under Stacked Borrows (C155_ended), but not under Tree Borrows (C155_kept), since what is
  written is behind it.
* C156 — as C152 and C154: each method keeps the discipline, where arguments of streams are to the stream itself and to
  octets elsewhere, and never to the buffer but in functions of the standard library (`Clear`). Nothing is asked of the
  program but that the octets elsewhere are elsewhere.
* C157 and C158 — for all four kinds of programs at once (`Device` in Proofs/KeptRun), of which only this is used: each tag
  is new when it is made (`Counts`), what was returned stays listed, and what is returned as shared was made as a shared
  reference, after which the method writes nothing there and makes no `&mut` to it.
  Under Tree Borrows, what may be read stays so when others read or make references, and a frozen reference is disabled by
  whatever write succeeds, since one through itself would not; disabled references stay so. Under Stacked Borrows, above the
  item of a shared reference there are only such that allow no writing, so that whatever write succeeds is below and pops
  it, and raw pointers are put below it. The two claims differ in whether making a `&mut` counts (C158_differ).
* C159 and C160 — likewise, but for what is returned as exclusive, and with one more thing known of the programs: no call
  makes pointers of what earlier calls returned, only of the owner and of what it made itself (`Recent`, `MutDevice` in
  Proofs/MutRun). So under Stacked Borrows the reference stays on top until something below it is used, which pops or
  disables it, and there is no way back (`OnTop`, `Ended`). Raw pointers are put below it and do not matter. Under Tree
  Borrows nothing is made of it, so that whatever write succeeds is by itself, or disables it (`Alone`).
* C161 — as C160, but of all that the reference was made of it must be known that it may write. That is: the owner, which is
  active always since all is made of it (`Grounded`), and what `as_mut_slice` made on the way, as exclusive (`Owned`) and
  reserved (`Idle`). Reading by others leaves reserved references as they are. The first write by the reference makes all of
  them active (`Busy`), and from then on any other use freezes or disables it (`Shut`), and there is no way back.
* C162 — two programs, for all slots: what happens at a location depends only on whether it is in the buffer, in the slot
  itself, among the items and the one in question, and is computed in each case. Stacked Borrows disables the `&mut` that
  the pointer was made of when the owner reads, but not the pointer; Tree Borrows knows no difference between the two, and
  freezes both once they were written to.
* C163 — as C159, but the pointer is not on top: above it may be what cannot write, and right below it is the `&mut` it was
  made of (`Mounted` in Proofs/PtrKept), of which nothing else is made. So other pointers are put below both, and whatever
  else writes finds its item below the pointer and is kept by that `&mut` from counting the pointer among its peers.
* C164 — under Tree Borrows the pointer and the `&mut` it was made of are one node with two names (`Paired` in
  Proofs/PtrTree), so it goes as C160 and C161 do, if the `&mut` is not used. It is not: calls use only the owner, what they
  made themselves, and what was returned (`Keen`, `Lost` in Proofs/PtrRun), and the `&mut` was not returned.
* C165 — the loop of `each_mut` is split at the item in question (`muts_split` in Proofs/EachKept), and what comes after it in
  the loop is taken for a part of the program, so that C163's argument applies. If there is anything after it then that makes
  a `&mut` to all of the slice, which ends the pointer at once.
* C166 — under Tree Borrows what comes after the item in the loop only makes pointers, which writes nothing and so ends
  nothing (`OthersWrite.skips`, `Spoilt.skips` in Proofs/EachTree); the rest is C164's argument, with the `&mut` that each
  round makes of the buffer never returned.
