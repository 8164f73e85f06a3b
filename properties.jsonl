{"id": "C01", "title": "Output streams are append-only logs of the successful writes", "statement": "After any sequence of writes to an output stream made over a buffer, the written part of the stream is the concatenation, in order, of exactly the data of those writes that returned Ok; a write returns Ok exactly when its data fit in the remaining space; a failing write reports the capacity, position and count and changes nothing; the position never exceeds the capacity, position + remaining = capacity, the capacity never changes, and bytes past the position keep their initial contents.", "quantifier": "all initial buffers and all finite sequences of writes of any data, including empty data and writes that fail in the middle of the sequence", "why_tests_cant": "unit tests exercise a handful of write sequences; the claim is about every history", "anchors": ["oct/src/encode/output/mod.rs: Output::new, Output::write, Output::as_slice, Output::capacity, Output::remaining, Output::position"]}
{"id": "C02", "title": "Input streams deliver the buffer exactly once and in order", "statement": "After any sequence of reads (by-reference or copying) from an input stream, the data delivered by the successful reads, concatenated, are exactly the first `position` bytes of the buffer; a read succeeds exactly when the requested count does not exceed the remaining bytes; a failing read reports capacity, position and count and changes neither the stream nor (for copying reads) the destination; both kinds of read deliver the same data.", "quantifier": "all buffers and all finite sequences of reads of any counts, mixing both kinds of read and failing reads", "why_tests_cant": "tests sample a few counts on a few buffers", "anchors": ["oct/src/decode/input/mod.rs: Input::new, Input::read, Input::read_into, Input::remaining, Input::position"]}
{"id": "C03", "title": "Encoding writes exactly the documented format", "statement": "Encoding an encodable value into an output stream with enough room returns Ok, appends exactly the byte string that the documented data model assigns to the value (little-endian numbers, sixteen-bit lengths, one-byte discriminants, fields in order), advances the position by exactly its length and leaves every other byte of the buffer alone.", "quantifier": "all values of all supported types (arbitrarily nested), all output streams", "why_tests_cant": "the type universe and the values are infinite; a test fixes one nesting and one value", "anchors": ["oct/src/encode/encode/mod.rs: all Encode impls", "oct-macros/src/impls/encode_struct.rs", "oct-macros/src/impls/encode_enum.rs", "README.md: Data model"]}
{"id": "C04", "title": "Encoding into a stream that is too small never succeeds and never spills", "statement": "If the output stream has less room than the encoding of an encodable value needs, encoding does not return (it panics), what it wrote is a proper prefix of the encoding, and nothing before the starting position or past the written prefix is modified. Together with C03: encoding an encodable value succeeds if and only if the remaining room is at least the length of its encoding.", "quantifier": "all encodable values of all supported types, all output streams that are too small", "why_tests_cant": "the interesting case is every cut point inside every encoding", "anchors": ["oct/src/encode/encode/mod.rs: impl_numeric", "oct/src/encode/output/mod.rs: Output::write"]}
{"id": "C05", "title": "Encoding reports an error exactly for unencodable values", "statement": "With enough room, encoding returns an error if and only if some part of the value that has to be written is outside the format: a usize above 65535, an isize outside -32768..=32767, a collection or string longer than 65535, an enumeration discriminant outside the isize/usize wire range, a mutably borrowed RefCell. Encoding never panics with enough room, except for the SystemTime at exactly -2^63 seconds when overflow checks are on.", "quantifier": "all values of all supported types", "why_tests_cant": "the error conditions can be buried at any depth and position of a nested value", "anchors": ["oct/src/encode/encode/mod.rs: isize, usize, [T], RefCell, SystemTime impls", "oct/src/error/generic_encode_error.rs"]}
{"id": "C06", "title": "Oversized collections are rejected before anything is written", "statement": "Encoding a slice, vector, linked list, string or C string of more than 65535 elements returns BadLength carrying the exact length, and leaves the output stream exactly as it was, however small the stream is. Up to 65535 elements the length is never the reason of failure.", "quantifier": "all such collections, all element types, all output streams", "why_tests_cant": "needs the boundary for every element type; tests do not build 65536-element collections of nested types", "anchors": ["oct/src/encode/encode/mod.rs: [T], Vec, LinkedList, str, String, CStr, CString impls"]}
{"id": "C07", "title": "Item errors name the first unencodable item", "statement": "If an array, slice, vector or linked list has an encodable length and contains an unencodable item, the returned error is an item error whose index is that of the first unencodable item and whose payload is that item's own error; the items before it have been written in full.", "quantifier": "all item types, all collections, all positions of the first bad item", "why_tests_cant": "the index must be right for every position and every nesting", "anchors": ["oct/src/encode/encode/mod.rs: [T; N], [T], LinkedList impls", "oct/src/error/item_encode_error.rs"]}
{"id": "C08", "title": "usize and isize are portable sixteen-bit values", "statement": "A usize encodes successfully if and only if it is at most 65535, an isize if and only if it is in -32768..=32767, always as two bytes; whatever two bytes are decoded as usize (isize) give a value in that range, so a value that one machine can encode decodes to the same number on every machine whose pointer width is at least sixteen bits.", "quantifier": "all usize and isize values and all two-byte inputs", "why_tests_cant": "depends on machine width; tests run on one machine", "anchors": ["oct/src/encode/encode/mod.rs: usize, isize impls", "oct/src/decode/decode/mod.rs: usize, isize impls"]}
{"id": "C09", "title": "Round trip", "statement": "For every type that can be decoded, decoding the encoding of an encodable value, followed by arbitrary further bytes, returns the original value and consumes exactly the encoding. 'The original value' is up to what the format documents not to carry: lock poisoning, borrow state, sub-second part of a SystemTime, exhaustion of an inclusive range.", "quantifier": "all supported decodable types, all encodable values, all trailing bytes", "why_tests_cant": "infinitely many types and values; the property is about every nesting", "anchors": ["oct/src/encode/encode/mod.rs", "oct/src/decode/decode/mod.rs", "oct/src/sized_slice/code.rs", "oct/src/sized_str/code.rs", "oct-macros/src/impls"]}
{"id": "C10", "title": "Values can be streamed", "statement": "Encoding any sequence of values, of any mixture of types, one after the other into one output stream and decoding the same sequence of types from one input stream over the result gives back the sequence of values and ends exactly at the end of the encoded data.", "quantifier": "all finite sequences of (type, value) pairs", "why_tests_cant": "requires that no decoder over- or under-reads, for every pair of adjacent types", "anchors": ["oct/src/encode/encode/mod.rs", "oct/src/decode/decode/mod.rs", "oct/src/encode/output/mod.rs", "oct/src/decode/input/mod.rs"]}
{"id": "C11", "title": "Distinct values have distinct encodings", "statement": "Two values of the same decodable type whose encodings are the same byte string are the same value (up to what the format does not carry).", "quantifier": "all pairs of encodable values of all supported decodable types", "why_tests_cant": "a collision could be anywhere", "anchors": ["oct/src/encode/encode/mod.rs", "oct/src/decode/decode/mod.rs"]}
{"id": "C12", "title": "No encoding is a proper prefix of another", "statement": "If the encoding of one value is a prefix of the encoding of another value of the same type, the two encodings and the two values are the same.", "quantifier": "all pairs of encodable values of all supported decodable types", "why_tests_cant": "quantifies over pairs of values", "anchors": ["oct/src/encode/encode/mod.rs", "oct/src/decode/decode/mod.rs"]}
{"id": "C13", "title": "Truncated encodings are never accepted", "statement": "Decoding a proper prefix of the encoding of a value, as the whole input, never yields a value and never yields a decode error: it always stops with the short-input panic.", "quantifier": "all encodable values of all supported decodable types and all cut points", "why_tests_cant": "every cut point of every encoding", "anchors": ["oct/src/decode/decode/mod.rs: impl_numeric, String, CString impls"]}
{"id": "C14", "title": "Decoding only looks at the bytes it consumes", "statement": "Decoding does not modify the input buffer and never moves the position backwards or past the end; unless it stops for lack of input, its outcome and the number of bytes consumed are determined by the consumed bytes alone: they do not depend on what precedes the current position nor on what follows the consumed bytes.", "quantifier": "all supported types, all inputs, all positions, all continuations", "why_tests_cant": "non-interference over arbitrary surrounding bytes", "anchors": ["oct/src/decode/decode/mod.rs", "oct/src/decode/input/mod.rs"]}
{"id": "C15", "title": "Whatever decodes can be encoded again, to an equivalent encoding", "statement": "If decoding arbitrary bytes returns a value, then that value is encodable, and the re-encoded bytes decode to the same value again.", "quantifier": "all supported types (maps, sets and non-full sized slices excepted for the second half), all byte inputs including non-canonical ones", "why_tests_cant": "the input space is all byte strings, including malformed booleans and durations", "anchors": ["oct/src/decode/decode/mod.rs", "oct/src/encode/encode/mod.rs"]}
{"id": "C16", "title": "Malformed input never panics, only short input does", "statement": "Decoding arbitrary bytes never panics other than because the input ended too early.", "quantifier": "all supported types and all byte inputs", "why_tests_cant": "adversarial inputs; a fuzzer only samples them", "anchors": ["oct/src/decode/decode/mod.rs: Duration, Infallible and all other impls"]}
{"id": "C17", "title": "Decoding never causes undefined behaviour", "statement": "Decoding arbitrary bytes as any supported type never runs into undefined behaviour; in particular no invalid char and no invalid UTF-8 string is ever produced.", "quantifier": "all supported types and all byte inputs", "why_tests_cant": "undefined behaviour is not observable by a test", "anchors": ["oct/src/decode/decode/mod.rs: char, String impls", "oct/src/sized_str/conv.rs: from_utf8", "oct/src/sized_slice/code.rs"]}
{"id": "C18", "title": "MAX_ENCODED_SIZE bounds every encoding", "statement": "For every type with a MAX_ENCODED_SIZE, no value has an encoding longer than it.", "quantifier": "all types implementing SizedEncode, all encodable values", "why_tests_cant": "tests check the constant against chosen values", "anchors": ["oct/src/encode/sized_encode/mod.rs", "oct/src/sized_slice/code.rs: SizedEncode", "oct/src/sized_str/code.rs: SizedEncode", "oct-macros/src/impls/sized_encode_struct.rs", "oct-macros/src/impls/sized_encode_enum.rs"]}
{"id": "C19", "title": "MAX_ENCODED_SIZE bounds every decoding", "statement": "For every type with a MAX_ENCODED_SIZE, decoding (whatever its outcome) never consumes more than that many bytes.", "quantifier": "all types implementing SizedEncode and Decode, all byte inputs", "why_tests_cant": "quantifies over all inputs, including erroneous ones", "anchors": ["oct/src/encode/sized_encode/mod.rs: SizedEncode documentation", "oct/src/decode/decode/mod.rs"]}
{"id": "C20", "title": "A slot made with Slot::new holds any value", "statement": "Writing any encodable value to a slot created with `Slot::new` succeeds without panicking, and reading the slot then returns the value.", "quantifier": "all types implementing SizedEncode and Decode, all encodable values", "why_tests_cant": "depends on MAX_ENCODED_SIZE being right for every type", "anchors": ["oct/src/slot/mod.rs: Slot::new, Slot::write, Slot::read"]}
{"id": "C21", "title": "Slot length and capacity stay consistent", "statement": "Under any sequence of slot operations (write, read, copy_from_slice, set_len, mutation through the byte views), the slot's capacity never changes, its length never exceeds its capacity, and its contents view has exactly that length; the operations that would break this panic and leave length and contents alone.", "quantifier": "all finite histories of safe slot operations, all values written, all capacities", "why_tests_cant": "all histories", "anchors": ["oct/src/slot/mod.rs: copy_from_slice, set_len, write, read, as_slice, as_mut_slice"]}
{"id": "C22", "title": "A slot holds exactly the last successful write", "statement": "After a successful write the slot's contents view is exactly the encoding of the value, whatever the slot held before; after a failed (Err) write the length is unchanged.", "quantifier": "all slots, all values", "why_tests_cant": "depends on leftovers of earlier, longer contents", "anchors": ["oct/src/slot/mod.rs: Slot::write"]}
{"id": "C23", "title": "Slot::read decodes only the slot's contents", "statement": "Reading a slot decodes from its contents view (the first `len` bytes) only: stale bytes past the length never influence the result.", "quantifier": "all slots reachable by any history, all types", "why_tests_cant": "needs stale bytes left by a longer earlier value", "anchors": ["oct/src/slot/mod.rs: Slot::read"]}
{"id": "C24", "title": "Double-ended iteration yields every element exactly once", "statement": "For any interleaving of next and next_back on the by-value iterator of a sized slice, the items returned are the elements of the slice taken from the front and from the back in that order, each exactly once, the remaining view is the untouched middle part, and after exhaustion both return None forever; no element is read twice or before initialisation.", "quantifier": "all sized slices and all finite interleavings of next / next_back", "why_tests_cant": "all interleavings; double reads are invisible to tests over Copy types", "anchors": ["oct/src/sized_iter/mod.rs: SizedIter::next, next_back, as_slice", "oct/src/sized_slice/iter.rs: IntoIterator"]}
{"id": "C25", "title": "nth agrees with repeated next", "statement": "Calling nth(k) on the by-value iterator returns the same item and leaves the same remaining elements as calling next k+1 times and keeping the last item.", "quantifier": "all iterator states and all k", "why_tests_cant": "every state and index; the library's tests never call nth after next", "anchors": ["oct/src/sized_iter/mod.rs: SizedIter::nth"]}
{"id": "C26", "title": "size_hint is exact", "statement": "size_hint of the by-value iterator returns exactly the number of remaining items as both bounds (ExactSizeIterator contract), in every reachable state.", "quantifier": "all reachable iterator states", "why_tests_cant": "all histories of next/next_back", "anchors": ["oct/src/sized_iter/mod.rs: SizedIter::size_hint, ExactSizeIterator"]}
{"id": "C27", "title": "Sized slices are built faithfully or refused", "statement": "Building a sized slice of capacity N from a slice succeeds if and only if there are at most N elements, then holds exactly those elements in order, and otherwise reports N and the length; collecting an iterator keeps exactly the first min(N, length) items; length, capacity, emptiness, fullness, conversion to vector, boxed slice, reference arrays and clones all agree with the held elements.", "quantifier": "all element types, all capacities, all inputs", "why_tests_cant": "all lengths around every capacity", "anchors": ["oct/src/sized_slice/mod.rs: new, len, is_empty, is_full, each_ref, clone", "oct/src/sized_slice/iter.rs: FromIterator", "oct/src/sized_slice/conv.rs"]}
{"id": "C28", "title": "copy_from_slice of a sized slice is memory safe", "statement": "Calling the safe method SizedSlice::copy_from_slice with any data either panics or leaves the sized slice holding exactly the data; it never writes outside the sized slice's buffer.", "quantifier": "all sized slices, all data", "why_tests_cant": "an out-of-bounds write may go unnoticed in a test", "anchors": ["oct/src/sized_slice/mod.rs: SizedSlice::copy_from_slice"]}
{"id": "C29", "title": "Sized strings are always valid UTF-8 of at most N bytes", "statement": "Every safe way of making a sized string (from str, from bytes, from String, from a char, by parsing, by collecting chars, by decoding) either fails or gives a sized string whose bytes are exactly the source text, are valid UTF-8 and number at most N; making it from text or from valid bytes fails exactly when there are more than N bytes, and from bytes it otherwise fails exactly when they are not valid UTF-8.", "quantifier": "all byte strings, all texts, all capacities", "why_tests_cant": "all byte strings", "anchors": ["oct/src/sized_str/conv.rs", "oct/src/sized_str/mod.rs: new, FromIterator", "oct/src/sized_str/code.rs: Decode"]}
{"id": "C30", "title": "Collecting chars keeps the longest prefix that fits", "statement": "Collecting chars into a sized string of capacity N gives the longest prefix (in chars) of the sequence whose UTF-8 encoding has at most N bytes: a char is never split and chars after the first that does not fit are ignored even if they would fit.", "quantifier": "all char sequences and capacities", "why_tests_cant": "all mixtures of 1- to 4-byte chars around the capacity", "anchors": ["oct/src/sized_str/mod.rs: FromIterator<char>"]}
{"id": "C31", "title": "String decoding accepts exactly UTF-8 and pinpoints the first error", "statement": "Decoding a String succeeds if and only if the announced bytes are the UTF-8 encoding of some sequence of chars, and then yields that text; otherwise it reports the index of the first byte at which the text stops being the UTF-8 encoding of chars (the longest valid prefix) and the value of the byte there.", "quantifier": "all byte strings of at most 65535 bytes", "why_tests_cant": "UTF-8 has many corner cases (overlong forms, surrogates, truncation), at any offset", "anchors": ["oct/src/decode/decode/mod.rs: String impl", "oct/src/error/utf8_error.rs"]}
{"id": "C32", "title": "C string decoding rejects inner NULs at the right index", "statement": "Decoding a CString succeeds if and only if none of the announced bytes is zero, and otherwise reports the index of the first zero byte.", "quantifier": "all byte strings of at most 65535 bytes", "why_tests_cant": "all positions of NULs", "anchors": ["oct/src/decode/decode/mod.rs: CString impl", "oct/src/error/c_string_decode_error.rs"]}
{"id": "C33", "title": "Booleans and option-like discriminants", "statement": "true and false encode as 1 and 0; any non-zero byte decodes as true. The variants of Option, Result and Bound are told apart by exactly one leading byte; decoding a Bound with a leading byte above 2 reports that byte as unassigned.", "quantifier": "all payload types and values, all leading bytes", "why_tests_cant": "all bytes times all payload types", "anchors": ["oct/src/encode/encode/mod.rs: bool, Option, Result, Bound impls", "oct/src/decode/decode/mod.rs: bool, Option, Result, Bound impls"]}
{"id": "C34", "title": "char decoding accepts exactly the Unicode scalar values", "statement": "Decoding a char from four bytes yields a char if and only if the little-endian number is a Unicode scalar value (at most 0x10FFFF and not a surrogate), and reports that number as the offending code point otherwise.", "quantifier": "all four-byte inputs (2^32)", "why_tests_cant": "2^32 inputs, and a wrong acceptance is undefined behaviour", "anchors": ["oct/src/decode/decode/mod.rs: char impl", "oct/src/error/char_decode_error.rs"]}
{"id": "C35", "title": "Non-zero integers never decode to zero", "statement": "Decoding a NonZero integer of any width yields the encoded number if any byte is non-zero, and otherwise reports a null integer; the bytes are consumed in both cases.", "quantifier": "all widths and all inputs", "why_tests_cant": "2^128 inputs", "anchors": ["oct/src/decode/decode/mod.rs: impl_non_zero", "oct/src/error/non_zero_decode_error.rs"]}
{"id": "C36", "title": "Derived enumerations use Rust's discriminants", "statement": "The derive macros give a variant the discriminant the language gives it: the stated literal, else one more than the previous variant's, else zero for the first variant; and the encoding of a value is that discriminant encoded as the repr type, followed by the variant's fields in order.", "quantifier": "all enumerations with literal discriminants, any number of variants, any repr", "why_tests_cant": "macro expansion over arbitrary enum definitions", "anchors": ["oct-macros/src/discriminants/mod.rs: Discriminants::next", "oct-macros/src/impls/encode_enum.rs"]}
{"id": "C37", "title": "Derived enumerations decode to the variant that was encoded, or report the unassigned discriminant", "statement": "Decoding a derived enumeration reads the discriminant; if it belongs to a variant, the result is that variant with its fields decoded (a field failure is reported as BadField, never as another variant); otherwise the result is UnassignedDiscriminant carrying exactly the value read, after consuming only the discriminant.", "quantifier": "all well-formed enumerations, all inputs", "why_tests_cant": "all enum definitions and all inputs", "anchors": ["oct-macros/src/impls/decode_enum.rs"]}
{"id": "C38", "title": "Derived structures are the concatenation of their fields", "statement": "The encoding of a derived structure or tuple is the concatenation of the encodings of its fields in declaration order; a structure with one field encodes like the field; regrouping fields into nested structures or tuples does not change the encoding.", "quantifier": "all field lists, all values", "why_tests_cant": "all structure definitions", "anchors": ["oct-macros/src/impls/encode_struct.rs", "oct/src/encode/encode/mod.rs: impl_tuple"]}
{"id": "C39", "title": "Types documented to share a format are interchangeable on the wire", "statement": "A slice, a vector, a linked list and a sized slice holding the same items encode to the same bytes; so do str, String, sized strings of any capacity with the same text, and the byte vector of that text; so do a value and the value behind a reference, box, arc, rc, cow, cell, mutex, lock, lazy, atomic or number wrapper; an array of n items encodes like n consecutive fields.", "quantifier": "all item types, values and capacities", "why_tests_cant": "all values of all pairs of types", "anchors": ["oct/src/encode/encode/mod.rs", "oct/src/sized_slice/code.rs", "oct/src/sized_str/code.rs"]}
{"id": "C40", "title": "Maps and sets survive a round trip", "statement": "Decoding the encoding of a hash map or hash set gives back the same map or set.", "quantifier": "all maps and sets of encodable keys and values", "why_tests_cant": "all contents and iteration orders", "anchors": ["oct/src/encode/encode/mod.rs: HashMap, HashSet impls", "oct/src/decode/decode/mod.rs: HashMap, HashSet impls"]}
{"id": "C41", "title": "System times are encoded as the nearest second", "statement": "A SystemTime encodes as the nearest signed Unix timestamp in seconds; decoding a timestamp gives exactly that whole second or, if the platform cannot represent it, an error carrying the timestamp.", "quantifier": "all representable times before and after the epoch, all platforms' time ranges, all timestamps", "why_tests_cant": "sub-second parts on both sides of the epoch, and platform limits", "anchors": ["oct/src/encode/encode/mod.rs: SystemTime impl", "oct/src/decode/decode/mod.rs: SystemTime impl", "oct/src/error/system_time_decode_error.rs"]}
{"id": "C42", "title": "Durations round-trip exactly and decode canonically", "statement": "A Duration encodes as eight bytes of seconds and four bytes of nanoseconds and round-trips exactly; decoding any twelve bytes yields the duration secs + nanos, carrying excess nanoseconds into seconds, or reports an error when it is not representable.", "quantifier": "all durations, all twelve-byte inputs", "why_tests_cant": "2^96 inputs", "anchors": ["oct/src/encode/encode/mod.rs: Duration impl", "oct/src/decode/decode/mod.rs: Duration impl"]}
{"id": "C43", "title": "IP addresses are encoded in network byte order", "statement": "IPv4 and IPv6 addresses are encoded with their octets in big-endian (network) order, as documented, and round-trip.", "quantifier": "all addresses", "why_tests_cant": "2^128 addresses", "anchors": ["oct/src/encode/encode/mod.rs: Ipv4Addr, Ipv6Addr impls", "oct/src/decode/decode/mod.rs: Ipv4Addr, Ipv6Addr impls"]}
{"id": "C44", "title": "Cells and locks encode their content only", "statement": "Mutex and RwLock encode like their content whether poisoned or not and decode unpoisoned; a RefCell encodes like its content if it is not mutably borrowed, and otherwise reports a bad borrow without writing anything.", "quantifier": "all contents, poisoned or not, borrowed or not", "why_tests_cant": "all content types and states", "anchors": ["oct/src/encode/encode/mod.rs: Mutex, RwLock, RefCell impls", "oct/src/decode/decode/mod.rs: Mutex, RwLock, RefCell impls"]}
{"id": "C45", "title": "A DecodeBorrowed type decodes every encoding of its borrowed form", "statement": "Every encoding of a borrowed value of type B (slice, str, CStr, or T behind a pointer) can be decoded by each type implementing DecodeBorrowed<B>, yielding an owned value that borrows to the original, unless the type's own length limit refuses it.", "quantifier": "all types implementing DecodeBorrowed, all encodable borrowed values", "why_tests_cant": "all values and lengths", "anchors": ["oct/src/decode/decode_borrowed/mod.rs: DecodeBorrowed", "oct/src/sized_slice/code.rs: DecodeBorrowed", "oct/src/sized_str/code.rs: DecodeBorrowed"]}
{"id": "C46", "title": "Smaller sized containers decode larger ones' encodings when the length allows", "statement": "A sized string (sized slice) of capacity M decodes the encoding of any sized string (sized slice) of capacity N whose length is at most M, to the same contents, and otherwise reports a bad length with M and that length.", "quantifier": "all M, N, all contents", "why_tests_cant": "all pairs of capacities", "anchors": ["oct/src/error/length_error.rs: LengthError documentation", "oct/src/sized_str/code.rs: Decode", "oct/src/sized_slice/code.rs: Decode"]}
{"id": "C47", "title": "Generic decode errors preserve the cause", "statement": "Converting a field's decode error to the generic decode error keeps the cause and its data: bad text keeps value and index, NUL keeps index, small buffer keeps capacity and length, system time keeps the timestamp; an unassigned discriminant is kept zero-extended to 128 bits.", "quantifier": "all error values at any nesting of collections and enumerations", "why_tests_cant": "all nestings of errors and all discriminant values of all widths", "anchors": ["oct/src/error/generic_decode_error.rs", "oct/src/primitive_discriminant/mod.rs"]}
{"id": "C48", "title": "Comparison, ordering and hashing of sized containers agree with their borrowed forms", "statement": "Equality and ordering of sized slices and sized strings are those of the slices and texts they hold, whatever the capacities; and, as Borrow requires, they hash like them.", "quantifier": "all contents, all pairs of capacities, all hashers", "why_tests_cant": "all contents and hashers", "anchors": ["oct/src/sized_slice/cmp.rs", "oct/src/sized_slice/mod.rs: Hash", "oct/src/sized_str/cmp.rs", "oct/src/sized_str/mod.rs: Hash"]}
{"id": "C49", "title": "Decoded collections have the announced number of items and fixed-size formats a fixed length", "statement": "A decoded vector, linked list, string or C string has exactly the number of items announced by its two-byte length, so at most 65535; every array, number, duration, address and other fixed-size type has encodings of one length only.", "quantifier": "all inputs, all values", "why_tests_cant": "all inputs", "anchors": ["oct/src/decode/decode/mod.rs: Vec, LinkedList, String, CString impls", "oct/src/encode/sized_encode/mod.rs"]}
{"id": "C50", "title": "Decode item errors name the first undecodable item", "statement": "If decoding an array, vector or linked list fails because of an item, the error carries the zero-based index of the first item that failed and that item's own error, and the input position is where that item's decoding stopped.", "quantifier": "all item types, all inputs, all positions", "why_tests_cant": "all positions of the first failing item", "anchors": ["oct/src/decode/decode/mod.rs: [T; N], Vec, LinkedList impls", "oct/src/error/item_decode_error.rs"]}
{"id": "C51", "title": "Raw parts of sized strings are fully initialised", "statement": "SizedStr::into_raw_parts returns a byte array of which every byte is initialised, for every sized string that safe code can make, and feeding the parts back gives the same string.", "quantifier": "all sized strings made by any safe constructor, clone or default", "why_tests_cant": "all ways of making a sized string; reading uninitialised memory is invisible to tests", "anchors": ["oct/src/sized_str/conv.rs: into_raw_parts", "oct/src/sized_str/mod.rs: derived Clone and Default"]}
{"id": "C52", "title": "Decoding succeeds exactly on the documented language", "statement": "Decoding a type gives value v and moves the position past bs exactly when the octets ahead begin with bs and bs is, by the data model, an octet string for v. The language is defined by recursion on the type, without reference to the decoder.", "quantifier": "all types built from the implementations and derives, all inputs and positions, all values", "why_tests_cant": "all types and all octet strings, in both directions: nothing else is accepted", "anchors": ["README.md: Data model", "oct/src/decode/decode/mod.rs: all impls", "oct-macros/src/impls/decode_struct.rs", "oct-macros/src/impls/decode_enum.rs"]}
{"id": "C53", "title": "Decoding fails exactly on the documented bad inputs", "statement": "Decoding a type reports error e and moves the position past bs exactly when the octets ahead begin with bs and bs is wrong in the way e tells; decoding neither succeeds nor reports an error exactly when no beginning of the octets ahead is accepted or wrong in such a way.", "quantifier": "all types, all inputs and positions, all errors", "why_tests_cant": "all octet strings and all nestings of errors, in both directions", "anchors": ["oct/src/decode/decode/mod.rs: all impls", "oct/src/error/: all decode errors", "oct-macros/src/impls/decode_struct.rs", "oct-macros/src/impls/decode_enum.rs"]}
{"id": "C54", "title": "Encodings are canonical", "statement": "Two different octet strings are never decoded as the same value: whatever is decoded as v is the encoding of v.", "quantifier": "all types, all inputs", "why_tests_cant": "all pairs of octet strings", "anchors": ["oct/src/decode/decode/mod.rs: all impls", "oct/src/encode/encode/mod.rs: all impls"]}
{"id": "C55", "title": "Decoding consumes what encoding writes", "statement": "Decoding a value consumes exactly as many octets as encoding that value writes.", "quantifier": "all types, all inputs that decode", "why_tests_cant": "all octet strings, including those no encoder writes", "anchors": ["oct/src/decode/decode/mod.rs: all impls", "oct/src/encode/encode/mod.rs: all impls"]}
{"id": "C56", "title": "Decoding consumes a bounded number of octets", "statement": "Whatever the input and the outcome, decoding a type moves the position by at most a number that the type alone determines (lengths being at most 65535), so that a peer cannot make a decoder read on without end.", "quantifier": "all types, including those of dynamic size and nested ones, all inputs, all outcomes", "why_tests_cant": "all inputs", "anchors": ["oct/src/decode/decode/mod.rs: all impls"]}
{"id": "C57", "title": "Decoded values are at most a constant factor larger than the input", "statement": "The number of elements in all collections and texts of a decoded value, at every depth, is at most 32768 times the number of octets consumed, and no smaller factor is sufficient.", "quantifier": "all types, all inputs that decode", "why_tests_cant": "all nestings of collections and all inputs", "anchors": ["oct/src/decode/decode/mod.rs: Vec, LinkedList, HashMap, HashSet, String, CString impls", "oct/src/sized_slice/code.rs: Decode", "oct/src/sized_str/code.rs: Decode"]}
{"id": "C58", "title": "The format is unambiguous and self-delimiting", "statement": "At most one beginning of any octet sequence is accepted for a type, as one value only, and then no beginning is rejected; no encoding is a proper beginning of another encoding of the same type.", "quantifier": "all types, all octet strings", "why_tests_cant": "all pairs of octet strings", "anchors": ["README.md: Data model", "oct/src/decode/decode/mod.rs: all impls"]}
{"id": "C59", "title": "Generic encode errors preserve the cause", "statement": "Converting a field's encode error to the generic encode error keeps the number that does not fit and whether it is a usize or an isize, at any nesting.", "quantifier": "all encode errors", "why_tests_cant": "all nestings of errors and all numbers", "anchors": ["oct/src/error/generic_encode_error.rs"]}
{"id": "C60", "title": "Encoding fails exactly on the documented values", "statement": "Encoding a value returns error e exactly when the value, or the first part of it in the order of encoding that is at fault, is not encodable in the way e tells, and what is encoded before it fits; the output then holds exactly what is encoded before it.", "quantifier": "all types, all values, all outputs", "why_tests_cant": "all values and nestings, in both directions", "anchors": ["oct/src/encode/encode/mod.rs: all impls", "oct/src/error/: all encode errors", "oct-macros/src/impls/encode_struct.rs", "oct-macros/src/impls/encode_enum.rs"]}
{"id": "C61", "title": "Derived structures encode and decode their fields in declaration order", "statement": "The code emitted by derive(Encode) and derive(Decode) for a structure compiles, encodes the fields in the order of their declaration, each through its own capture, and decodes them in that order, each into its own field; its errors are the fields' errors made generic.", "quantifier": "all structures (unit, tuple and named, with any number of fields of any types), all values, all streams", "why_tests_cant": "all shapes and numbers of fields; a test fixes one declaration", "anchors": ["oct-macros/src/impls/encode_struct.rs", "oct-macros/src/impls/decode_struct.rs", "oct-macros/src/impl_derive_macro.rs"]}
{"id": "C62", "title": "Derived enumerations encode and decode the right variant", "statement": "The code emitted for an enumeration compiles and, for a value of a variant, encodes that variant's own discriminant, as Rust assigns it, in the type that Rust gives the discriminants, then that variant's own fields; decoding selects the variant by these discriminants.", "quantifier": "all enumerations with any variants, field shapes, discriminants and representations that the macros take, all values, all streams", "why_tests_cant": "all declarations", "anchors": ["oct-macros/src/impls/encode_enum.rs", "oct-macros/src/impls/decode_enum.rs", "oct-macros/src/discriminants/mod.rs", "oct-macros/src/repr/mod.rs"]}
{"id": "C63", "title": "The macros find the discriminants of every enumeration", "statement": "For every enumeration that rustc accepts, the macros compute for each variant the discriminant that Rust assigns, whether explicit, in any notation, or implied by its predecessors.", "quantifier": "all lists of optional discriminant expressions", "why_tests_cant": "all sequences of explicit and implied discriminants and all literals up to 2^128", "anchors": ["oct-macros/src/discriminants/mod.rs"]}
{"id": "C64", "title": "The macros find the representation of every enumeration", "statement": "For every enumeration that rustc accepts, the macros use the integer type given by its repr attributes, or isize without one.", "quantifier": "all lists of attributes", "why_tests_cant": "all combinations of attributes", "anchors": ["oct-macros/src/repr/mod.rs", "oct-macros/src/impl_derive_macro.rs"]}
{"id": "C65", "title": "Derived sizes and the choice of derivable items are coherent", "statement": "The constant emitted by derive(SizedEncode) is the sum over a structure's fields, and the maximum over an enumeration's variants of the discriminant and the fields; derive(Encode) and derive(Decode) take the same items, namely all structures, no unions and exactly the enumerations covered by C63 and C64, and derive(SizedEncode) takes all of these.", "quantifier": "all items", "why_tests_cant": "all declarations", "anchors": ["oct-macros/src/impls/sized_encode_struct.rs", "oct-macros/src/impls/sized_encode_enum.rs", "oct-macros/src/lib.rs", "oct-macros/src/impl_derive_macro.rs"]}
{"id": "C66", "title": "The emitted impl covers the whole generic type", "statement": "The header of the emitted impl declares the parameters of the item and passes them on in order, each by name and kind, and is accepted by rustc.", "quantifier": "all lists of generic parameters", "why_tests_cant": "all combinations of lifetimes, types and constants with and without defaults", "anchors": ["oct-macros/src/generic_name/mod.rs", "oct-macros/src/impl_derive_macro.rs"]}
{"id": "C67", "title": "Emitted impls round-trip", "statement": "What the emitted encode has written for a structure or enumeration, the emitted decode reads back as the same variant and the same fields, leaving what follows.", "quantifier": "all items that the macros take, all values whose fields round-trip, all streams", "why_tests_cant": "all declarations and values", "anchors": ["oct-macros/src/impls/encode_struct.rs", "oct-macros/src/impls/decode_struct.rs", "oct-macros/src/impls/encode_enum.rs", "oct-macros/src/impls/decode_enum.rs"]}
{"id": "C68", "title": "Items of sized slices are destroyed at most once", "statement": "Whatever a program does with sized slices, their iterators, clones and the vectors made from and into them, no item is destroyed twice, and no item that was destroyed can be reached.", "quantifier": "all histories of the operations on any number of slices, iterators and vectors, all capacities", "why_tests_cant": "all interleavings of operations on all live containers", "anchors": ["oct/src/sized_slice/mod.rs: SizedSlice", "oct/src/sized_slice/conv.rs", "oct/src/sized_slice/iter.rs", "oct/src/sized_iter/mod.rs: SizedIter"]}
{"id": "C69", "title": "Items of sized slices are not leaked", "statement": "When a program has let go of everything, each item that was put into, cloned within or decoded into a sized slice has been destroyed exactly once.", "quantifier": "all histories as in C68, also those with decodings that fail", "why_tests_cant": "all histories; leaks are invisible to assertions on values", "anchors": ["oct/src/sized_slice/mod.rs: SizedSlice", "oct/src/sized_slice/code.rs: decode", "oct/src/sized_iter/mod.rs: SizedIter"]}
{"id": "C70", "title": "Servers and clients hear only what was sent", "statement": "In the client/server protocol of the documentation, run with slots over a network that loses, duplicates and reorders datagrams, every request the server hears is one that a client sent, every response a client hears is an answer to such a request, and a request that is sent, served and answered gives its client the answer.", "quantifier": "all schedules of sends, receptions, losses, duplications and reorderings, all numbers of clients, all message types, all answering functions", "why_tests_cant": "all interleavings and all network faults", "anchors": ["oct/src/lib.rs: UDP example", "oct/src/slot/mod.rs: Slot"]}
{"id": "C71", "title": "Encoding a shared lock is a snapshot", "statement": "A thread that encodes a Mutex or RwLock while other threads write to it and encode it ends as if it had encoded, in one go, the contents of the lock at one moment at which nobody was writing.", "quantifier": "all schedules, all numbers of threads, all content types, all ways to split the encoder and the updates into steps", "why_tests_cant": "schedules cannot be enumerated, and torn reads are rare", "anchors": ["oct/src/encode/encode/mod.rs: Encode for Mutex", "oct/src/encode/encode/mod.rs: Encode for RwLock"]}
{"id": "C72", "title": "No half-made update of a shared lock is encoded", "statement": "If threads leave the contents of a Mutex or RwLock in order whenever they drop their guards, everything that is encoded is in order, also when threads panic.", "quantifier": "all schedules and all points at which a thread panics", "why_tests_cant": "all schedules and crash points", "anchors": ["oct/src/encode/encode/mod.rs: Encode for Mutex", "oct/src/encode/encode/mod.rs: Encode for RwLock"]}
{"id": "C73", "title": "Encoded atomics show values they had, and time goes forward", "statement": "What is encoded of an atomic is a value that it had, under every ordering that Relaxed allows; a thread that encodes it again never sees an older one.", "quantifier": "all schedules, all results of relaxed loads, all numbers of threads and atomics", "why_tests_cant": "weak memory behaviours depend on hardware and timing", "anchors": ["oct/src/encode/encode/mod.rs: impl_atomic"]}
{"id": "C74", "title": "Several atomics are encoded as they were at one time", "statement": "Encoding a value that holds several atomics gives the values that they held together at some time.", "quantifier": "all schedules, all numbers of threads and atomics", "why_tests_cant": "torn snapshots are rare", "anchors": ["oct/src/encode/encode/mod.rs: impl_atomic"]}
{"id": "C75", "title": "Enumerations may get further variants", "statement": "When variants are appended to enumerations, anywhere within a type but in keys of hash maps and items of hash sets, old values are encoded as before, the new program reads everything that the old one reads as the same value, and the old program never takes what the new one reads for something else: it refuses it as an unassigned discriminant. MAX_ENCODED_SIZE does not shrink.", "quantifier": "all types, all places at which variants are appended, all values, all inputs", "why_tests_cant": "relates two versions of a program over all types and inputs", "anchors": ["oct-macros/src/impls/decode_enum.rs", "oct-macros/src/impls/encode_enum.rs", "oct-macros/src/discriminants/mod.rs"]}
{"id": "C76", "title": "Structures may get further fields", "statement": "When fields are appended to a structure, the old program reads the first fields of the new structure, and the new program reads the old structure.", "quantifier": "all structures, all appended fields, all inputs", "why_tests_cant": "relates two versions of a program over all types and inputs", "anchors": ["oct-macros/src/impls/decode_struct.rs", "oct-macros/src/impls/encode_struct.rs"]}
{"id": "C77", "title": "Encoding in memory is within bounds and touches nothing else", "statement": "Encoding to a stream over a buffer in memory has the result and leaves the octets that the stream as a list has; every pointer operation is within an allocation and its regions do not overlap, and no memory but the octets written is changed.", "quantifier": "all types, all values, all memories, all places of local arrays", "why_tests_cant": "tests see neither out-of-bounds accesses that hit mapped memory nor overlaps, and cannot enumerate memory layouts", "anchors": ["oct/src/encode/output/mod.rs", "oct/src/encode/encode/mod.rs"]}
{"id": "C78", "title": "Decoding in memory is within bounds and changes nothing", "statement": "Decoding from a stream over a buffer in memory has the result that the stream as a list has; every pointer operation is within an allocation and on initialised octets, and memory is the same afterwards.", "quantifier": "all types, all buffers, all memories, all places of local arrays", "why_tests_cant": "tests see neither out-of-bounds reads that hit mapped memory nor reads of uninitialised memory", "anchors": ["oct/src/decode/input/mod.rs", "oct/src/decode/decode/mod.rs"]}
{"id": "C79", "title": "Slots own their memory", "statement": "Whatever a program does with any number of slots, their buffers are allocations of their own, each operation in memory does what it does with slots as values, all other memory stays the same, nothing is undefined but decoding an invalid char (C17), and dropping all slots gives all memory back.", "quantifier": "all histories of operations on any number of slots, all memories", "why_tests_cant": "ranges over unbounded histories; leaks, double frees and aliasing have no visible result", "anchors": ["oct/src/slot/mod.rs"]}
{"id": "C80", "title": "Decoded vectors, arrays and strings are built from initialised memory", "statement": "Decoding a Vec, an array, a SizedSlice, a String or a CString writes to cells of its own buffer only, makes a value of initialised cells only, has the result of the list model, and gives its buffer back if it fails; it is undefined only if decoding an item is.", "quantifier": "all item types, all inputs, all memories", "why_tests_cant": "reads of uninitialised memory and writes out of bounds have no reliable visible result", "anchors": ["oct/src/decode/decode/mod.rs: Decode for Vec", "oct/src/decode/decode/mod.rs: Decode for [T; N]", "oct/src/decode/decode/mod.rs: Decode for String", "oct/src/decode/decode/mod.rs: Decode for CString", "oct/src/sized_slice/code.rs"]}
{"id": "C81", "title": "Each allocation made by decoding is freed at most once", "statement": "Each allocation that decoding makes is afterwards owned by the value, kept in the cells of a sized slice, freed, or lost, and is so exactly once; nothing is freed twice and nothing that the value owns has been freed.", "quantifier": "all types, all inputs", "why_tests_cant": "double frees and use after free corrupt memory silently", "anchors": ["oct/src/decode/decode/mod.rs", "oct/src/sized_slice/code.rs"]}
{"id": "C82", "title": "A decoding that fails frees everything", "statement": "If decoding does not succeed, everything that it allocated has been freed.", "quantifier": "all types, all inputs", "why_tests_cant": "leaks have no visible result; the failing inputs are unbounded", "anchors": ["oct/src/decode/decode/mod.rs: Decode for Vec", "oct/src/decode/decode/mod.rs: Decode for [T; N]", "oct/src/sized_slice/code.rs"]}
{"id": "C83", "title": "Dropping a decoded value frees everything", "statement": "A decoded value owns everything that decoding it allocated and did not free.", "quantifier": "all types, all inputs", "why_tests_cant": "leaks have no visible result", "anchors": ["oct/src/decode/decode/mod.rs", "oct/src/sized_slice/code.rs", "oct/src/sized_slice/mod.rs"]}
{"id": "C84", "title": "Parts of slots, slices and strings", "statement": "Indexing reads exactly the part of the contents that the index stands for, or panics; assigning through a mutable index replaces exactly that part, and what was assigned is read back. Parts of strings never cut a char, and strings stay valid UTF-8.", "quantifier": "all contents, capacities, indices and data", "why_tests_cant": "indices, lengths and texts are unbounded", "anchors": ["oct/src/slot/mod.rs: Index, IndexMut", "oct/src/sized_slice/mod.rs: Index, IndexMut", "oct/src/sized_str/mod.rs: Index, IndexMut"]}
{"id": "C85", "title": "Outputs and slots compare by their contents", "statement": "Two outputs, or an output or a slot and a slice, are equal exactly if they hold the same octets, whatever the capacities and whatever lies after.", "quantifier": "all outputs, slots and slices", "why_tests_cant": "contents and capacities are unbounded", "anchors": ["oct/src/encode/output/mod.rs: PartialEq", "oct/src/slot/mod.rs: PartialEq"]}
{"id": "C86", "title": "Errors have the declared type", "statement": "If encoding or decoding gives an error, the error is a value of the associated Error type of the impl; if that type has no values, there are no errors.", "quantifier": "all types with an impl, all values, inputs and outputs", "why_tests_cant": "which errors occur depends on unbounded nestings of types", "anchors": ["oct/src/encode/encode/mod.rs: type Error", "oct/src/decode/decode/mod.rs: type Error", "oct-macros/src/impls/encode_struct.rs", "oct-macros/src/impls/decode_enum.rs"]}
{"id": "C87", "title": "Only errors that cannot occur convert into Infallible", "statement": "If an error type converts into Infallible, it has no values, so that the conversion, which is unreachable!(), is never run.", "quantifier": "all error types", "why_tests_cant": "error types are nested without bound; conversions of values that should not exist are not written in tests", "anchors": ["oct/src/error/item_decode_error.rs:61-66", "oct/src/error/enum_decode_error.rs:85-94", "oct/src/error/collection_encode_error.rs:72-81"]}
{"id": "C88", "title": "Every error has one root cause", "statement": "Every error type implements Error; following source from an error ends in exactly one error, which has a reason of its own, and the conversion to the generic error keeps it.", "quantifier": "all error types and values", "why_tests_cant": "chains of errors are as deep as types are nested", "anchors": ["oct/src/error/generic_encode_error.rs", "oct/src/error/generic_decode_error.rs", "oct/src/error/collection_encode_error.rs", "oct/src/encode/encode/mod.rs: Encode for LinkedList"]}
{"id": "C89", "title": "Every type can be a field of a derived type", "statement": "A type that is encodable (decodable) can be a field of a structure or enumeration with derived Encode (Decode), and tuples and maps of such types are encodable (decodable).", "quantifier": "all types, all structures and enumerations", "why_tests_cant": "a test is one type, and one that does not compile is not a test", "anchors": ["oct/src/error/generic_encode_error.rs:85-154", "oct/src/error/generic_decode_error.rs:125-214", "oct/src/encode/encode/mod.rs: Encode for LinkedList, RefCell, tuples, HashMap", "oct-macros/src/impls/encode_struct.rs:57-60"]}
{"id": "C90", "title": "Messages tell errors apart", "statement": "Two errors of the same type with the same message are the same error, and the message of an error ends with that of its root cause. The messages of stream errors tell capacity, position and count.", "quantifier": "all error types and values, all numbers", "why_tests_cant": "numerals and nested messages could coincide for some of infinitely many values", "anchors": ["oct/src/error: Display", "oct/src/error/input_error.rs", "oct/src/error/output_error.rs"]}
{"id": "C91", "title": "Recursive types come back", "statement": "A value of a structure or enumeration that contains itself through Box, Vec, Option and so on, however deeply nested, decodes from its encoding, whatever follows, and exactly the encoding is consumed.", "quantifier": "all systems of mutually recursive declarations, all values of any depth, all positions and following data", "why_tests_cant": "values are nested without bound", "anchors": ["oct-macros/src/impls/encode_struct.rs", "oct-macros/src/impls/encode_enum.rs", "oct-macros/src/impls/decode_struct.rs", "oct-macros/src/impls/decode_enum.rs"]}
{"id": "C92", "title": "Decoding a recursive type has one outcome", "statement": "If nested calls of some depth are enough to decode an input, then any greater depth gives the same value, error or panic, and consumes the same octets.", "quantifier": "all systems of declarations, all inputs, all depths", "why_tests_cant": "the depth is unbounded", "anchors": ["oct-macros/src/impls/decode_struct.rs", "oct-macros/src/impls/decode_enum.rs"]}
{"id": "C93", "title": "Decoding a recursive type ends", "statement": "Decoding a recursive type ends on every input.", "quantifier": "all systems of declarations, all inputs", "why_tests_cant": "that a call never returns cannot be observed, nor that all return", "anchors": ["oct-macros/src/impls/decode_struct.rs", "oct-macros/src/impls/decode_enum.rs", "oct/src/decode/decode/mod.rs"]}
{"id": "C94", "title": "The depth of nested calls does not depend on the input", "statement": "How deep calls of decode nest is bounded by the type alone, so that no input overflows the stack.", "quantifier": "all systems of declarations, all inputs", "why_tests_cant": "a test has one input and one size of stack", "anchors": ["oct-macros/src/impls/decode_struct.rs", "oct-macros/src/impls/decode_enum.rs", "oct/src/decode/decode/mod.rs: Option, Box, Vec"]}
{"id": "C95", "title": "Encodings of recursive types are prefix-free", "statement": "If what a value of a recursive type is encoded as is a prefix of what another one is encoded as, then the two values are the same, whatever their depths.", "quantifier": "all systems of declarations, all pairs of values of any depths", "why_tests_cant": "pairs of values of unbounded depth", "anchors": ["oct-macros/src/impls/encode_struct.rs", "oct-macros/src/impls/encode_enum.rs", "oct-macros/src/impls/decode_struct.rs", "oct-macros/src/impls/decode_enum.rs"]}
{"id": "C96", "title": "Every choice of features compiles", "statement": "Under every choice of features, on every target, each name that is used stands under that choice: what is behind a condition is only used behind that condition or a stronger one.", "quantifier": "all choices of the three features, all targets (which atomic widths exist), all uses of conditional names in the crate", "why_tests_cant": "a test is built with one choice of features on one target", "anchors": ["oct/Cargo.toml:20-25", "oct/src/lib.rs:358-378", "oct/src/error/mod.rs:49-53", "oct/src/error/generic_decode_error.rs", "oct/src/decode/decode/mod.rs:26-97", "oct/src/encode/encode/mod.rs:922"]}
{"id": "C97", "title": "The traits are implemented together", "statement": "Under every choice of features and on every target, a type with SizedEncode or Decode has Encode, one with DecodeBorrowed has Decode, and one with Encode has Decode and SizedEncode unless it is unsized, borrowed or lazy, or has no bounded size; no type has two impls of a trait.", "quantifier": "all configurations, all types with impls", "why_tests_cant": "a test is built with one choice of features on one target", "anchors": ["oct/src/encode/encode/mod.rs", "oct/src/encode/sized_encode/mod.rs", "oct/src/decode/decode/mod.rs", "oct/src/decode/decode_borrowed/mod.rs", "oct/src/sized_slice/code.rs", "oct/src/sized_str/code.rs"]}
{"id": "C98", "title": "The benchmarks run to their end", "statement": "Whatever values are drawn at random, and however many, no benchmark of the crate panics; those that encode fill their buffer exactly with the encodings in order, and those that decode give back exactly the values drawn.", "quantifier": "all sequences of random values, of any length", "why_tests_cant": "the values are random and there are hundreds of millions", "anchors": ["oct-benchmarks/src/main.rs:110-181", "oct-benchmarks/src/main.rs:236-247", "oct-benchmarks/src/main.rs:575-691"]}
{"id": "C99", "title": "Named::from_u64 keeps the octets of the number", "statement": "The octets of Named::from_u64(v) are those of v, least significant first.", "quantifier": "all numbers of sixty-four bits", "why_tests_cant": "there are 2^64 numbers, and small ones do not show the defect", "anchors": ["oct-benchmarks/src/main.rs:136-153"]}
{"id": "C100", "title": "The capacity of a string made from a sized string is N", "statement": "SizedStr::into_string gives a string with the same text whose capacity is N, as documented.", "quantifier": "all capacities, all sized strings", "why_tests_cant": "all texts of all lengths", "anchors": ["oct/src/sized_str/conv.rs:214-223", "oct/src/sized_slice/conv.rs:113-147"]}
{"id": "C101", "title": "Decoding takes time in proportion to the input", "statement": "The number of calls of decode that decoding a type makes, whatever the outcome, is at most two to the depth of nesting of its collections, times the number of its parts, for each octet consumed (and once more).", "quantifier": "all types, all inputs, all outcomes", "why_tests_cant": "inputs are unbounded, and the inputs that cost most are not those that tests use", "anchors": ["oct/src/decode/decode/mod.rs:126-152", "oct/src/decode/decode/mod.rs:322-374", "oct/src/decode/decode/mod.rs:441-459", "oct/src/decode/decode/mod.rs:781-805", "oct/src/sized_slice//code.rs:29-48"]}
{"id": "C102", "title": "Decoding makes allocations in proportion to the input", "statement": "The number of allocations that decoding a type makes, whatever the outcome, is at most two to the depth of nesting of its collections, times the number of its parts, for each octet consumed (and once more).", "quantifier": "all types, all inputs, all outcomes", "why_tests_cant": "inputs are unbounded; a few octets may suffice for many allocations", "anchors": ["oct/src/decode/decode/mod.rs:156-165", "oct/src/decode/decode/mod.rs:322-374", "oct/src/decode/decode/mod.rs:441-459", "oct/src/decode/decode/mod.rs:781-805"]}
{"id": "C103", "title": "Decoding reserves space in proportion to the input", "statement": "The number of items for which decoding a type reserves space in buffers, whatever the outcome, is at most two to the depth of nesting of its collections, times the number of its parts, for each octet consumed (and once more).", "quantifier": "all types, all inputs, all outcomes", "why_tests_cant": "inputs are unbounded; two octets decide how much is reserved before anything else is read", "anchors": ["oct/src/decode/decode/mod.rs:334", "oct/src/decode/decode/mod.rs:363", "oct/src/decode/decode/mod.rs:788", "oct/src/decode/decode/mod.rs:701-735"]}
{"id": "C104", "title": "Encoding locks never deadlocks", "statement": "Whatever locks contain (octets and further locks), whichever threads encode and update them, however they are scheduled and whomever the system lets in first, there is always a thread that can go on until all are over.", "quantifier": "all numbers of threads, all contents, all schedules, all policies of the system", "why_tests_cant": "schedules are unbounded and chosen by the system", "anchors": ["oct/src/encode/encode/mod.rs:497-507", "oct/src/encode/encode/mod.rs:678-688", "oct/src/encode/encode/mod.rs:219-227"]}
{"id": "C105", "title": "Encoding locks ends, with what they contain", "statement": "Threads that encode and update locks make a bounded number of steps and all come to their end; an encoder that nobody interferes with ends with the result and the octets of encoding the contents in the places of their locks.", "quantifier": "all numbers of threads, all contents, all schedules", "why_tests_cant": "schedules are unbounded and chosen by the system", "anchors": ["oct/src/encode/encode/mod.rs:497-507", "oct/src/encode/encode/mod.rs:678-688"]}
{"id": "C106", "title": "Several locks are encoded as they were at one time", "statement": "What is encoded of a value with several locks, while other threads update them, is what encoding the value gives at one moment.", "quantifier": "all contents, all updates, all schedules", "why_tests_cant": "the schedule that mixes old and new is one among many", "anchors": ["oct/src/encode/encode/mod.rs:497-507", "oct/src/encode/encode/mod.rs:678-688", "oct/src/encode/encode/mod.rs:869-891"]}
{"id": "C107", "title": "Containers of lawful types encode lawfully", "statement": "If every type with an impl of Encode by its author writes the octets promised for a value, or fails if none are, then every container and derived type of the crate around such types writes the octets of its parts in the format of the crate, and never succeeds otherwise. The impl that the documentation of Encode shows does what the derived one does.", "quantifier": "all impls by others, all containers and derived types around them, all values, all streams", "why_tests_cant": "impls by others are arbitrary functions, and containers nest without bound", "anchors": ["oct/src/encode/encode/mod.rs:93-147", "oct/src/encode/encode/mod.rs:103-135", "oct/src/encode/encode/mod.rs:282-318", "oct-macros/src/"]}
{"id": "C108", "title": "Containers of lawful types decode what they encode", "statement": "If every type with impls by its author decodes what it encodes, so does every container and derived type of the crate around such types, wherever in a stream; and no encoding is a proper prefix of another.", "quantifier": "all impls by others, all containers and derived types around them, all values, all streams", "why_tests_cant": "impls by others are arbitrary functions, and containers nest without bound", "anchors": ["oct/src/decode/decode/mod.rs:100-112", "oct/src/decode/decode/mod.rs:322-374", "oct/src/sized_slice/", "oct-macros/src/impls/encode_struct.rs", "oct-macros/src/impls/encode_enum.rs", "oct-macros/src/impls/decode_struct.rs", "oct-macros/src/impls/decode_enum.rs"]}
{"id": "C109", "title": "Containers keep to their size bounds if their items do", "statement": "If MAX_ENCODED_SIZE is right for every type with an impl of SizedEncode by its author, it is right for every container and derived type around such types, and a buffer of this size suffices.", "quantifier": "all impls by others, all containers and derived types around them, all values", "why_tests_cant": "impls by others are arbitrary functions, and containers nest without bound", "anchors": ["oct/src/encode/sized_encode/mod.rs:60-83", "oct/src/encode/sized_encode/mod.rs", "oct/src/sized_slice/"]}
{"id": "C110", "title": "The first failure is the one reported", "statement": "Whatever the impls of items and fields do, they are called in order up to the first that does not succeed; what this one ends with is what the whole ends with, with its index or the conversion of its field around an error, and the stream is as this call left it.", "quantifier": "all impls of items and fields, all numbers of them, all streams", "why_tests_cant": "impls by others are arbitrary functions", "anchors": ["oct/src/encode/encode/mod.rs:282-318", "oct/src/encode/encode/mod.rs:869-891", "oct/src/decode/decode/mod.rs:322-374", "oct-macros/src/"]}
{"id": "C111", "title": "Slots withstand impls by others", "statement": "Whatever an impl of Encode by others does with the stream that Slot::write hands it, even putting another in its place, the slot keeps its capacity and a length within it, and after a successful write it contains what was encoded.", "quantifier": "all impls by others, all sequences of operations on slots", "why_tests_cant": "impls by others are arbitrary functions, in sequences of any length", "anchors": ["oct/src/slot/mod.rs:270-279", "oct/src/slot/mod.rs", "oct/src/encode/output/mod.rs"]}
{"id": "C112", "title": "Programs that use streams are safe", "statement": "A program in safe Rust that has any number of buffers, streams over parts of them and slices of these, and does with them in any order what the borrow checker allows, never runs into undefined behaviour and never panics in the methods of the streams; and all it learns is what it learns if streams are values and buffers are lists.", "quantifier": "all programs that use streams, all buffers, all executions", "why_tests_cant": "programs are unbounded, and undefined behaviour need not show", "anchors": ["oct/src/encode/output/mod.rs:30-113", "oct/src/decode/input/mod.rs:28-124"]}
{"id": "C113", "title": "What is read stays as it is", "statement": "The slice that Input::read returns has the octets from the position of the stream on, and keeps them until it is dropped, whatever happens to streams and buffers meanwhile. A stream is the same until it is used itself.", "quantifier": "all programs that use streams, all buffers, all executions", "why_tests_cant": "programs are unbounded", "anchors": ["oct/src/decode/input/mod.rs:49-69", "oct/src/encode/output/mod.rs:49-71"]}
{"id": "C114", "title": "Panics of others do not destroy twice", "statement": "Whatever calls of the code of the crate's user panic (clone, decode, destructors, next of an iterator) in the middle of operations on sized slices, their iterators, arrays, vectors and lists, and whatever is done after the panics are caught: no item is destroyed twice, and none that was destroyed is used or given out. If no such call panics, no operation does.", "quantifier": "all sequences of operations, all choices of the calls that panic", "why_tests_cant": "the moments at which panics can come are as many as there are calls, in sequences of any length", "anchors": ["oct/src/sized_slice/iter.rs:29-43", "oct/src/sized_slice/mod.rs:204-232", "oct/src/sized_iter/mod.rs:88-175", "oct/src/decode/decode/mod.rs:128-152", "oct/src/decode/decode/mod.rs:781-804"]}
{"id": "C115", "title": "What was made before a failure is destroyed", "statement": "When decoding does not succeed after some items were decoded, because of an error or a panic, or when a clone panics after some items were cloned, all these are destroyed.", "quantifier": "all types made of items or fields, all numbers of them, all places of the failure, all behaviours of destructors", "why_tests_cant": "leaks do not show in results, and places of failures are unbounded", "anchors": ["oct/src/decode/decode/mod.rs:128-152", "oct/src/decode/decode/mod.rs:441-459", "oct/src/decode/decode/mod.rs:781-804", "oct/src/sized_slice/code.rs:33-47", "oct/src/sized_slice/mod.rs:204-232"]}
{"id": "C116", "title": "MAX_ENCODED_SIZE is attained", "statement": "For each type with SizedEncode, some value is encoded as exactly MAX_ENCODED_SIZE octets, so that no smaller buffer would do.", "quantifier": "all types with SizedEncode, however nested, all values, all buffers", "why_tests_cant": "types are unbounded in number and depth, and that no value needs more or that one needs all is a statement about all values", "anchors": ["oct/src/encode/sized_encode/mod.rs:77-82", "oct/src/encode/sized_encode/mod.rs:85-316", "oct/src/sized_str/code.rs:58-62", "oct/src/sized_slice/code.rs:61-63", "oct-macros/src/impls/sized_encode_enum.rs:40-58"]}
{"id": "C117", "title": "Octets mean the same on every platform", "statement": "What is encoded on one platform can be decoded on every other, to the same value; and MAX_ENCODED_SIZE, hence the buffers needed, are the same on all.", "quantifier": "all types, all values, all pairs of platforms (ranges of times, overflow checks, sizes in memory)", "why_tests_cant": "tests run on one platform, and types are unbounded", "anchors": ["oct/src/encode/encode/mod.rs:774-807", "oct/src/decode/decode/mod.rs:738-758", "oct/src/encode/sized_encode/mod.rs:228-236", "oct/src/encode/sized_encode/mod.rs:85-316"]}
{"id": "C118", "title": "MAX_ENCODED_SIZE can be computed", "statement": "The constant MAX_ENCODED_SIZE of each type with SizedEncode is computed, on every target, without an overflow of usize (which would be an error of compilation where the constant is used).", "quantifier": "all types with SizedEncode, however nested, all widths of usize, all sizes of types in memory", "why_tests_cant": "types and widths are unbounded, and tests are compiled for one target", "anchors": ["oct/src/encode/sized_encode/mod.rs:77-82", "oct/src/encode/sized_encode/mod.rs:85-316", "oct/src/sized_str/code.rs:58-62", "oct/src/sized_slice/code.rs:61-63", "oct-macros/src/impls/sized_encode_struct.rs:27-36", "oct-macros/src/impls/sized_encode_enum.rs:30-59"]}
{"id": "C119", "title": "Formatting is that of the contents", "statement": "Sized slices, sized strings and slots are formatted ({:?}, {}) as the slices or strings that they hold are, with every option of the formatter.", "quantifier": "all contents, all options, all impls of Debug of items", "why_tests_cant": "options multiply, and items may format themselves in any way", "anchors": ["oct/src/sized_slice/mod.rs:234-239", "oct/src/sized_str/mod.rs:138-150", "oct/src/slot/mod.rs:356-359"]}
{"id": "C120", "title": "Lazy values are made once and encoded as made", "statement": "When any number of threads encode values in LazyLock or LazyCell, each initialiser is called at most once, everybody encodes what it made, and everybody comes to an end.", "quantifier": "all initialisers (which may force others and panic), all contents, all numbers of threads, all schedules", "why_tests_cant": "schedules are unbounded, and initialisers are arbitrary programs", "anchors": ["oct/src/encode/encode/mod.rs:454-472"]}
{"id": "C121", "title": "Derived impls mean the same wherever they stand", "statement": "The implementations that the derive macros emit are accepted, and mean the same, at every place where the derived type itself is accepted.", "quantifier": "all places (names of crates, types, constants and parameters in scope), all structures and enumerations", "why_tests_cant": "there are infinitely many names and places, and an impl that is accepted shows no sign of another meaning", "anchors": ["oct-macros/src/impls/", "oct-macros/src/repr/mod.rs:90-153", "oct-macros/src/impl_derive_macro.rs:35-83"]}
{"id": "C122", "title": "Iterators over plain data do what iterators should", "statement": "The by-value iterator of a sized slice of Copy items does, under every history of next, next_back, nth and changes of the remaining items, what the documentation of Iterator says, and never reads memory that holds no item.", "quantifier": "all contents, all histories", "why_tests_cant": "histories are unbounded; a test of the crate takes the defect for the right behaviour", "anchors": ["oct/src/sized_iter/mod.rs:88-183", "oct/src/sized_iter/tests.rs:24-46"]}
{"id": "C123", "title": "Sized slices stay in their own memory", "statement": "Under every history of making, changing, cloning, iterating, converting and dropping sized slices, their iterators and the boxed slices made from them, each of the pointer operations in the code stays within the cells of its own object, no object's items are changed by operations on others, what is read is what lists with a capacity would give, references from each_ref and each_mut are to the items in order and no two to the same, and nothing is left behind.", "quantifier": "all histories over any number of objects, all contents and capacities, all places in memory", "why_tests_cant": "histories are unbounded, and writing outside a buffer need not show in a test", "anchors": ["oct/src/sized_slice/mod.rs:73-252", "oct/src/sized_slice/conv.rs:84-136", "oct/src/sized_slice/iter.rs:29-56", "oct/src/sized_iter/mod.rs:31-175", "oct/src/sized_str/conv.rs:85-115"]}
{"id": "C124", "title": "Derived impls of generic items", "statement": "For a generic structure or enumeration, deriving Encode, Decode or SizedEncode is accepted just if the fields of every instance whose arguments meet the bounds of the item have the impls that the derived code calls for; every such instance then has the impl, with the error type of the generic one. In particular a parameter of which the item has a value needs the bound, and its error type the bound Into of the generic error.", "quantifier": "all items of types that are made of parameters, closed types and the crate's containers; all bounds; all arguments", "why_tests_cant": "there are infinitely many items, bounds and arguments, and a test of a macro compiles only some", "anchors": ["oct-macros/src/impl_derive_macro.rs:66-80", "oct-macros/src/impls/", "oct/src/error/generic_encode_error.rs:85-154", "oct/src/error/generic_decode_error.rs:125-214"]}
{"id": "C125", "title": "Encoding object graphs", "statement": "Encoding an object whose fields refer to other objects (through Rc, Arc or &, also shared and in loops) ends, and gives the encoding of the tree which the references unfold to, a value of the recursive type. It succeeds just for objects from which references cannot be followed without end, the room permitting; a loop ends when the buffer is full.", "quantifier": "all declarations, all heaps of objects of declared types, all buffers, all depths of calls", "why_tests_cant": "heaps are unbounded and may have loops, where a test that does not end says nothing", "anchors": ["oct/src/encode/encode/mod.rs:149-156", "oct/src/encode/encode/mod.rs:217-226", "oct/src/encode/encode/mod.rs:615-640", "oct-macros/src/impls/encode_struct.rs"]}
{"id": "C126", "title": "Equal values are those with equal encodings", "statement": "Two values of a type are equal (Rust's ==) just if they are encoded as the same octets; so decoding what a value was encoded as gives an equal value.", "quantifier": "all types of the model that have ==, nested arbitrarily; all pairs of values; all streams", "why_tests_cant": "pairs of values are unbounded, and a test that compares a value with itself after a round trip says nothing about others", "anchors": ["oct/src/encode/encode/mod.rs:147-1066", "oct/src/sized_slice/cmp.rs:38-43", "oct/src/sized_str/cmp.rs:37-42"]}
{"id": "C127", "title": "Documented safety conditions suffice", "statement": "A program whose calls of the crate's unsafe functions meet the conditions that their documentation states (under # Safety) is never undefined, whatever safe functions it calls on the resulting objects, and never fails a debug assertion; and the conditions are needed.", "quantifier": "all arguments of all unsafe functions, all memories, all histories of safe and unsafe calls, builds with and without debug assertions", "why_tests_cant": "what a caller may do is unbounded, and a call that breaks an undocumented condition need not show in a test", "anchors": ["oct/src/sized_slice/conv.rs:41-57", "oct/src/sized_slice/mod.rs:149-164", "oct/src/sized_str/conv.rs:77-115", "oct/src/slot/mod.rs:97-119", "oct/src/slot/mod.rs:202-218", "oct/src/sized_iter/mod.rs:41-45"]}
{"id": "C128", "title": "Where decoding ends without a result", "statement": "For every type and every input, decoding ends in exactly one of four ways, told by the octets ahead alone: with a value, with an error, by stopping (a surrogate taken for a char, overflowing seconds of a Duration, an Infallible), or for lack of octets; the octets that make it stop are described by the format, a lack of octets is exactly when none of the others applies, and a type can stop in some way exactly when decoding can get to a char, a Duration or an Infallible in it.", "quantifier": "all types, all inputs, all positions", "why_tests_cant": "the inputs that stop decoding are few among all, and that nothing else can stop it is a claim about every input", "anchors": ["oct/src/decode/decode/mod.rs:240-256", "oct/src/decode/decode/mod.rs:307-318", "oct/src/decode/decode/mod.rs:376-383", "oct/src/decode/input/mod.rs:49-101"]}
{"id": "C129", "title": "Characters of sized strings", "statement": "SizedStr::chars gives the characters of the text, in order from the front and in reverse order from the back, whatever calls of next and next_back are mixed, and then nothing; char_indices gives them with the positions of their first octets; the size hint brackets their number; collecting them gives an equal string whenever it fits; sized strings are ordered as their lists of characters are by code points; a string is empty iff it has no characters and full iff no character fits behind them.", "quantifier": "all sized strings safe code can make, all capacities, all sequences of calls", "why_tests_cant": "the texts, the mixtures of calls at both ends and the pairs of characters to compare are unbounded", "anchors": ["oct/src/sized_str/mod.rs:111-135", "oct/src/sized_str/mod.rs:154-178", "oct/src/sized_str/cmp.rs:28-82"]}
{"id": "C130", "title": "Decoding runs out of input only where more input matters", "statement": "Decoding panics for want of octets exactly if the outcome depends on what follows the input: where it does not, no continuation changes the outcome, and where it does, there is a continuation with which decoding no longer runs out. No input is both too short and beyond completion.", "quantifier": "all types, all inputs, all continuations", "why_tests_cant": "for each input that is too short, one that completes it has to be found, nested to any depth; and no finite set of continuations shows that none matters", "anchors": ["oct/src/decode/input/mod.rs: read, read_into", "oct/src/decode/decode/mod.rs", "oct-macros/src/impls/decode_struct.rs:29-50", "oct-macros/src/impls/decode_enum.rs:39-77"]}
{"id": "C131", "title": "Decoding reserves only what can be reserved", "statement": "Decoding never panics for a buffer that would exceed isize::MAX octets, whatever length the input declares and whatever the machine: the length of a Vec, hash map or hash set is read from the input and a buffer for that many items is reserved before any item is decoded. Where it does not panic for that reason it gives what it gives on a machine without such a limit.", "quantifier": "all types, all inputs, all widths of isize, all sizes of types", "why_tests_cant": "tests run on machines of 64 bits, where lengths of 16 bits cannot overflow; which types are concerned on which machines is a claim about all of them", "anchors": ["oct/src/decode/decode/mod.rs:322-374", "oct/src/decode/decode/mod.rs:781-805"]}
{"id": "C132", "title": "The order of iteration of hash maps and sets does not matter", "statement": "Whatever the hasher does to the order in which hash maps and hash sets iterate: decoding the same input ends the same way, takes as many octets, fails with the same error or panic, and gives the same value up to the order of entries; values that are the same up to that order can be encoded in the same streams, as encodings that are equally long and consist of the same octets; == does not tell them apart; and the entries of a map, written in any order with their number in front, are decoded as that map.", "quantifier": "all types with hashable keys, all inputs, all orders of entries after each insertion, all values", "why_tests_cant": "the standard library draws a random seed for each map, so that tests see some of the orders only", "anchors": ["oct/src/decode/decode/mod.rs:322-374", "oct/src/encode/encode/mod.rs:340-376"]}
{"id": "C133", "title": "Encoding takes work in proportion to what it writes", "statement": "The calls of encode and of Output::write that encoding a value takes are bounded by the number of parts of its type times the number of octets it writes, whatever the outcome; each write puts one to sixteen octets; a value takes the same work in each stream in which it can be encoded, and no more in the others.", "quantifier": "all types, all values, all streams", "why_tests_cant": "the nesting of types and the lengths of collections are unbounded, and tests do not count calls", "anchors": ["oct/src/encode/encode/mod.rs:149-928", "oct/src/sized_slice/code.rs:52-59", "oct/src/sized_str/code.rs:49-56", "oct-macros/src/impls/encode_struct.rs", "oct-macros/src/impls/encode_enum.rs:74-89"]}
{"id": "C134", "title": "Hash maps and sets hold what their keys' impls say", "statement": "Whatever Encode, Decode, Eq and Hash of the keys and values of a hash map or set do, what is decoded are entries that were read, no more than announced, none with a key that == takes for an earlier one; if == is an equivalence, of entries with the same key the first key and the last value stay, and entries with different keys are all there. If the impls of keys and values keep their promises, a map or set decodes what it encodes.", "quantifier": "all impls of keys and values by others, all numbers of entries, all streams", "why_tests_cant": "impls by others are arbitrary functions, and equivalences of keys other than equality are rare", "anchors": ["oct/src/encode/encode/mod.rs:340-376", "oct/src/decode/decode/mod.rs:322-374"]}
{"id": "C135", "title": "Types may be exchanged for others of the same format", "statement": "A type may be exchanged for one of the same format or a wider one, at any place inside other types: pointers, locks and cells added or removed, sequences and texts of another kind, sized ones for unsized or larger ones, texts for their octets, numbers of the same width, NonZero for plain numbers, newtypes, tuples, ranges and addresses for derived structures and enumerations, structures dissolved into their fields, and variants permuted or inserted with their discriminants kept. What the old program writes, the new one writes alike and reads as the value it becomes; whatever octets the old program reads, the new one reads as the same, up to the same place; and what the new program reads, the old one reads as the same or refuses with an error.", "quantifier": "all types exchanged in all of these ways at any depth, any number of times, all values, all inputs", "why_tests_cant": "the ways in which types can be exchanged and nested are unbounded, and misreading shows only with inputs that other types write", "anchors": ["oct/src/encode/encode/mod.rs:149-928", "oct/src/decode/decode/mod.rs:140-1011", "oct/src/sized_slice/code.rs", "oct/src/sized_str/code.rs", "oct-macros/src/impls/encode_enum.rs:74-89", "oct-macros/src/impls/decode_enum.rs:39-77", "oct-macros/src/impls/decode_struct.rs:29-50"]}
{"id": "C136", "title": "Encoding while guards are held", "statement": "Programs that lock Mutexes and RwLocks themselves, keep the guards, change what is in the locks and meanwhile encode values with locks in them, or encode through a guard, never run into a deadlock, make a bounded number of steps and can all be brought to their end.", "quantifier": "all programs, any number of threads and locks, all schedules, all policies of the system for readers", "why_tests_cant": "deadlocks depend on the schedule and on how threads hold guards around calls of encode; schedules are unbounded", "anchors": ["oct/src/encode/encode/mod.rs:497-507", "oct/src/encode/encode/mod.rs:678-688"]}
{"id": "C137", "title": "An outer lock makes what is inside it one snapshot", "statement": "If all programs change a lock and the locks inside it only while they hold a guard of the outer lock that excludes others, then encoding the outer lock, or encoding through a guard of it, writes all the locks inside as they were at one single moment, and has the outcome of that moment.", "quantifier": "all programs that keep to this, any number of threads and locks, all schedules, all policies of the system for readers, all buffers", "why_tests_cant": "a mixture of old and new shows up only in few schedules, and their number is unbounded", "anchors": ["oct/src/encode/encode/mod.rs:497-507", "oct/src/encode/encode/mod.rs:678-688"]}
{"id": "C138", "title": "The iterator in the hands of std's consumers and adapters", "statement": "Any program that uses the by-value iterator of a sized slice, by next, next_back, nth and size_hint in any order that may depend on what it was given, ends with the value that the documentation of iterators promises; so do for loops, extend, collect into a Vec, rev, skip and step_by of std, which call nth and size_hint on their own.", "quantifier": "all programs, all sized slices, plain data and items that own something, all policies of the allocator for capacities", "why_tests_cant": "programs are trees of unbounded depth, and whether collect is undefined depends on what the allocator grants", "anchors": ["oct/src/sized_iter/mod.rs:111-183", "oct/src/sized_slice/iter.rs:27-57"]}
{"id": "C139", "title": "Collecting takes from an iterator only what it keeps", "statement": "Collecting a sized slice or a sized string from any iterator - endless ones, ones that go on after None and ones that panic - ends, keeps the items that the iterator gave as far as they fit, asks no further after None, and takes no item out of the iterator that it does not keep; so an iterator can be collected by parts without loss.", "quantifier": "all iterators as arbitrary state machines, all capacities", "why_tests_cant": "iterators are arbitrary programs and may be endless", "anchors": ["oct/src/sized_slice/iter.rs:27-57", "oct/src/sized_str/mod.rs:154-178", "oct/src/sized_iter/mod.rs:134-145"]}
{"id": "C140", "title": "Damage to one part stays in it", "statement": "If octets of one field of a structure, or of one item of a collection, are changed on their way, then the other fields and items are decoded as before, or the decoding fails with the error of that part; and changed octets are not decoded as the same value.", "quantifier": "all types, all values, all changes of octets that leave their number as it is", "why_tests_cant": "the octets of a field can be changed in more ways than can be tried, for each of infinitely many types", "anchors": ["oct-macros/src/impls/decode_struct.rs:28-61", "oct/src/decode/decode/mod.rs:126-152", "oct/src/decode/decode/mod.rs:781-805"]}
{"id": "C141", "title": "Keys and values that fail, panic or lie are destroyed just once", "statement": "While a hash map or a hash set is decoded, the code of its keys and values (decode, hash, eq, the destructors) may fail, panic or answer anything: nothing is used after it was destroyed, nothing is destroyed twice, and what was decoded is in the end either in the map or destroyed.", "quantifier": "all lengths, all sequences of outcomes of the calls, all orders in which a table may compare and keep its slots, all states before", "why_tests_cant": "each of the calls may panic, in combination with any answers of the others; tests use keys that behave", "anchors": ["oct/src/decode/decode/mod.rs:322-347", "oct/src/decode/decode/mod.rs:352-374"]}
{"id": "C142", "title": "It does not matter in which pieces octets arrive", "statement": "A program that decodes values from octets that arrive in pieces, trying again from where the last value ended whenever decoding ran out of input, gets the same values, the same rest and the same failure, however the octets are cut into pieces; it takes no value back, waits for none that has arrived, and gets what was sent if all values are such as come back.", "quantifier": "all types and sequences of them, also ones in which a value decides what is expected next; all octets; all ways to cut them", "why_tests_cant": "the number of ways to cut a stream is exponential in its length", "anchors": ["oct/src/decode/decode/mod.rs:111", "oct/src/decode/input/mod.rs:37-39", "oct/src/decode/input/mod.rs:49-69", "oct/src/decode/input/mod.rs:79-101", "oct/src/decode/decode/mod.rs:820-832"]}
{"id": "C143", "title": "Values packed into datagrams arrive whole, in as few as possible", "statement": "A program that encodes values one behind the other into a buffer, and sends what is in it when the next value finds no room, sends every value that can be encoded and fits the buffer exactly once, whole, in order and in datagrams no longer than the buffer, and nothing of the others; if all can be sent, in as few datagrams as possible. Each datagram can be decoded by itself, whatever becomes of the others, to the values that were put into it.", "quantifier": "all sizes and contents of the buffer; all sequences of values of all types; all losses of datagrams", "why_tests_cant": "where a datagram ends depends on all values before it", "anchors": ["oct/src/encode/encode/mod.rs:146", "oct/src/encode/output/mod.rs:39-41", "oct/src/encode/output/mod.rs:49-71", "oct/src/encode/output/mod.rs:111-113", "oct/src/encode/encode/mod.rs:854-866"]}
{"id": "C144", "title": "When memory runs out, decoding says so, and loses nothing", "statement": "Decoding asks the allocator for the same memory, whatever the allocator answers: what is asked for depends on the type and the input only. If all is granted, decoding comes to the result it has where memory cannot run out, and exactly what the parts of the value take has been asked for, in order; a bound on the memory that is enough follows from the octets consumed; types that put nothing on the heap ask for nothing. If a request is refused, an error is reported and nothing is lost.", "quantifier": "all types; all inputs; all allocators, answering as they like; all sizes of items, nodes and tables", "why_tests_cant": "tests do not run out of memory, and allocators may refuse any of the requests", "anchors": ["oct/src/decode/decode/mod.rs:788", "oct/src/decode/decode/mod.rs:334", "oct/src/decode/decode/mod.rs:363", "oct/src/decode/decode/mod.rs:449-454", "oct/src/decode/decode/mod.rs:216-226", "oct/src/decode/decode/mod.rs:291-302", "oct/src/sized_slice/conv.rs:118-137"]}
{"id": "C145", "title": "A part of an encoded value can be read and replaced where MAX_ENCODED_SIZE of what is before it says", "statement": "A part of an encoded value (a field, an item, what is in a variant, however deep) can be read without decoding what is before it, at the offset found by adding up MAX_ENCODED_SIZE, and replaced there: what is read is what decoding the whole would give there, and after the replacement the octets are those of the value with that part replaced.", "quantifier": "all types; all parts of them, however deep; all values; whatever octets are before and behind", "why_tests_cant": "offsets depend on all values before the part, of infinitely many types", "anchors": ["oct/src/encode/sized_encode/mod.rs:81", "oct/src/encode/sized_encode/mod.rs:100-102", "oct/src/encode/sized_encode/mod.rs:184-188", "oct/src/decode/input/mod.rs:37-39", "oct/src/encode/output/mod.rs:39-41", "oct-macros/src/impls/sized_encode_struct.rs:27-36"]}
{"id": "C146", "title": "Octets sort as the values they encode", "statement": "Of two values of a type with an order, that one is before the other whose octets are, compared one after the other: so a store that sorts octets sorts the values.", "quantifier": "all types with an order; all pairs of values; also with anything behind them", "why_tests_cant": "there are infinitely many types, and the order must be right for all pairs of values of each", "anchors": ["oct/src/encode/encode/mod.rs:854-866", "oct/src/encode/encode/mod.rs:196-215", "oct/src/encode/encode/mod.rs:509-535", "oct/src/sized_slice/cmp.rs:31-36", "oct/src/sized_str/cmp.rs:29-34"]}
{"id": "C147", "title": "What `{:?}` shows of an error tells which error it is", "statement": "Errors that look alike with `{:?}`, or with `{:#?}`, are equal; and what is shown of an error has in it what is shown of every error that led to it.", "quantifier": "all errors of all error types of the crate, nested however deep, and all pairs of them", "why_tests_cant": "errors nest without bound and have numbers in them; that no two texts coincide is a statement about all pairs", "anchors": ["oct/src/error/collection_encode_error.rs:30", "oct/src/error/item_encode_error.rs:29", "oct/src/error/enum_decode_error.rs:29-46", "oct/src/error/generic_decode_error.rs:46-76", "oct/src/error/input_error.rs:28-39"]}
{"id": "C148", "title": "What a slot held before cannot be learnt from it", "statement": "Of what a slot held before it was written, copied or received into, nothing shows: not in its contents, not in what is read from it, and not in errors or panics; a server that serves with one slot tells nobody what others sent.", "quantifier": "all programs that use a slot, deciding by what they see; all earlier contents and histories; all types and values; all handlers, schedules and datagrams", "why_tests_cant": "that nothing shows is a statement about all pairs of earlier contents and all programs; a test sees one", "anchors": ["oct/src/slot/mod.rs:270-279", "oct/src/slot/mod.rs:295-303", "oct/src/slot/mod.rs:143-146", "oct/src/slot/mod.rs:166-183", "oct/src/slot/mod.rs:195-200", "oct/src/slot/mod.rs:380-385", "oct/src/lib.rs:273-290"]}
{"id": "C149", "title": "Formatting works with any writer and any options", "statement": "`{}` of an error gives the writer its message in order; if the writer refuses a piece, it is given no more and the failure is reported, so that a writer with little room has the beginning that fits. Sized slices, sized strings and slots do as their contents do with that writer. The options of the placeholder, such as a width, are followed.", "quantifier": "all errors, however deep; all writers, failing at any time; all ways in which the standard library cuts numbers into pieces; all options", "why_tests_cant": "a writer may fail at any call, and tests format into strings, which never do", "anchors": ["oct/src/error/collection_decode_error.rs:57-64", "oct/src/error/generic_decode_error.rs:80-101", "oct/src/error/ref_cell_encode_error.rs:43-51", "oct/src/error/utf8_error.rs:38-40", "oct/src/slot/mod.rs:356-359", "oct/src/sized_slice/mod.rs:234-239", "oct/src/sized_str/mod.rs:138-150"]}
{"id": "C150", "title": "References that methods return may be used as the borrow checker allows", "statement": "A program that owns a sized slice, calls its methods, and uses the references that they return for as long as the borrow checker allows has no undefined behaviour by aliasing, be it under Stacked Borrows or under Tree Borrows.", "quantifier": "all sequences of calls and uses; all capacities, lengths and places in memory; both models of the aliasing rules", "why_tests_cant": "invalid references usually work until the compiler makes use of the rules; Miri tells only of what tests run", "anchors": ["oct/src/sized_slice/mod.rs:81-95", "oct/src/sized_slice/mod.rs:97-121", "oct/src/sized_slice/mod.rs:123-147", "oct/src/sized_slice/mod.rs:179-181", "oct/src/sized_slice/conv.rs:65-67", "oct/src/sized_slice/conv.rs:75-77", "oct/src/sized_slice/conv.rs:84-89", "oct/src/sized_slice/conv.rs:96-101"]}
{"id": "C151", "title": "What slots return may be used as the borrow checker allows, whatever is written to them and read from them", "statement": "A program that owns a slot, calls its methods, encodes to it and decodes from it with whatever impls, and uses the references that it returns for as long as the borrow checker allows has no undefined behaviour by aliasing, be it under Stacked Borrows or under Tree Borrows; neither has one that uses the pointers that it returns in that way.", "quantifier": "all sequences of calls and uses; all pieces that impls write and read, whether they fit or not; all capacities, lengths and places in memory; both models of the aliasing rules", "why_tests_cant": "streams and pointers to the buffer are made anew by each call, and whether they invalidate each other shows only by what the compiler makes of the rules; Miri tells only of what tests run", "anchors": ["oct/src/slot/mod.rs:124-126", "oct/src/slot/mod.rs:133-135", "oct/src/slot/mod.rs:143-146", "oct/src/slot/mod.rs:155-158", "oct/src/slot/mod.rs:166-183", "oct/src/slot/mod.rs:195-218", "oct/src/slot/mod.rs:226-239", "oct/src/slot/mod.rs:270-279", "oct/src/slot/mod.rs:295-303", "oct/src/encode/output/mod.rs:49-71", "oct/src/decode/input/mod.rs:49-69"]}
{"id": "C152", "title": "Protectors forbid nothing that the crate does", "statement": "That references which are passed to functions must be usable until those return – as Stacked Borrows and Tree Borrows both ask, and as compilers make use of – makes no program undefined that uses sized slices, slots and streams: with and without that rule the same programs are defined, whether they compile or not; so those that compile are defined.", "quantifier": "all sequences of calls and uses of what they returned; all capacities, lengths and places in memory; both models of the aliasing rules", "why_tests_cant": "arguments are marked as not aliased for the compiler, which shows in what it makes of the code of callers, if at all; Miri tells only of what tests run", "anchors": ["oct/src/sized_slice/mod.rs:112-146", "oct/src/slot/mod.rs:124-126", "oct/src/slot/mod.rs:133-135", "oct/src/slot/mod.rs:143-146", "oct/src/slot/mod.rs:155-158", "oct/src/slot/mod.rs:166-183", "oct/src/slot/mod.rs:195-218", "oct/src/slot/mod.rs:226-239", "oct/src/slot/mod.rs:270-279", "oct/src/slot/mod.rs:295-303", "oct/src/encode/output/mod.rs:49-71", "oct/src/decode/input/mod.rs:49-69"]}
{"id": "C153", "title": "References that iterators return may be used as the borrow checker allows", "statement": "A program that owns the iterator of a sized slice, calls its methods – from either end, skipping items, copying it – and uses the references that it returns for as long as the borrow checker allows has no undefined behaviour by aliasing, be it under Stacked Borrows or under Tree Borrows, as long as it does not call `nth` in the ways that C25 shows to be undefined. Methods read and write the items that they return, copy and destroy, and no others.", "quantifier": "all sequences of calls and uses; all capacities, lengths and places in memory; both models of the aliasing rules", "why_tests_cant": "items are destroyed by a reference to the buffer while the iterator is borrowed, and whether this invalidates something shows only by what the compiler makes of the rules; Miri tells only of what tests run", "anchors": ["oct/src/sized_iter/mod.rs:49-58", "oct/src/sized_iter/mod.rs:62-71", "oct/src/sized_iter/mod.rs:90-108", "oct/src/sized_iter/mod.rs:113-123", "oct/src/sized_iter/mod.rs:134-145", "oct/src/sized_iter/mod.rs:148-175", "oct/src/sized_iter/mod.rs:178-182"]}
{"id": "C154", "title": "Protectors forbid nothing that iterators do", "statement": "That references which are passed to functions must be usable until those return makes no program undefined that uses the iterator of a sized slice: with and without that rule the same programs are defined, whether they compile or not, and whatever `nth` is called with; so those that compile are defined. Each method enters just those functions, with just those references, and makes, reads and writes just what its source says, in this order.", "quantifier": "all sequences of calls and uses of what they returned; all capacities, lengths, positions and places in memory; both models of the aliasing rules", "why_tests_cant": "items are destroyed and cloned by functions of others while references to the buffer are arguments of functions that still run; what the compiler makes of this shows in the code of callers, if at all; Miri tells only of what tests run", "anchors": ["oct/src/sized_iter/mod.rs:49-58", "oct/src/sized_iter/mod.rs:62-71", "oct/src/sized_iter/mod.rs:90-108", "oct/src/sized_iter/mod.rs:113-123", "oct/src/sized_iter/mod.rs:134-145", "oct/src/sized_iter/mod.rs:148-175", "oct/src/sized_iter/mod.rs:178-182"]}
{"id": "C155", "title": "Programs that hold a stream and compile have no undefined behaviour by aliasing", "statement": "A program that holds an input or output stream, calls its methods and looks at what they return has no undefined behaviour by aliasing, under Stacked Borrows and Tree Borrows, if it compiles. What an input stream returned may be looked at ever after, whatever it is used for. A write that has room ends what an output stream returned before under Stacked Borrows, and under Tree Borrows where it writes, but not what `as_slice` returned. Calls read and write the octets that are copied and the stream itself, and nothing else.", "quantifier": "all sequences of calls and uses of what they returned; all capacities, positions and places in memory; both models of the aliasing rules", "why_tests_cant": "the methods make slices of raw pointers, with a lifetime that is longer than that of the reference to the stream; whether this is right shows neither in results nor in tests, and Miri tells only of what tests run", "anchors": ["oct/src/decode/input/mod.rs:49-69", "oct/src/decode/input/mod.rs:79-101", "oct/src/decode/input/mod.rs:103-124", "oct/src/encode/output/mod.rs:49-71", "oct/src/encode/output/mod.rs:74-90", "oct/src/encode/output/mod.rs:92-113"]}
{"id": "C156", "title": "Protectors forbid nothing that streams do", "statement": "That references which are passed to functions must be usable until those return makes no program undefined that holds a stream, be it read from or written to: with and without that rule the same programs are defined, whether they compile or not; so those that compile are defined. Each method enters just those functions, with just those references, and makes, reads and writes just what its source says, in this order.", "quantifier": "all sequences of calls and uses of what they returned; all capacities, positions and places in memory; both models of the aliasing rules", "why_tests_cant": "`read_into` has two exclusive arguments at once, and copies by pointers made of neither, or of one; what the compiler makes of arguments that are not aliased shows in the code of callers, if at all; Miri tells only of what tests run", "anchors": ["oct/src/decode/input/mod.rs:49-69", "oct/src/decode/input/mod.rs:79-101", "oct/src/decode/input/mod.rs:103-124", "oct/src/encode/output/mod.rs:49-71", "oct/src/encode/output/mod.rs:74-90", "oct/src/encode/output/mod.rs:92-113"]}
{"id": "C157", "title": "Under Tree Borrows, references may be looked at until something is written there", "statement": "Under Tree Borrows, in all programs that own a sized slice, a slot, an iterator or a stream, whether they compile or not: if a reference or pointer that was returned may be looked at, then it may be looked at later, for as long as the program is defined and nothing is written there. What was returned as shared, by `as_slice`, `as_ptr`, `each_ref` or the `read` of input streams, may be looked at exactly for that long. Under Stacked Borrows the first is false.", "quantifier": "all sequences of calls and uses of what they returned, before and after; all capacities, lengths and places in memory", "why_tests_cant": "programs that the borrow checker refuses can be written with pointers, and in the crate are; what is undefined shows in results seldom, and no test runs all programs", "anchors": ["oct/src/sized_slice/conv.rs:84-89", "oct/src/sized_slice/mod.rs:99-121", "oct/src/slot/mod.rs:124-126", "oct/src/slot/mod.rs:143-146", "oct/src/sized_iter/mod.rs:49-58", "oct/src/encode/output/mod.rs:74-90", "oct/src/decode/input/mod.rs:49-69"]}
{"id": "C158", "title": "Under Stacked Borrows, shared references may be looked at until something there is written or borrowed as mutable", "statement": "Under Stacked Borrows, in all programs that own a sized slice, a slot, an iterator or a stream, whether they compile or not: what was returned as shared, by `as_slice`, `as_ptr`, `each_ref` or the `read` of input streams, may be looked at exactly until something there is written or a `&mut` to it is made, for as long as the program is defined. So Tree Borrows allows whatever Stacked Borrows allows here; and `as_mut_slice` of which nothing is used makes the difference.", "quantifier": "all sequences of calls and uses of what they returned, before and after; all capacities, lengths and places in memory", "why_tests_cant": "programs that the borrow checker refuses can be written with pointers, and in the crate are; what is undefined shows in results seldom, and no test runs all programs", "anchors": ["oct/src/sized_slice/conv.rs:84-89", "oct/src/sized_slice/mod.rs:99-121", "oct/src/slot/mod.rs:124-126", "oct/src/slot/mod.rs:143-146", "oct/src/sized_iter/mod.rs:49-58", "oct/src/encode/output/mod.rs:74-90", "oct/src/decode/input/mod.rs:49-69"]}
{"id": "C159", "title": "Under Stacked Borrows, exclusive references may be used until anything else is used there", "statement": "Under Stacked Borrows, in all programs that own a sized slice, a slot or an iterator, whether they compile or not: what `as_mut_slice` returned may be looked at, and put to, exactly until something else is read or written there or any reference to it is made, for as long as the program is defined.", "quantifier": "all sequences of calls and uses of what they returned, before and after; all capacities, lengths and places in memory", "why_tests_cant": "programs that the borrow checker refuses can be written with pointers, and in the crate are; what is undefined shows in results seldom, and no test runs all programs", "anchors": ["oct/src/sized_slice/conv.rs:96-101", "oct/src/slot/mod.rs:155-158", "oct/src/sized_iter/mod.rs:62-71"]}
{"id": "C160", "title": "Under Tree Borrows, exclusive references may be looked at until anything else writes there", "statement": "Under Tree Borrows, in all programs that own a sized slice, a slot or an iterator, whether they compile or not: what `as_mut_slice` returned may be looked at exactly until something is written there by other means than itself, for as long as the program is defined.", "quantifier": "all sequences of calls and uses of what they returned, before and after; all capacities, lengths and places in memory", "why_tests_cant": "programs that the borrow checker refuses can be written with pointers, and in the crate are; what is undefined shows in results seldom, and no test runs all programs", "anchors": ["oct/src/sized_slice/conv.rs:96-101", "oct/src/slot/mod.rs:155-158", "oct/src/sized_iter/mod.rs:62-71"]}
{"id": "C161", "title": "Under Tree Borrows, exclusive references may be put to until something else writes there, or is used there after they were put to", "statement": "Under Tree Borrows, in all programs that own a sized slice, a slot or an iterator, whether they compile or not: what `as_mut_slice` returned may be put to, anywhere in the buffer, exactly until something is written there by other means than itself, or, once it was put to there, something else is read there or a reference to it is made, for as long as the program is defined. So to ask for the length before it is put to does no harm, which it does under Stacked Borrows.", "quantifier": "all sequences of calls and uses of what they returned, before and after; all capacities, lengths and places in memory", "why_tests_cant": "programs that the borrow checker refuses can be written with pointers, and in the crate are; what is undefined shows in results seldom, and no test runs all programs", "anchors": ["oct/src/sized_slice/conv.rs:96-101", "oct/src/slot/mod.rs:155-158", "oct/src/sized_iter/mod.rs:62-71"]}
{"id": "C162", "title": "Neither Stacked Borrows nor Tree Borrows allows all that the other allows", "statement": "For every slot and every octet that it has: to write the octet by the pointer that `as_mut_ptr` returned, call `as_slice`, and write it by the pointer again is allowed by Stacked Borrows and not by Tree Borrows; to look at what `as_slice` returned after `as_mut_slice` was called is allowed by Tree Borrows and not by Stacked Borrows. So that a program which owns a slot is right by one of the two tells nothing of the other.", "quantifier": "all capacities, lengths, octets and places in memory", "why_tests_cant": "Rust has settled on neither; a test under Miri is by one of the two, and only of what it runs", "anchors": ["oct/src/slot/mod.rs:133-135", "oct/src/slot/mod.rs:143-146", "oct/src/slot/mod.rs:155-158"]}
{"id": "C163", "title": "Under Stacked Borrows, the pointer to the buffer of a slot may be used until anything else writes there, or a `&mut` to it is made", "statement": "Under Stacked Borrows, in all programs that own a slot, whether they compile or not: the pointer that `as_mut_ptr` returned may be looked at, and put to, exactly until something is written there by other means than itself or a `&mut` to it is made, for as long as the program is defined. That others look there, or a `&` to it is made, does not end it; so after `as_slice` it may still be put to, which what `as_mut_slice` returned may not.", "quantifier": "all sequences of calls and uses of what they returned, before and after; all capacities, lengths and places in memory", "why_tests_cant": "programs that use pointers are not checked by the borrow checker; what is undefined shows in results seldom, and no test runs all programs", "anchors": ["oct/src/slot/mod.rs:133-135", "oct/src/slot/mod.rs:143-146", "oct/src/slot/mod.rs:155-158"]}
{"id": "C164", "title": "Under Tree Borrows, the pointer to the buffer of a slot may be used like a `&mut`", "statement": "Under Tree Borrows, in all programs that own a slot, whether they compile or not: the pointer that `as_mut_ptr` returned may be looked at exactly until something is written there by other means than itself, and put to exactly until that happens or, once it was put to there, something else is read there or a reference to it is made, for as long as the program is defined. So after `as_slice` it may be put to if it was not yet, and may not if it was.", "quantifier": "all sequences of calls and uses of what they returned, before and after; all capacities, lengths and places in memory", "why_tests_cant": "programs that use pointers are not checked by the borrow checker; what is undefined shows in results seldom, and no test runs all programs", "anchors": ["oct/src/slot/mod.rs:133-135", "oct/src/slot/mod.rs:143-146"]}
{"id": "C165", "title": "Under Stacked Borrows, of what each_mut returned only the last may be used, until anything else writes there or a `&mut` to it is made", "statement": "Under Stacked Borrows, in all programs that own a sized slice, whether they compile or not: what `each_mut` returned for an item may be looked at, and put to, exactly if the item is the last and since then nothing was written there by other means than itself and no `&mut` to it was made, for as long as the program is defined. So none of the others may ever be used.", "quantifier": "all sequences of calls and uses of what they returned, before and after; all items; all capacities, lengths and places in memory", "why_tests_cant": "what is undefined shows in results seldom, and no test runs all programs; one under Miri with a single item would find nothing", "anchors": ["oct/src/sized_slice/mod.rs:125-147", "oct/src/sized_slice/conv.rs:75-77"]}
{"id": "C166", "title": "Under Tree Borrows, every reference that each_mut returned may be used, each until something else takes its item", "statement": "Under Tree Borrows, in all programs that own a sized slice, whether they compile or not: what `each_mut` returned for an item, whichever it is, may be looked at exactly until something is written there by other means than itself, and put to exactly until that happens or, once it was put to, something else is read there or a reference to it is made, for as long as the program is defined. So all may be put to at once, and all but the last only under this model and not under Stacked Borrows.", "quantifier": "all sequences of calls and uses of what they returned, before and after; all items; all capacities, lengths and places in memory", "why_tests_cant": "what is undefined shows in results seldom, and no test runs all programs; Miri under one model says nothing of the other", "anchors": ["oct/src/sized_slice/mod.rs:125-147", "oct/src/sized_slice/conv.rs:75-77"]}
