{"id": "C01", "title": "Two layout computations agree", "statement": "If an initializer's calculate_layout_cautious returns Some(layout) and initialize(dst, layout) then completes, calculate_layout on the constructed object returns that same layout (same size, same field offsets, same array lengths), for FixedLen, Array, Str, newtypes, tuples and define_varlen structs and any nesting of them.", "quantifier": "all types built from the library's constructors, all initializers, all memories, all pointer widths", "why_tests_cant": "the layout is recomputed from memory by different (wrapping) code than the checked one; agreement is needed for every size, alignment and nesting", "anchors": ["varlen/src/lib.rs:Initializer::calculate_layout_cautious", "varlen/src/lib.rs:VarLen::calculate_layout", "varlen/src/macro_support.rs:cat_field_cautious", "varlen/src/macro_support.rs:cat_field_fast", "varlen/src/macro_support.rs:cat_array_field_cautious", "varlen/src/macro_support.rs:cat_array_field_fast", "varlen/src/tuple.rs:define_tuple", "varlen_macro/src/lib.rs:define_varlen_impl"]}
{"id": "C02", "title": "Overflow is reported exactly", "statement": "The checked layout computation of arrays and of field concatenation returns None if and only if the exact (unbounded) field offset or end offset is not representable in usize; when it returns Some, offset and size are the exact mathematical values.", "quantifier": "all element sizes, alignments, lengths, starting offsets, pointer widths", "why_tests_cant": "boundaries sit near 2^64; false positives and false negatives are both possible and cannot be sampled", "anchors": ["varlen/src/macro_support.rs:cat_array_field_cautious", "varlen/src/macro_support.rs:cat_field_cautious", "varlen/src/array.rs:SizedInit", "varlen/src/tuple.rs:define_tuple", "varlen_macro/src/lib.rs:define_varlen_impl"]}
{"id": "C03", "title": "Fields are packed at the next aligned offset", "statement": "Each variable-length field (or array field) is placed at the smallest offset that is a multiple of its alignment and not before the end of the previous field; the size of the object is the end of the last field. The wrapping computation used on existing objects gives the same answer.", "quantifier": "all field lists and contents", "why_tests_cant": "least-ness and alignment hold for every combination of sizes, unit tests pick a few", "anchors": ["varlen/src/macro_support.rs:cat_field_fast", "varlen/src/macro_support.rs:cat_array_field_fast", "varlen/src/tuple.rs:define_tuple", "varlen_macro/src/lib.rs:define_varlen_impl"]}
{"id": "C04", "title": "Fields are disjoint, ordered, in bounds and aligned", "statement": "In any layout returned for a tuple or define_varlen struct, tail fields come in declaration order after the fixed header, their byte ranges do not overlap each other or the header, each lies within size(), and each field's address is aligned for its type whenever the object itself is aligned to ALIGN.", "quantifier": "all types, all contents, all base addresses aligned to ALIGN", "why_tests_cant": "overlap or misalignment shows only for particular size/alignment combinations", "anchors": ["varlen/src/tuple.rs:define_tuple", "varlen_macro/src/lib.rs:define_varlen_impl", "varlen/src/macro_support.rs:cat_field_fast"]}
{"id": "C05", "title": "ALIGN is sound", "statement": "ALIGN of every library-defined type is a power of two, is a multiple of the alignment of the header and of every field (so it equals the maximum), hence non-zero.", "quantifier": "all field lists", "why_tests_cant": "ranges over all combinations of field alignments", "anchors": ["varlen/src/macro_support.rs:array_max", "varlen/src/tuple.rs:define_tuple", "varlen_macro/src/lib.rs:define_varlen_impl", "varlen/src/array.rs:Array", "varlen/src/lib.rs:FixedLen"]}
{"id": "C06", "title": "Array construction round-trips and rejects exactly the too-long slices", "statement": "Array::try_copy / try_clone_from_slice return None iff the slice length is not representable in the length type; otherwise the resulting array dereferences to exactly the source elements and its length is the source length. Array::copy / clone_from_slice (usize length) never reject.", "quantifier": "all slices, element types, length types, pointer widths", "why_tests_cant": "boundary at 2^8, 2^16, 2^32 and every element value", "anchors": ["varlen/src/array.rs:Array::try_copy", "varlen/src/array.rs:Array::copy", "varlen/src/array.rs:Array::try_clone_from_slice", "varlen/src/array.rs:Array::clone_from_slice", "varlen/src/array.rs:SizedInit", "varlen/src/array.rs:Array::deref"]}
{"id": "C07", "title": "Array initializers fill exactly what they promise", "statement": "FillSequentially and FromIterPrefix fill slot i with the i-th value produced, in ascending order, each exactly once; FillWithDefault fills every slot with the default; CopyFrom/CloneFrom/MoveFrom fill with the source in order and panic iff the lengths differ, before writing anything (FromIterPrefix panics iff the iterator ends early). None of them writes outside the slice and, when they return normally, every slot is initialized. What the initializer still holds (the closure, the rest of the iterator, the array given to MoveFrom if its length is wrong) is destroyed when it returns or panics.", "quantifier": "all lengths, all stateful closures and iterators", "why_tests_cant": "order of side effects and complete initialization over every length and closure", "anchors": ["varlen/src/array_init.rs:FillSequentially", "varlen/src/array_init.rs:FromIterPrefix", "varlen/src/array_init.rs:FillWithDefault", "varlen/src/array_init.rs:CopyFrom", "varlen/src/array_init.rs:CloneFrom", "varlen/src/array_init.rs:MoveFrom"]}
{"id": "C08", "title": "mut_slice cannot change shape", "statement": "Writing any in-range element through Array::mut_slice changes that element only: length, layout, size, all other elements and all memory outside the array stay as they were.", "quantifier": "all arrays, indices, values", "why_tests_cant": "frame condition over all memory", "anchors": ["varlen/src/array.rs:Array::mut_slice", "varlen/src/array.rs:Array::len_short"]}
{"id": "C09", "title": "Str is always the UTF-8 text it was built from", "statement": "Str::copy(s) and Str::try_copy(s) produce a value whose deref is exactly s and always valid UTF-8, in any container; try_copy returns None iff the byte length does not fit the length type; cloning preserves this.", "quantifier": "all strings, all length types", "why_tests_cant": "deref uses from_utf8_unchecked: one bad path is UB; ranges over all strings", "anchors": ["varlen/src/str.rs:Str::copy", "varlen/src/str.rs:Str::try_copy", "varlen/src/str.rs:Str::deref", "varlen/src/str.rs:StrInit"]}
{"id": "C10", "title": "VBox::new builds the initializer's value", "statement": "VBox::new(init) either returns a box whose allocation has exactly size() bytes and ALIGN alignment and whose contents are the value described by init; or panics because the layout overflows, in which case init has been dropped, nothing was allocated and no other memory changed; or init's own code panics. In all cases boxes owned by init are freed, and destructors run only for what init held and did not place in the new value. (For non-zero size and successful allocation.)", "quantifier": "all lawful types, initializers, allocator behaviours", "why_tests_cant": "ranges over allocator placement and all initializers", "anchors": ["varlen/src/vbox.rs:VBox::new"]}
{"id": "C11", "title": "VBox drop destroys once and frees", "statement": "Dropping a VBox runs the destructor of every contained droppable value exactly once, in field order, then frees the allocation with the same size and alignment it was allocated with; no other memory changes.", "quantifier": "all types and contents", "why_tests_cant": "double drop or mismatched dealloc is UB that tests may not observe", "anchors": ["varlen/src/vbox.rs:Drop for VBox"]}
{"id": "C12", "title": "A VBox used as an initializer moves its contents", "statement": "Constructing an object from a VBox writes a bit-identical value at the destination, runs no destructor, and frees exactly the source allocation.", "quantifier": "all types, contents, destinations", "why_tests_cant": "leaks and double drops are invisible to result-checking tests", "anchors": ["varlen/src/vbox.rs:Initializer for VBox"]}
{"id": "C13", "title": "Clones are equal and independent", "statement": "vclone() of an object initializes a destination with a value equal to the original (leaf clones supplied by T: Clone), does not modify or drop the original, and later writes to either do not affect the other.", "quantifier": "all types, all contents", "why_tests_cant": "independence is a frame property over all later writes", "anchors": ["varlen/src/lib.rs:VClone", "varlen/src/array.rs:ArrayCloner", "varlen/src/tuple.rs:vclone", "varlen/src/vbox.rs:Clone for VBox", "varlen/src/newtype.rs:define_varlen_newtype"]}
{"id": "C14", "title": "vcopy is an exact copy", "statement": "For types with only Copy leaves, vcopy() initializes the destination with a value equal to the original and with the same layout, leaving the original unchanged.", "quantifier": "all types, contents, destinations", "why_tests_cant": "ranges over all layouts, including padding bytes", "anchors": ["varlen/src/lib.rs:VCopier", "varlen/src/lib.rs:VCopy"]}
{"id": "C15", "title": "Owned drops once without freeing", "statement": "Dropping an Owned runs each contained destructor exactly once in order and never deallocates the storage (which belongs to the arena).", "quantifier": "all types and contents", "why_tests_cant": "double drop invisible to tests", "anchors": ["varlen/src/owned.rs:Drop for Owned", "varlen/src/owned.rs:Owned::new_in"]}
{"id": "C16", "title": "Owned::leak gives up ownership without dropping", "statement": "Owned::leak returns a reference to the still-live value; no destructor has run.", "quantifier": "all types and contents", "why_tests_cant": "FALSE for the code: the destructor runs (self is dropped after a Copy field is moved out); only visible with a droppable leaf", "anchors": ["varlen/src/owned.rs:Owned::leak"]}
{"id": "C17", "title": "An Owned used as an initializer moves its contents", "statement": "Constructing an object from an Owned writes a bit-identical value at the destination within its size() bytes, runs no destructor, and does not free the source storage.", "quantifier": "all types, contents, destinations", "why_tests_cant": "FALSE for the code unless size_of::<T>() is 1 (typed copy_nonoverlapping is given a byte count): overruns or copies nothing depending on header size", "anchors": ["varlen/src/owned.rs:Initializer for Owned"]}
{"id": "C18", "title": "into_raw / from_raw round-trip", "statement": "VBox::into_raw then from_raw (and Owned likewise) yields the same object; neither runs a destructor, allocates, frees or writes memory.", "quantifier": "all objects", "why_tests_cant": "absence of effects", "anchors": ["varlen/src/vbox.rs:VBox::into_raw", "varlen/src/vbox.rs:VBox::from_raw", "varlen/src/owned.rs:Owned::into_raw", "varlen/src/owned.rs:Owned::from_raw"]}
{"id": "C19", "title": "A Seq is a list", "statement": "After any history of pushes (including extend/collect, reallocation, panicking pushes and take_elems), iter() yields exactly the values pushed since the last take_elems, in order, and len() is their number.", "quantifier": "all histories of operations, all allocator behaviours, all element sizes; elements of non-zero size (zero-size elements are C47)", "why_tests_cant": "reallocation and variable element sizes interact over unbounded histories", "anchors": ["varlen/src/seq.rs:Seq::push", "varlen/src/seq.rs:Seq::iter", "varlen/src/seq.rs:Iter::next", "varlen/src/seq.rs:Seq::extend", "varlen/src/seq.rs:Seq::from_iter", "varlen/src/seq.rs:Seq::len"]}
{"id": "C20", "title": "Offsets are stable names of elements", "statement": "The value of offset() before a push is the offset of the pushed element, and from_offset at that offset yields that element after any number of later pushes and reallocations, up to the next take_elems.", "quantifier": "all histories; elements of non-zero size (zero-size elements are C47)", "why_tests_cant": "requires every later push and realloc to preserve earlier elements", "anchors": ["varlen/src/seq.rs:Seq::offset", "varlen/src/seq.rs:Seq::from_offset", "varlen/src/seq.rs:grow_storage"]}
{"id": "C21", "title": "Offset accounting", "statement": "offset() equals the sum over elements of ceil(size/ALIGN), never exceeds capacity_in_offsets(), and elements occupy disjoint ranges in push order.", "quantifier": "all histories; elements of non-zero size (zero-size elements are C47)", "why_tests_cant": "sums over unbounded histories", "anchors": ["varlen/src/seq.rs:Seq::offset", "varlen/src/seq.rs:Seq::try_push"]}
{"id": "C22", "title": "Checked indexing accepts every element", "statement": "In an IndexableSeq, is_offset_valid(o) is true for the offset of every element currently in the sequence, and from_offset(o) does not panic.", "quantifier": "all histories including reallocation; elements of non-zero size (zero-size elements are C47)", "why_tests_cant": "bitmask relocation on growth for every capacity", "anchors": ["varlen/src/seq.rs:Seq::is_offset_valid", "varlen/src/seq.rs:CheckedIndexing::grow_storage", "varlen/src/seq.rs:CheckedIndexing::mark_offset_valid"]}
{"id": "C23", "title": "Checked indexing accepts only elements", "statement": "In an IndexableSeq, is_offset_valid(o) is true only if some current element starts at o.", "quantifier": "all histories and all offsets", "why_tests_cant": "FALSE for the code after take_elems: the bitmask is cleared with an already-zeroed length, so stale bits survive; true for histories without take_elems", "anchors": ["varlen/src/seq.rs:Seq::take_elems", "varlen/src/seq.rs:CheckedIndexing::clear_bitmasks", "varlen/src/seq.rs:Seq::is_offset_valid"]}
{"id": "C24", "title": "from_offset is safe", "statement": "from_offset(o)/from_offset_mut(o) on an IndexableSeq either panic or return a reference to a current element, for every o, never reading outside the allocation.", "quantifier": "all histories and all offsets", "why_tests_cant": "same flaw as C23; every offset value near usize::MAX", "anchors": ["varlen/src/seq.rs:Seq::from_offset", "varlen/src/seq.rs:Seq::from_offset_mut"]}
{"id": "C25", "title": "Growth policy", "statement": "A push that fits does not reallocate; a push that does not fit reallocates to max(needed, ceil(32/ALIGN), 2*capacity) offsets; so over any history of pushes the total number of bytes moved by reallocation (elements and bitmask) is less than capacity*ALIGN without an index and less than capacity*(ALIGN+1) with one (amortised O(1)).", "quantifier": "all histories; elements of non-zero size (zero-size elements are C47)", "why_tests_cant": "amortised bound over unbounded histories", "anchors": ["varlen/src/seq.rs:try_realloc", "varlen/src/seq.rs:Seq::capacity_in_offsets"]}
{"id": "C26", "title": "Failed push leaves the sequence intact", "statement": "If a push panics because of size overflow or allocation failure, the sequence has the same elements, length, offset and capacity as before; the initializer has been dropped (values it held are destroyed, boxes it owned freed) and no other memory has changed.", "quantifier": "all sequences, initializers, allocator failures; elements of non-zero size (zero-size elements are C47)", "why_tests_cant": "every overflow point and every allocator failure", "anchors": ["varlen/src/seq.rs:Seq::try_push", "varlen/src/seq.rs:try_realloc", "varlen/src/seq.rs:must_realloc"]}
{"id": "C27", "title": "Panicking initializer leaves the sequence usable", "statement": "If the initializer's initialize panics part-way (for example an array closure), the sequence still contains exactly its previous elements and may be used and dropped; only values the initializer still held are destroyed, boxes it owned are freed, and the sequence's elements are destroyed once, by its drop.", "quantifier": "all panic points; elements of non-zero size (zero-size elements are C47)", "why_tests_cant": "every crash point inside every initializer", "anchors": ["varlen/src/seq.rs:Seq::try_push", "varlen/src/seq.rs:Drop for Seq"]}
{"id": "C28", "title": "take_elems drains", "statement": "take_elems yields the elements in order as owned values; however many are consumed (dropped) before the iterator itself is dropped, every element's destructor runs exactly once, afterwards the sequence is empty with the same capacity and can be reused.", "quantifier": "all sequences, all numbers of consumed elements; elements of non-zero size (zero-size elements are C47)", "why_tests_cant": "every partial-consumption point", "anchors": ["varlen/src/seq.rs:Seq::take_elems", "varlen/src/seq.rs:OwnedElems::next", "varlen/src/seq.rs:Drop for OwnedElems"]}
{"id": "C29", "title": "Seq drop destroys everything once and frees", "statement": "Dropping a Seq runs the destructor of every remaining element exactly once, in order, and frees the storage with the layout it was allocated with.", "quantifier": "all histories; elements of non-zero size (zero-size elements are C47)", "why_tests_cant": "FALSE for zero-sized elements (capacity 0: elements are never dropped); leaks are not observable in tests", "anchors": ["varlen/src/seq.rs:Drop for Seq", "varlen/src/seq.rs:Drop for OwnedElems"]}
{"id": "C30", "title": "iter_mut gives each element once", "statement": "iter_mut yields each element once in order at disjoint addresses, and modifying one element in place (without changing its size) leaves all other elements unchanged.", "quantifier": "all sequences, all in-place modifications; elements of non-zero size (zero-size elements are C47)", "why_tests_cant": "frame over all elements", "anchors": ["varlen/src/seq.rs:IterMut", "varlen/src/seq.rs:Seq::iter_mut"]}
{"id": "C31", "title": "Iterator bookkeeping", "statement": "size_hint/len/count of Seq iterators equal the number of items still to be yielded; limited_to(n) yields exactly the first min(n, remaining) of the remaining elements.", "quantifier": "all sequences and positions; elements of non-zero size (zero-size elements are C47)", "why_tests_cant": "all positions", "anchors": ["varlen/src/seq.rs:Iter::limited_to", "varlen/src/seq.rs:Iter::size_hint", "varlen/src/seq.rs:Iter::count"]}
{"id": "C32", "title": "offset_of inverts from_offset", "statement": "offset_of(&element) returns the offset at which that element was pushed; for a reference outside the sequence's occupied storage it panics.", "quantifier": "all sequences, all references; elements of non-zero size (zero-size elements are C47)", "why_tests_cant": "pointer arithmetic over all addresses", "anchors": ["varlen/src/seq.rs:Seq::offset_of"]}
{"id": "C33", "title": "No undefined behaviour in any Seq history", "statement": "No history of safe Seq operations (new, push, extend, iter, iter_mut, offset, from_offset, is_offset_valid, take_elems, drop) with lawful initializers reaches an out-of-bounds, misaligned, use-after-free, uninitialised or mismatched-dealloc access.", "quantifier": "all histories, all allocator behaviours", "why_tests_cant": "memory safety over unbounded histories; FALSE after take_elems with checked indexing and for zero-sized elements", "anchors": ["varlen/src/seq.rs:Seq"]}
{"id": "C34", "title": "Index storage overhead", "statement": "For a checked-indexing Seq, storage is capacity*ALIGN bytes plus exactly ceil(capacity/8) bitmask bytes; bit o always lies inside the allocation for o < capacity and does not overlap element storage.", "quantifier": "all capacities and alignments", "why_tests_cant": "all capacities", "anchors": ["varlen/src/seq.rs:add_bitmask_to_layout", "varlen/src/seq.rs:CheckedIndexing::extended_layout", "varlen/src/seq.rs:CheckedIndexing::mark_offset_valid"]}
{"id": "C35", "title": "refs() exposes the constructed values", "statement": "For a tuple or struct constructed from given field initializers, refs() yields for each field (header field, varlen field, array field) exactly the value its initializer described, with references in bounds and aligned.", "quantifier": "all field lists and values", "why_tests_cant": "every arrangement of fields", "anchors": ["varlen/src/tuple.rs:refs", "varlen_macro/src/lib.rs:define_varlen_impl refs"]}
{"id": "C36", "title": "muts() gives independent access", "statement": "The references from muts() are to disjoint memory; overwriting one mutable header field, array element or (same-layout) varlen field leaves the value of every other field and the layout of the whole unchanged; length (controls_layout) fields are only exposed immutably.", "quantifier": "all field lists, values, writes", "why_tests_cant": "frame for every pair of fields", "anchors": ["varlen/src/tuple.rs:muts", "varlen_macro/src/lib.rs:define_varlen_impl muts"]}
{"id": "C37", "title": "vdrop destroys each field exactly once", "statement": "vdrop on a tuple, struct, array, newtype or FixedLen runs each contained destructor exactly once in declaration order and touches nothing outside the object; when NEEDS_VDROP is false there is nothing to drop and skipping vdrop is unobservable.", "quantifier": "all types and contents", "why_tests_cant": "double/missed drops", "anchors": ["varlen/src/tuple.rs:vdrop", "varlen_macro/src/lib.rs:define_varlen_impl vdrop", "varlen/src/macro_support.rs:drop_array", "varlen/src/macro_support.rs:vdrop_field", "varlen/src/lib.rs:FixedLen"]}
{"id": "C38", "title": "try_set_layout_controllers protects the layout", "statement": "try_set of layout-controlling fields returns Ok and stores the new values iff every array length computed from them equals the current one; otherwise returns Err(LayoutMismatch) and changes nothing; in both cases the object's layout and all other fields are unchanged.", "quantifier": "all structs, all old and new controller values", "why_tests_cant": "all pairs of values", "anchors": ["varlen_macro/src/lib.rs:try_set_layout_controllers"]}
{"id": "C39", "title": "Newtypes are transparent", "statement": "A define_varlen_newtype wrapper has the same layout, alignment, contents, initialization and drop effects as its inner type.", "quantifier": "all inner types and initializers", "why_tests_cant": "for every inner type", "anchors": ["varlen/src/newtype.rs:define_varlen_newtype", "varlen/src/newtype.rs:impl_initializer_as_newtype"]}
{"id": "C40", "title": "Macro field classification and visibility", "statement": "define_varlen classifies each field by its single varlen attribute, rejects a field with more than one, preserves declaration order and other attributes; generated helper types in the nested module get visibility denoting the same scope as the user wrote; a declaration it does not support is rejected with the message of its first problem.", "quantifier": "all field lists, all visibilities", "why_tests_cant": "unbounded syntax", "anchors": ["varlen_macro/src/lib.rs:parse_fields", "varlen_macro/src/lib.rs:SimpleVisibility", "varlen_macro/src/lib.rs:parse_generics"]}
{"id": "C41", "title": "Initialization stays inside its destination", "statement": "Every library initializer, given storage of layout.size() bytes aligned to ALIGN, writes only bytes in [dst, dst+size()) and in storage it owns (which it frees), whether it returns or panics; the destructors that run are those of values it held and did not place.", "quantifier": "all types, initializers, memories", "why_tests_cant": "frame over all memory; includes panics", "anchors": ["varlen/src/lib.rs:Initializer::initialize", "varlen/src/macro_support.rs:init_field", "varlen/src/macro_support.rs:init_array", "varlen/src/tuple.rs:initialize", "varlen_macro/src/lib.rs:define_varlen_impl initialize"]}
{"id": "C42", "title": "Constructing any value through VBox is defined", "statement": "VBox::new never exhibits undefined behaviour, whatever the allocator does and whatever the size.", "quantifier": "all types, allocators", "why_tests_cant": "FALSE for the code: null from the allocator is not checked, and zero-sized layouts are passed to alloc", "anchors": ["varlen/src/vbox.rs:VBox::new"]}
{"id": "C43", "title": "Length types convert faithfully", "statement": "For each ArrayLen type and usize n, from_usize(n) is None iff n exceeds the type's maximum, and otherwise as_usize(from_usize(n)) = n.", "quantifier": "all widths and values", "why_tests_cant": "boundaries at each width; as_usize is a truncating cast on small-pointer targets", "anchors": ["varlen/src/array.rs:ArrayLen"]}
{"id": "C44", "title": "Growing preserves the index", "statement": "Growing an IndexableSeq's storage preserves the validity answer for every old offset, and all offsets between old and new capacity are reported invalid.", "quantifier": "all old and new capacities; elements of non-zero size (zero-size elements are C47)", "why_tests_cant": "byte/bit arithmetic over all capacities", "anchors": ["varlen/src/seq.rs:CheckedIndexing::grow_storage"]}
{"id": "C45", "title": "An array's length is its length field", "statement": "len() of an array equals the number its length field holds, and the number of elements its initializer was given, for every length type.", "quantifier": "all length types, lengths, pointer widths", "why_tests_cant": "the failing case needs a length above usize::MAX of a 32-bit target", "anchors": ["varlen/src/array.rs:ArrayLen", "varlen/src/array.rs:Array::len"]}
{"id": "C46", "title": "Owned::new_in builds the initializer's value in the arena", "statement": "Owned::new_in(init, arena) either returns an Owned to a value described by init, in a fresh aligned part of the arena of exactly size() bytes; or panics because the layout overflows or the arena is out of memory, in which case init has been dropped and no other existing memory changed; or init's own code panics, only values it still held having been destroyed.", "quantifier": "all types, initializers, arena behaviours", "why_tests_cant": "all arenas and sizes", "anchors": ["varlen/src/owned.rs:Owned::new_in"]}
{"id": "C47", "title": "Sequences of zero-sized elements work", "statement": "A Seq of zero-sized elements is a list: pushing is defined, iteration yields every pushed element, each is dropped once, offset_of returns the offset of the element.", "quantifier": "all sequences of zero-sized elements", "why_tests_cant": "a zero-sized element type is a corner case over all histories", "anchors": ["varlen/src/seq.rs:Seq::push", "varlen/src/seq.rs:Seq::iter", "varlen/src/seq.rs:Seq::offset_of"]}
{"id": "C48", "title": "extend and collect push in order", "statement": "extend / collect / seq! push the items of the iterator in order; if pushing item n panics, exactly the earlier items have been pushed and the sequence is usable; the items that the iterator still holds are dropped; collect and seq! additionally destroy the values already pushed, in order, and free the storage.", "quantifier": "all iterators, sequences, allocator behaviours", "why_tests_cant": "all lengths and panic points", "anchors": ["varlen/src/seq.rs:Extend", "varlen/src/seq.rs:FromIterator"]}
{"id": "C49", "title": "The code that define_varlen prints is the declared struct", "statement": "For every accepted declaration, executing the code that #[define_varlen] prints (calculate_layout, ALIGN, NEEDS_VDROP, vdrop, calculate_layout_cautious, initialize, refs, muts, try_set_layout_controllers) is the same as the operations of a struct with the declared fields, in order, each of the kind its attribute says and each array as long as its length expression says; so the printed `unsafe impl`s keep the contracts of VarLen and Initializer.", "quantifier": "all declarations the macro and the compiler accept, all field types, all length expressions, all objects and memories", "why_tests_cant": "a test expands finitely many declarations; the printed program depends on every combination of field kinds, names and order", "anchors": ["varlen_macro/src/lib.rs:define_varlen_impl", "varlen_macro/src/lib.rs:parse_fields", "varlen_macro/src/lib.rs:push_varlen", "varlen_macro/src/lib.rs:push_varlen_array"]}
{"id": "C50", "title": "Which field names define_varlen supports", "statement": "The item printed for an accepted declaration obeys the compiler's rules about duplicate and shadowed names if and only if: field names are distinct; no varlen or varlen_array field is called `size` or like the made-up companion (`<name>_layout`, `<name>_len`) of another; their names are distinct in camel case; and none before an array field is called `lengths`.", "quantifier": "all declarations the macro accepts", "why_tests_cant": "ranges over all sets of field names", "anchors": ["varlen_macro/src/lib.rs:define_varlen_impl", "varlen_macro/src/lib.rs:push_varlen", "varlen_macro/src/lib.rs:push_varlen_array"]}
{"id": "C51", "title": "Values handed over in an initializer are destroyed at most once", "statement": "Every value that an initializer holds (in an Init literal, MoveFrom, an iterator or closure, a box), and every value it makes (clones, results of closures), is destroyed exactly once when the object is constructed and later dropped, by VBox, Owned or Seq; exactly once if the initializer is dropped unused or refused for its layout; and at most once when initialize panics.", "quantifier": "all types and initializers with arbitrary nesting, iterators and closures that neither lose nor duplicate values, allocator behaviours, panic points, sequences", "why_tests_cant": "the combinations of nesting, panic point and consumer are unbounded; a double drop shows only for the one combination that has it", "anchors": ["varlen/src/array_init.rs:FillSequentially,FromIterPrefix,MoveFrom", "varlen/src/tuple.rs:define_tuple", "varlen_macro/src/lib.rs:define_varlen_impl", "varlen/src/vbox.rs:VBox::new", "varlen/src/owned.rs:Owned::new_in", "varlen/src/seq.rs:Seq::push,Extend,FromIterator"]}
{"id": "C52", "title": "Boxes handed over in an initializer are freed", "statement": "A VBox used as an initializer, directly or inside tuples, structs and newtypes, has its allocation freed exactly once whether the construction (VBox::new, Owned::new_in, push, extend) returns or panics, and when the initializer is dropped unused.", "quantifier": "all initializers with arbitrary nesting, allocator behaviours, panic points", "why_tests_cant": "leaks and double frees depend on the nesting and on the panic point", "anchors": ["varlen/src/vbox.rs:VBox (Initializer, Drop)", "varlen/src/tuple.rs:define_tuple", "varlen_macro/src/lib.rs:define_varlen_impl"]}
{"id": "C53", "title": "A panicking VBox::new leaks no allocation", "statement": "If VBox::new panics, every allocation it made has been freed.", "quantifier": "all types, initializers, allocator behaviours, panic points", "why_tests_cant": "the panic may come from any depth of the initializer", "anchors": ["varlen/src/vbox.rs:VBox::new"]}
{"id": "C54", "title": "Debug and release builds behave alike", "statement": "Compiled with overflow checks and debug assertions, the library never panics because of them: no plain +, -, * of the library overflows and no debug_assert fails. push, extend, collect, take_elems, iteration, indexing, offset_of, dropping a sequence and VBox::new do exactly what they do in a release build, after any history of operations (offset_of on a sequence without storage panics in both, possibly with different messages).", "quantifier": "all pointer widths >= 8, element types, histories, initializers with elements of non-zero size, allocator behaviours, offsets", "why_tests_cant": "overflow needs sizes near the end of the address space, at any point of a history", "anchors": ["varlen/src/seq.rs:try_push", "varlen/src/seq.rs:try_realloc", "varlen/src/seq.rs:add_bitmask_to_layout", "varlen/src/seq.rs:mark_offset_valid", "varlen/src/seq.rs:clear_bitmasks", "varlen/src/seq.rs:round_up_fast", "varlen/src/seq.rs:Seq::offset_of", "varlen/src/vbox.rs:VBox::new"]}
{"id": "C55", "title": "new_array returns what the initializer produces", "statement": "new_array::<T, N>(init) returns an array of exactly the N values the initializer produces, in order (for FillSequentially, FillWithDefault, FromIterPrefix, CopyFrom, CloneFrom, MoveFrom as documented), or panics if the initializer does (closure, iterator or clone panics, iterator too short, length mismatch). It has no undefined behaviour, leaves all other memory as it was and no storage behind; every value the initializer held or made ends up in the array or is destroyed, exactly once, and none is destroyed twice on a panic.", "quantifier": "all element types, N, initializers incl. user-written ones obeying the contract, states, panic points", "why_tests_cant": "element types, lengths, closures and panic points are unbounded; uninitialised reads and double drops do not show in outputs", "anchors": ["varlen/src/array_init.rs:new_array", "varlen/src/array_init.rs:transmute_workaround", "varlen/src/array_init.rs:HasUninit"]}
{"id": "C56", "title": "Whole programs: memory safety, exactly-once destruction, no leaks", "statement": "Take any safe program that makes, moves into each other, modifies, looks at, drains, drops and forgets any number of VBox, Owned and Seq values of any types, interleaved with anything else the program does, with any allocator and with caught panics. At every moment: each value it holds shows exactly the contents it should, no two share memory, and none overlaps other memory of the program; no destructor has run twice; unless something was forgotten or the program's own code panicked during construction, every value made so far has been destroyed or is still held, exactly once; and every live allocation belongs to a held value or the program. No step has undefined behaviour, except VBox::new for a value of size zero or without memory (C42). Not among the steps: from_offset after take_elems (C24), pushing zero-sized elements (C47), Owned as initializer where C17 fails.", "quantifier": "all finite programs over these operations, all types and initializers incl. user-written ones obeying their contracts, all allocator behaviours, all pointer widths >= 8", "why_tests_cant": "programs, their interleavings and the values moved between containers are unbounded; double frees, leaks and aliasing do not show in outputs", "anchors": ["varlen/src/vbox.rs:VBox::new", "varlen/src/vbox.rs:Drop", "varlen/src/owned.rs:Owned::new_in", "varlen/src/owned.rs:Drop", "varlen/src/seq.rs:Seq::push", "varlen/src/seq.rs:Seq::try_push", "varlen/src/seq.rs:Seq::take_elems", "varlen/src/seq.rs:OwnedElems", "varlen/src/seq.rs:Drop for Seq"]}
{"id": "C57", "title": "Safe changes of a struct's head keep it valid", "statement": "Whatever safe code does to the header fields of a define_varlen struct in place (assigning or swapping them through &mut, storing through a shared reference into a field with interior mutability), as long as each field still holds a value of its type the struct stays a valid object of the same layout: refs(), muts(), calculate_layout and dropping it are defined, the tail fields are unchanged.", "quantifier": "all struct declarations, all valid objects, all changes of the head that leave values of the fields' types", "why_tests_cant": "the set of changes (any values, any field types, any number of stores, swaps between objects) is unbounded, and a broken layout shows only as undefined behaviour", "anchors": ["varlen_macro/src/lib.rs:define_varlen_impl", "varlen/src/marker.rs:ArrayMarker", "varlen/src/marker.rs:FieldMarker"]}
{"id": "C58", "title": "Panicking destructors: no undefined behaviour, at most once, leaks only", "statement": "When the destructor of an element or field panics while a VBox, Owned, Seq, or a value in it is dropped, nothing is undefined: each destructor still runs at most once, in the documented order, and only those of the value being dropped; within one array all the other elements are still destroyed; what is not destroyed is leaked together with the allocation of the box or sequence; all other memory is unaffected. A caller's loop that drains a sequence and drops its items one by one destroys all the other elements, and the sequence remains usable. A second panic during unwinding aborts the process.", "quantifier": "all library types, all values, every set of destructors that panic, all histories of sequences", "why_tests_cant": "which destructors panic and the shapes of the values are unbounded; double drops and frees during unwinding are undefined behaviour that need not show", "anchors": ["varlen/src/macro_support.rs:drop_array", "varlen/src/lib.rs:FixedLen::vdrop", "varlen/src/array.rs:vdrop", "varlen/src/tuple.rs:vdrop", "varlen_macro/src/lib.rs:define_varlen_impl", "varlen/src/vbox.rs:Drop", "varlen/src/owned.rs:Drop", "varlen/src/seq.rs:OwnedElems", "varlen/src/seq.rs:Drop for Seq"]}
{"id": "C59", "title": "try_set_layout_controllers is exception safe", "statement": "Even if the destructor of a replaced or rejected value panics, try_set_layout_controllers leaves a valid struct with the same layout and unchanged tail fields, so that refs(), muts() and dropping it are still defined.", "quantifier": "all struct declarations, all valid objects, all new controller values, every set of destructors that panic", "why_tests_cant": "the combinations of old values, new values and panicking destructors are unbounded, and a broken layout shows only as undefined behaviour", "anchors": ["varlen_macro/src/lib.rs:define_varlen_impl", "varlen_macro/src/lib.rs:try_set_layout_controllers"]}
{"id": "C60", "title": "A panicking length expression is harmless", "statement": "When evaluating the length expression of a #[varlen_array] field, or an initializer's calculate_layout_cautious, panics (division by zero, overflow, indexing), then VBox::new, Owned::new_in and Seq::push panic before anything has been allocated or written; the values in the initializer are destroyed exactly once and the boxes it owns are freed; a sequence stays as it was. It happens exactly when all the fields before the offending one can be laid out. In an object that exists no length expression panics, so that calculate_layout, refs, muts and drop are not affected; and try_set_layout_controllers panics without having changed the object.", "quantifier": "all struct declarations and length expressions (partial functions of the controllers), all literals and other initializers, all states", "why_tests_cant": "the length expressions and the values on which they panic are arbitrary; a leaked or doubly destroyed argument during unwinding need not show", "anchors": ["varlen_macro/src/lib.rs:define_varlen_impl", "varlen_macro/src/lib.rs:push_varlen_array", "varlen/src/vbox.rs:VBox::new", "varlen/src/owned.rs:Owned::new_in", "varlen/src/seq.rs:try_push", "varlen/src/macro_support.rs:cat_array_field_cautious"]}
{"id": "C61", "title": "extend and collect work with any iterator", "statement": "Seq::extend and collect call next until it returns None and push exactly the items returned, each once and in order, after the values already there; they do so for iterators that allocate, run destructors, panic or never end. When next returns None or panics, or a push panics, the iterator is dropped exactly once (and for collect then the unfinished sequence, with its values and storage); the sequence passed to extend keeps the items pushed so far and stays fully usable. Memory the iterator only borrows is not changed: extending a sequence with clones or copies of all the elements of another leaves that other one as it was. Every value held or made by the iterator or its items is destroyed exactly once if the iterator ends, and never twice if something panics.", "quantifier": "all iterators over initializers (any state, any effects on memory they own, any number of items), all histories of the sequence, all allocator behaviours, all points of a panic", "why_tests_cant": "iterators are arbitrary user code; the points at which next or push can panic are unbounded", "anchors": ["varlen/src/seq.rs:Extend", "varlen/src/seq.rs:FromIterator", "varlen/src/seq.rs:push", "varlen/src/seq.rs:Iter"]}
{"id": "C62", "title": "define_varlen on generic structs", "statement": "For a generic struct the macro gives the struct, Refs, Muts and the impls all parameters with their bounds, and the layout type exactly the parameters that are written as a whole type in a #[varlen] field. The expansion obeys the compiler's scoping rules if and only if every type or const parameter has a default, no field in the head and no length expression uses a parameter, parameters used in #[varlen] fields (or in the where clause, or in bounds of such parameters) occur there as whole types, and no parameter is called 'a, usize, bool or like a made-up Init parameter. The type printed for a field of the struct, Refs and Muts mentions exactly the parameters that the user wrote in it. For every instance of every such struct, the size that calculate_layout_cautious starts from (the head of the struct with the default arguments) is the size of the head of the instance, so values are created in allocations that fit and the printed unsafe impls keep the contracts of VarLen and Initializer.", "quantifier": "all generic declarations (any parameters, bounds, defaults, where clauses, any types with nested generic arguments, paths, lifetimes and expressions), all choices of arguments", "why_tests_cant": "the tests contain two generic declarations and no instance other than the default; the claim ranges over all syntax trees of types and all instances", "anchors": ["varlen_macro/src/lib.rs:parse_generics", "varlen_macro/src/lib.rs:GenericRefs", "varlen_macro/src/lib.rs:define_varlen_impl", "varlen/src/marker.rs"]}
{"id": "C63", "title": "The library's references obey the aliasing rules", "statement": "For every program that uses references to variable-length objects as the borrow checker allows, no access is undefined behaviour under Rust's aliasing model Tree Borrows: neither an access or reborrow by the program itself, nor one made inside calculate_layout, refs, muts, try_set_layout_controllers, deref/mut_slice of arrays, the accessors of newtypes, borrowing from a box, an owned object or a sequence, their iterators, initialization, push, growing and clearing a sequence, or a destructor. All references that refs() or muts() returns, and all items of iter() or iter_mut(), can be kept and used at the same time in any order: they are for the bytes of the respective field or element, the mutable ones are for disjoint bytes and may be written, #[controls_layout] fields are shared in both; the caller's other references are unaffected and the call leaves no other live reference. Dropping the box or the sequence afterwards is defined.", "quantifier": "all variable-length types (arrays, tuples, newtypes, define_varlen structs, arbitrarily nested, whether or not they are Unpin), all layouts of objects, all trees of references that a sequence of steps of any length reaches, all orders of use", "why_tests_cant": "Tests do not detect aliasing violations; running them under Miri (which the repository does for one example) checks single executions of single types, and the default model rejects the library's references to object tails altogether", "anchors": ["varlen/src/macro_support.rs", "varlen/src/array.rs:deref", "varlen/src/array.rs:mut_slice", "varlen/src/tuple.rs:refs", "varlen/src/tuple.rs:muts", "varlen/src/newtype.rs", "varlen/src/vbox.rs:as_mut", "varlen/src/owned.rs:as_mut", "varlen/src/seq.rs:Iter", "varlen/src/seq.rs:IterMut", "varlen/src/seq.rs:OwnedElems", "varlen_macro/src/lib.rs:define_varlen_impl"]}
{"id": "C64", "title": "Pinned objects stay in place until they are destroyed", "statement": "Once the library has handed out a Pin<&mut T> to an object (VBox::as_mut, Owned::as_mut, Seq::iter_mut, from_offset_mut), the object stays at its address, and its memory is neither freed nor reused, until its destructor has run. (This is the contract of Pin. It is kept by pushes that fit, by dropping and draining; it is violated by a push that makes the sequence grow, by using the box as an initializer, and by pushing after the elements taken out with take_elems have been forgotten.)", "quantifier": "all types, all histories of a sequence, all boxes, all initializers", "why_tests_cant": "tests use objects for which moving is harmless; the contract is about every history and about user code that relies on it", "anchors": ["varlen/src/vbox.rs:as_mut", "varlen/src/vbox.rs:initialize", "varlen/src/owned.rs:as_mut", "varlen/src/seq.rs:iter_mut", "varlen/src/seq.rs:from_offset_mut", "varlen/src/seq.rs:try_push", "varlen/src/seq.rs:take_elems"]}
{"id": "C65", "title": "Safe code can swap only objects without a tail", "statement": "Safe code can get a plain &mut T (and so call mem::swap, mem::replace) from the library's pinned references only for types whose objects have no variable-size tail; swapping two such objects exchanges their values and leaves both valid. (Documented as: if you never write unsafe code you need not worry about it. Violated when the user writes impl Unpin for a type made with define_varlen or define_varlen_newtype!, which is safe.)", "quantifier": "all variable-length types of the library, any nesting; all pairs of objects; all programs, with and without impl Unpin", "why_tests_cant": "a test cannot show that code which must not compile or must not exist is impossible for every type", "anchors": ["varlen/src/lib.rs:Use of Pin", "varlen/src/marker.rs:FieldMarker", "varlen/src/marker.rs:ArrayMarker", "varlen/src/array.rs:Array", "varlen/src/tuple.rs", "varlen/src/newtype.rs", "varlen_macro/src/lib.rs:define_varlen_impl"]}
{"id": "C66", "title": "Few allocations", "statement": "VBox::new and Owned::new_in make exactly one allocation when they return, whatever the number and nesting of the object's fields; when they panic, at most one, and none if the initializer reports that the object cannot be built. Cloning a box makes one. Dropping a box, an owned object or a sequence, and taking elements out of a sequence and dropping any number of them, make none. A push makes none if the element fits in the capacity and exactly one otherwise, and the capacity at least doubles then: after n >= 1 allocations it is at least 2^(n-1) * ceil(32/ALIGN) offsets, so a sequence makes only logarithmically many.", "quantifier": "all types and initializers of the library, all allocators, all histories of a sequence (any number of pushes, with and without panics, and take_elems)", "why_tests_cant": "The README sells the library on the number of allocations; a test counts them for one type and one history.", "anchors": ["README.md", "varlen/src/vbox.rs:new", "varlen/src/vbox.rs:clone", "varlen/src/owned.rs:new_in", "varlen/src/seq.rs:try_push", "varlen/src/seq.rs:grow_storage", "varlen/src/seq.rs:take_elems"]}
{"id": "C67", "title": "Sharing and moving objects between threads", "statement": "A variable-length object is Send (Sync) exactly if all the ordinary values in it are, those in its tail and in nested objects at any depth included; so moving or sharing it moves or shares only such values, and dropping it on the other thread runs only destructors of such values. References, pinned references and what refs() and muts() return follow these rules; VBox, Owned, Seq and their iterators can never cross threads. Every operation that takes a shared reference (size, calculate_layout, refs, deref, inner, iteration, from_offset, ...) writes nothing, allocates nothing and drops nothing, so any number of threads may use shared references at once: under every schedule each operation has the result it has alone and the memory is unchanged.", "quantifier": "all variable-length types of the library, any nesting; all assignments of Send and Sync to ordinary types; all numbers of threads and all interleavings; all memory states", "why_tests_cant": "A test sees one type and one schedule; data races and missing auto-trait bounds show up on others or never.", "anchors": ["varlen/src/marker.rs:FieldMarker", "varlen/src/marker.rs:ArrayMarker", "varlen/src/array.rs:Array", "varlen/src/vbox.rs:VBox", "varlen/src/owned.rs:Owned", "varlen/src/seq.rs:Seq", "varlen/src/seq.rs:Iter", "varlen/src/tuple.rs", "varlen_macro/src/lib.rs:define_varlen_impl"]}
{"id": "C68", "title": "The layout is determined by the lengths", "statement": "The layout of an object, and so its size, is determined by its lengths alone: the lengths of arrays and strings and the #[controls_layout] fields, in the object and in the objects nested in it. Whatever happens to its other bytes (overwritten, moved out, uninitialised), calculate_layout is still defined and gives the same layout; two objects of a type with equal lengths have the same layout wherever they are; a type without lengths has one size. The length bytes lie within the object. (The contract of VarLen: the layout of an existing object must not change its size.) Comparing the layouts of two objects of a fixed-size type, an array type, a string type or a newtype of one of them tells exactly whether the layouts are the same, which for arrays and strings means that the objects have the same number of elements.", "quantifier": "all variable-length types of the library, any nesting; all objects; all changes of memory outside the length bytes", "why_tests_cant": "a test changes a few bytes of a few objects; that no other byte can influence the layout is a claim about all of them", "anchors": ["varlen/src/lib.rs:VarLen", "varlen/src/array.rs:calculate_layout", "varlen/src/macro_support.rs:cat_field_fast", "varlen/src/tuple.rs:calculate_layout", "varlen_macro/src/lib.rs:define_varlen_impl", "varlen/src/lib.rs:PartialEq for FixedLenLayout", "varlen/src/array.rs:ArrayLayout"]}
{"id": "C69", "title": "References deep into an object", "statement": "Any chain of accessor calls that type-checks (refs()/muts() and one of its fields, mut_slice()/deref of arrays and strings, inner()/inner_mut() of newtypes, .0 of FixedLen, indexing), of any length, on any object: it has no undefined behaviour and no effect; it panics exactly if an index is out of bounds; otherwise it gives a reference into the object that shows the part of the object's value that the chain names. References from chains that part somewhere are to disjoint memory. Changing the value at the end of a mutable chain leaves the whole object valid with the same layout and exactly that part of its value replaced; every other reference shows what it showed; the old value is destroyed exactly once. This may be done at any point of any program.", "quantifier": "all variable-length types of the library, any nesting; all objects; all chains of accessors of any length; all pairs of chains; all new values; all programs", "why_tests_cant": "a test follows a few chains in a few types; that nesting composes (offsets, bounds, disjointness, drop accounting) is a claim about all nestings", "anchors": ["varlen/src/array.rs:mut_slice", "varlen/src/str.rs:deref", "varlen/src/newtype.rs:inner", "varlen/src/tuple.rs:refs", "varlen/src/tuple.rs:muts", "varlen/src/macro_support.rs:ref_field", "varlen/src/macro_support.rs:mut_array", "varlen_macro/src/lib.rs:define_varlen_impl"]}
{"id": "C70", "title": "Changing an object through a shared reference", "statement": "A field or element whose type has interior mutability (Cell, atomics, Mutex) may be changed through the shared references that refs(), deref and inner() give, wherever in the object it lies: such a change is not undefined behaviour, and every other reference may still be used as before.", "quantifier": "all variable-length types of the library, any nesting; all layouts; all trees of references any program has made; all changes inside a part with interior mutability", "why_tests_cant": "a test passes although the behaviour is undefined; whether it is depends on what all references in use promise about each byte", "anchors": ["varlen/src/marker.rs:FieldMarker", "varlen/src/marker.rs:ArrayMarker", "varlen/src/array.rs:deref", "varlen/src/tuple.rs:refs", "varlen/src/macro_support.rs:ref_field", "varlen/src/macro_support.rs:ref_array", "varlen_macro/src/lib.rs:define_varlen_impl"]}
{"id": "C71", "title": "Length expressions are evaluated again and again", "statement": "A struct made by define_varlen stays valid whatever the rest of the program does without access to it: every later calculate_layout, refs, muts and drop, which evaluate the length expressions of its #[varlen_array] fields anew, computes the layout that the object was made with.", "quantifier": "all structs and objects; all answers that each length expression (a const fn of references to the #[controls_layout] fields) may give at a later time", "why_tests_cant": "a test evaluates the expressions a few times in one environment; the claim is about all later evaluations", "anchors": ["varlen_macro/src/lib.rs:define_varlen_impl", "varlen/src/macro_support.rs:cat_array_field_fast", "varlen/src/lib.rs:VarLen"]}
{"id": "C72", "title": "Contracts of the standard library's unsafe functions", "statement": "Wherever the crate calls NonNull::new_unchecked, slice::from_raw_parts(_mut) or Layout::from_size_align_unchecked, the documented contract of that function is met: pointers are not null; slices are aligned, in bounds of one allocation, at most isize::MAX bytes long and hold initialised values; layouts are legal.", "quantifier": "all library types, values, chains of accessors, histories of a Seq with and without an index, pushes, allocators", "why_tests_cant": "contracts of unsafe functions are not checked at run time, and a violation need not show in any output", "anchors": ["varlen/src/seq.rs:alloc_storage", "varlen/src/seq.rs:grow_storage", "varlen/src/seq.rs:clear_bitmasks", "varlen/src/seq.rs:add_offsets_fast", "varlen/src/macro_support.rs:init_field", "varlen/src/macro_support.rs:ref_array", "varlen/src/vbox.rs:VBox::drop"]}
{"id": "C73", "title": "Markers: no head without its tail", "statement": "Safe code can put a value of a variable-length type into a local variable only if the type has no tail. Such a value is a complete object: a reference to it meets the contract of VarLen. When it goes out of scope the destructor of every field runs exactly once, in declaration order; for #[define_varlen] structs this is accompanied by the panic 'Called drop on a VarLen type'. (marker.rs: markers prevent creating a variable-length object without also creating a valid tail for it.)", "quantifier": "all library types (any nesting), all values, all memory contents after the value", "why_tests_cant": "that code is rejected by the compiler for every type, and that what is accepted is safe wherever it is placed, is about all types and all memory contents", "anchors": ["varlen/src/marker.rs:FieldMarker", "varlen/src/marker.rs:ArrayMarker", "varlen/src/macro_support.rs:invalid_drop_call", "varlen_macro/src/lib.rs:define_varlen_impl (Drop)", "varlen/src/tuple.rs:Drop"]}
{"id": "C74", "title": "refs() and muts() have the declared types", "statement": "For every #[define_varlen] declaration that the compiler accepts, wherever it is written and whatever its types are called, the references in refs() and muts() are to the fields of the object at their declared types: each shows the value of its field. (The macro copies the types into a submodule, where paths can mean something else; the reference types are inferred from there.)", "quantifier": "all declarations, all meanings of names around the declaration (modules, function bodies, prelude) that the compiler accepts, all objects and states", "why_tests_cant": "it depends on what every path in a type means in two places of the user's crate; tests declare their structs at one place with unambiguous names", "anchors": ["varlen_macro/src/lib.rs:define_varlen_impl", "varlen_macro/src/lib.rs:push_varlen", "varlen_macro/src/lib.rs:push_varlen_array", "varlen/src/macro_support.rs:ref_array", "varlen/src/macro_support.rs:ref_field"]}
{"id": "C75", "title": "Newtype macros call the trait's methods", "statement": "The unsafe impls that define_varlen_newtype! and impl_initializer_as_newtype! print keep the contracts of VarLen and Initializer whenever the inner type and the inner initializer do, whatever other (safe) methods these types have.", "quantifier": "all inner types and initializers that keep the contracts, all additional methods on them", "why_tests_cant": "it ranges over all user types and over methods the library does not know", "anchors": ["varlen/src/newtype.rs:define_varlen_newtype", "varlen/src/newtype.rs:impl_initializer_as_newtype"]}
{"id": "C76", "title": "Accessors, construction, destruction and sequences under Stacked Borrows", "statement": "The references that refs(), muts(), the slices of arrays, calculate_layout(), vdrop(), the drop of a VBox, initializers, and the methods of Seq (push, growth, iter, iter_mut, from_offset, Drop) make obey Stacked Borrows, the aliasing model that Miri checks by default: calling them through a valid reference to an object (or on a box or a sequence that owns its allocation) is never undefined behaviour, and the references that iterators have returned stay usable while the iteration goes on; what is done with one object never affects references to others.", "quantifier": "all library types (any nesting), all objects, all histories of sequences, all states of the aliasing model in which the given reference may be used", "why_tests_cant": "Miri checks single executions, and the repository's tests are not run under it; the claim is about every type, length and history of borrows", "anchors": ["varlen/src/macro_support.rs:ref_array", "varlen/src/macro_support.rs:mut_array", "varlen/src/macro_support.rs:ref_field", "varlen/src/macro_support.rs:mut_field", "varlen/src/macro_support.rs:cat_field_fast", "varlen_macro/src/lib.rs:define_varlen_impl", "varlen/src/array.rs:Deref", "varlen/src/vbox.rs:Drop for VBox", "varlen/src/macro_support.rs:drop_array", "varlen/src/macro_support.rs:vdrop_field", "varlen/src/macro_support.rs:init_array", "varlen/src/seq.rs:Iter", "varlen/src/seq.rs:IterMut", "varlen/src/seq.rs:OwnedElems", "varlen/src/seq.rs:Seq::try_push", "varlen/src/seq.rs:CheckedIndexing", "varlen/src/seq.rs:Drop for Seq"]}
{"id": "C77", "title": "User-written destructors of newtypes run", "statement": "If a program implements Drop for a type it declared with define_varlen_newtype!, then destroying an object of that type (dropping its VBox, its Owned, or the Seq it is in) runs that destructor once and then destroys the inner object, as for every other Rust type.", "quantifier": "all inner types, all user-written destructors, all objects, all containers and histories of a sequence", "why_tests_cant": "no test declares a newtype with its own Drop; the claim is about every inner type, destructor and container", "anchors": ["varlen/src/newtype.rs:define_varlen_newtype", "varlen/src/vbox.rs:Drop for VBox", "varlen/src/owned.rs:Drop for Owned", "varlen/src/seq.rs:Drop for Seq"]}
{"id": "C78", "title": "User code with effects during construction", "statement": "The closures, iterators and Clone/Default impls that initializers call may do anything that safe code can do while an object is under construction: read and write their own memory, allocate, free, print, panic, and use this library on other objects, to any depth. The object under construction still gets exactly the values that these calls returned, in order, each call is made once and each closure or iterator is dropped once, what the construction borrows or owns and every other object is left alone, and the program's own memory stays in order.", "quantifier": "all worlds (invariants of the program's own memory), all user code that keeps its world's invariant and leaves alone what it has no access to, all library types and initializers (any nesting), VBox::new, Owned::new_in and Seq::push, all histories of the sequence, all allocators", "why_tests_cant": "the claim ranges over every program that can be put into a closure, iterator or Clone impl, including ones that call the library recursively, and every point at which such code may panic", "anchors": ["varlen/src/array_init.rs:FillSequentially", "varlen/src/array_init.rs:FillWithDefault", "varlen/src/array_init.rs:FromIterPrefix", "varlen/src/array_init.rs:CloneFrom", "varlen/src/lib.rs:FixedLenCloner", "varlen/src/vbox.rs:VBox::new", "varlen/src/owned.rs:Owned::new_in", "varlen/src/seq.rs:Seq::push"]}
{"id": "C79", "title": "Destructors that use memory", "statement": "The destructors of the values inside a variable-length object may do anything that safe code can do: read and write their own memory, allocate, free what they own (as those of Box, Vec, String and VBox do), print, use this library, and panic. Dropping a box, an Owned, a sequence or the drained elements one by one is never undefined behaviour; each value is destroyed at most once, in order, and all of them if nothing panics; a value that a panic skips still owns what it owned; the object's storage is freed exactly if nothing panics; other objects and the rest of the program's memory stay in order. In particular, when the values own further boxes, to any depth, dropping the outermost box frees every one of them.", "quantifier": "all library types (any nesting), all values, all destructors that leave alone the memory of others (with any effects and any panics), all invariants of the program's own memory, all histories of the sequence, all depths of nesting of boxes", "why_tests_cant": "the claim ranges over every program that can be put into a destructor and every point at which one may panic, and over ownership structures of any depth", "anchors": ["varlen/src/vbox.rs:Drop for VBox", "varlen/src/owned.rs:Drop for Owned", "varlen/src/seq.rs:Drop for Seq", "varlen/src/seq.rs:Drop for OwnedElems", "varlen/src/macro_support.rs:drop_array", "varlen/src/macro_support.rs:vdrop_field", "varlen/src/array.rs:vdrop", "varlen_macro/src/lib.rs:382-388", "varlen/src/tuple.rs:174-182"]}
{"id": "C80", "title": "Whole programs with panicking destructors", "statement": "A program may hold any number of boxes, owned values and sequences, and an arbitrary set of the destructors of its values may panic whenever one of these objects (or an item or iterator obtained from take_elems) is dropped. If it catches the panic and goes on, then whatever it does: no operation is undefined behaviour except VBox::new of C42, every object it still holds is intact and apart from the others, no value is ever destroyed twice; values are lost only if there was a panic (or an object was forgotten), and memory only if a destructor panicked in dropping a box or a sequence. The drop of one object aborts the process only if two elements of one array in it panic.", "quantifier": "all programs (sequences of operations of any length on any number of objects of any library types), all sets of panicking destructors, all allocator behaviours, all histories", "why_tests_cant": "the claim ranges over every program, every set of destructors that panic and every point at which it goes on after a panic", "anchors": ["varlen/src/vbox.rs:Drop for VBox", "varlen/src/owned.rs:Drop for Owned", "varlen/src/seq.rs:Drop for Seq", "varlen/src/seq.rs:Drop for OwnedElems", "varlen/src/macro_support.rs:drop_array"]}
{"id": "C81", "title": "What a newtype keeps private stays true", "statement": "A module that defines a newtype with a private constructor and private mutable access, and that itself only ever builds and edits values for which an invariant holds, can rely on it: every object of the newtype that any program holds, directly or as a field, boxed, owned, in a sequence or drained from one, after any moves, clones and copies and any panics, satisfies the invariant. The code that runs is that of the wrapped type. For the documentation's CountedStr: for every string, char_count() is the number of code points of what str() returns.", "quantifier": "all wrapped library types, all invariants, all programs (any number of objects, any length), all sets of panicking destructors, all strings", "why_tests_cant": "the claim ranges over all programs that users of the module may write and over all strings", "anchors": ["varlen/src/newtype.rs:define_varlen_newtype", "varlen/src/newtype.rs:CountedStr (documentation)"]}
{"id": "C82", "title": "Replacing layout controllers whose destructors use memory", "statement": "try_set_layout_controllers may destroy values (the old controllers if it accepts, the new ones if it rejects or a length expression panics) whose destructors free what they own, use the library, and panic. It is never undefined behaviour: if it accepts, then for some k the first k controllers hold their new values and the others their old ones, with all new exactly if no destructor panics (then it returns Ok, and the object is valid with the same layout); every old and new value is exactly one of destroyed once, held by the object, or lost without being destroyed (only on abort), and what is held or lost still owns what it owned. After a panic the object is valid if the lengths computed from the mixture are the current ones, in particular always with a single controller (the other mixtures: C59). If it rejects, the object and all other memory of the library are unchanged and the rejected values are destroyed in order.", "quantifier": "all define_varlen structs with any field types, all valid objects, all new controllers, all length expressions, all destructors that leave alone the memory of others (with any effects and any panics), all invariants of the program's own memory", "why_tests_cant": "the claim ranges over every program that can be put into a destructor and every point at which one may panic", "anchors": ["varlen_macro/src/lib.rs:454-483", "varlen_macro/src/lib.rs:475-477"]}
{"id": "C83", "title": "Shortening lifetimes", "statement": "If the objects of a type hold references, a program may use a VBox, an Owned, a Seq, its shared and its by-value iterator, and a shared reference to an object, where the same type with shorter lifetimes is expected, at any depth of tuples, newtypes and structs (they are covariant in the element type), and reads only live references that way. IterMut, mutable references to objects and to the owning handles, and the writable fields of muts() are invariant: no short-lived value can be stored through them where the owner expects a long-lived one.", "quantifier": "all library types of any nesting, all subtype relations between the ordinary types inside, all values", "why_tests_cant": "the claim ranges over all types and lifetimes; a program that breaks it must be rejected by the compiler, which no run shows", "anchors": ["varlen/src/vbox.rs:VBox", "varlen/src/owned.rs:Owned", "varlen/src/seq.rs:Seq", "varlen/src/seq.rs:Iter", "varlen/src/seq.rs:IterMut", "varlen/src/seq.rs:OwnedElems", "varlen/src/marker.rs:FieldMarker", "varlen/src/marker.rs:ArrayMarker", "varlen_macro/src/lib.rs:307-336"]}
{"id": "C84", "title": "Containers inside containers", "statement": "Objects may hold boxes and sequences of this library (Option<VBox<T>>, Option<Seq<T>>), whose elements may hold further ones, in any mixture, of any library types, to any depth. Dropping such a box or sequence is never undefined behaviour: nothing is freed or destroyed twice or used afterwards, whatever the destructors of the innermost values do to their own memory and whether they panic or abort. If none panics, dropping returns, every value is destroyed once and every container at every level is freed. If one panics, destruction goes on by Rust's rules at every level, a container being freed exactly if destroying its contents returned; what is lost is leaked, and the rest of memory stays intact.", "quantifier": "all nestings of boxes and sequences, all depths, all library types and values inside, all histories of the sequences, all destructors that leave alone the memory of others, all panics and aborts", "why_tests_cant": "the claim ranges over all shapes of ownership trees, and over every point in them at which a destructor may panic", "anchors": ["varlen/src/vbox.rs:Drop for VBox", "varlen/src/seq.rs:Drop for Seq", "varlen/src/seq.rs:Drop for OwnedElems", "varlen_macro/src/lib.rs:382-388"]}
{"id": "C85", "title": "Objects in an arena share chunks without noticing", "statement": "Owned::new_in puts objects into chunks of a bump arena, many into one chunk, next to each other. Wherever the arena puts them, as long as it hands out aligned memory that nobody uses, everything happens as if every object had an allocation of its own: new_in returns the place the arena chose or panics, and never touches a byte of another object, not even when the new object is copied, moved or cloned from another in the same chunk; dropping, modifying and looking at one object leaves the others intact; values in arenas can be cloned or moved into boxes and sequences, whose operations (push, draining, iterating, dropping, in-place edits) again leave everything else intact; the memory of different boxes, arena objects and sequences never overlaps; no value is destroyed twice or lost; and once all objects of a chunk are gone the arena may reuse its memory.", "quantifier": "all chunk sizes, placements and allocation orders, any number of chunks, boxes, arena objects, sequences and drains, all library types (and user-written ones that work the same at every address), all initializers, all interleavings of new_in, VBox::new, Seq::new, push, try_push, take_elems, next, drops, in-place modifications, forgetting, arena growth and reset, all panics in initializers", "why_tests_cant": "tests place a few objects; that no placement lets one object's operations reach another's bytes ranges over all placements, types and histories", "anchors": ["varlen/src/owned.rs:Owned::new_in", "varlen/src/owned.rs:Drop for Owned", "varlen/src/vbox.rs:VBox::new", "varlen/src/vbox.rs:Drop for VBox", "varlen/src/seq.rs:Seq::push", "varlen/src/seq.rs:Seq::take_elems"]}
