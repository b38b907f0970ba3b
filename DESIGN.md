# Formal model of varlen-rs in Lean 4

## 1. Trusted base

* Lean 4.33.0's kernel. Every theorem depends on at most the axioms `propext`, `Quot.sound`, `Classical.choice`
  (no axiom of our own, no compiled code: `decide +kernel` in the examples is evaluated by the kernel).
* The reading of the Rust source: every definition under `lean/Verif/Model` cites the file and lines it models and says where it simplifies.
* The environment model of section 2 (memory, allocator, Rust leaf types, rustc's guarantees about types).
* The specification predicates under `lean/Verif/Spec`, by which the theorems of `lean/Verif/Props` are stated.

## 2. What is modelled and how

**Words.** `usize` is `BitVec w` for an arbitrary pointer width `w`. `checked_*` returns `Option`, `wrapping_*` and
plain `+`/`*` are the wrapping `BitVec` operations. Where the Rust source uses plain `+`/`*` (which panic in debug
builds and wrap in release builds) the theorems give the exact mathematical value, so the two builds agree.
The `debug_assert_eq!` of `VBox::new` is executed (and proved not to fire); other `debug_assert!`s are not.

**Memory.** Bytes are `Option (BitVec 8)` (`none` = uninitialised). Memory is a family of
allocation blocks (`base`, `size`, `align`, `live`, contents). Pointers are (block id, byte offset): provenance is
explicit, an access outside the block, to a dead block, misaligned, or of an uninitialised byte where a value is needed
is the outcome `ub`. Programs are functions `σ → Res σ α` with outcomes `ok`, `panic` (carrying the state, so
what a panic leaves behind is visible) and `ub`.

Props/Memory.lean proves of every primitive operation of this model (reads, writes, references, `copy`, `copy_nonoverlapping`, `drop_in_place`, `alloc`, `dealloc`, `realloc`) exactly when it is defined and what it does, so that the reader can compare it with Rust's documentation.

**Allocator.** The global allocator is a universally quantified parameter: it picks a fresh block and a base address
satisfying the requested alignment, or fails (null). `realloc`, `alloc` of size 0 and `dealloc` with a wrong layout behave
as `std::alloc` documents (the latter two are `ub`). The size limit `isize::MAX` is enforced where std enforces it (`Layout::from_size_align`);
a `Layout` beyond it, made by `from_size_align_unchecked` or handed to the allocator, is `ub` (`badLayout`). An allocation is never at address 0 and its end is representable in `usize`.

**Rust leaf types** (`u32`, `String`, ...) are records of size, alignment, set of valid byte images,
whether they need drop, and the destructor's observable effect (events derived from the value, appended to a log). Destructors do not
touch memory other than the value itself, and do not panic, except in Model/DropPanic.lean (C58, C59), where an arbitrary set of them does, and in Model/UserDrop.lean (C79), where they are arbitrary programs on memory that
leave alone the storage of the object being destroyed and what other values own. In C79 a destructor does not change the bytes of the value it is given in a way that a later step sees (it may abort, except in parts of C82); the same for the destructors of controllers in `try_set_layout_controllers` (C82); destructors
of initializers are those of C78. In C58 and C79 a second panic during unwinding aborts
the process (`PanicMsg.abort`) once it leaves the destructor; older versions of Rust abort when it starts.

**User code.** Closures, iterators, `Clone`, `Default` are arbitrary functions on an arbitrary state that may panic. In C78 (Model/UserCode.lean) they are arbitrary programs on memory, subject to the contract that they leave alone the
storage under construction and what the initializers borrow or own (which Rust guarantees for safe code). Memory that belongs to a closure is described by the invariant of the world or by its captured state. Left out there: a `Clone` that changes the
value it clones through interior mutability; the clones of fixed-length head fields that `vclone()` itself makes are pure. Length expressions of `define_varlen` are
arbitrary pure functions of the layout-controlling fields that may panic (`LenFn`: a value and a domain).

**Ownership and unwinding.** Initializers own what they are given. The model runs the drop glue that Rust inserts: of an initializer that is dropped unused or refused, of what is left of it when
`initialize` returns, and of locals, temporaries and remaining fields when a panic unwinds (in Rust's order: later-made temporaries first, then the remaining fields of `self` in
declaration order, the variables of a destructured tuple in reverse order). `MaybeUninit` slots and fields already constructed in the destination are not dropped. What the body of a closure given to an
array initializer drops while it runs is modelled in C78 only. Iterators given to `extend` and `collect` are arbitrary programs (Model/SeqIter.lean).

**Types of the library** are records of the trait's code (`calculate_layout`, `vdrop`, constants) plus ghost
specification (`Rep`: which byte images represent which value with which layout; `drops`: which events its destruction owes). `Lawful`, `InitLawful`,
`ArrInitLawful`, `VCloneLawful` state the unsafe traits' documented contracts. `LibType`, `LibInit`, `LibArrInit`, `LibClone` (Spec/LibType.lean) enumerate the types and
initializers that the library offers, with arbitrary nesting, plus any user-written implementation that keeps the contract; each is *proved* to satisfy the contract, and
containers are proved correct for all types that satisfy it.

**Sequences** are stated over histories: `Hist` (Spec/SeqHist.lean) is the inductive set of states reachable by `new`, pushes (returning or panicking),
in-place mutation of elements, `take_elems` with any number of elements consumed, interleaved with arbitrary other changes of memory outside the sequence.

**The proc macro** is modelled twice: as the function from parsed declarations to the printed item (Model/Macro.lean), and by an interpreter for the printed item (Model/MacroSem.lean).

### Which files are modelled

| file | modelled | not modelled |
|----|----|----|
| varlen/src/lib.rs | `VarLen`, `Layout`, `Initializer`, `VClone`, `VCopy`, `VCopier`, `FixedLen` and its initializers, `PartialEq for FixedLenLayout` (Model/LayoutEq.lean) | doc text |
| macro_support.rs | everything (`invalid_drop_call` in Model/ByValue.lean) | |
| array.rs | everything | - |
| array_init.rs | all initializers | - |
| str.rs, newtype.rs, tuple.rs, marker.rs | everything that runs (method lookup in newtype.rs: Model/Dispatch.lean); tuples as lists of any positive length | the `macro_rules` patterns |
| vbox.rs, owned.rs | everything; in Model/VBox.lean the bump arena gives each object a block of its own, which C85 justifies: Model/Arena.lean has `new_in` in shared chunks, at any place the arena chooses | `Deref`/`as_mut` beyond pointer validity |
| seq.rs | everything | - |
| varlen_macro/src/lib.rs | visibility parsing, field classification, grouping, all printed code, the generic parameters of the printed items (Model/Generics.lean), where their types are printed (Model/Scopes.lean) | tokenising/parsing by `syn`, spans, `convert_case` (parameters `camel`, `snake`) |

**Build modes.** Model/Seq.lean is a release build (plain arithmetic wraps); Model/Debug.lean has the functions that differ in a debug build, and C54 shows they agree.

**Aliasing** (C63, C70). Model/TreeBorrows.lean is the aliasing model Tree Borrows for one allocation, Model/Borrow.lean says function by function which references the library makes and
accesses. Values are left out there and the layout is an argument (the other models say which layout the code computes). A chain of reborrows of the same bytes of which only the last
is used is one reborrow. `Pin<&mut T>` arguments are reborrowed if `T: Unpin`, so both cases (`pin`) are proved. The conditions of `Step` (Spec/Borrow.lean) are what the borrow checker
guarantees; that it does is trusted. Closures and iterators in initializers may read from references `srcs` into the same allocation, but not write through them. Interior mutability: `RTy.cells`
says which bytes of a Rust type are inside an `UnsafeCell`, `RTy.freeze` that there are none (then references promise that the bytes behind the head do not change either); a program may store through a shared
reference where no reference in use promises otherwise (`CanStore`, Spec/Borrow.lean). Left out: two-phase borrows, user-written impls of the traits, several allocations at once (tags of different allocations do not interact).
Stacked Borrows (C76) is Model/StackedBorrows.lean: there a reference to an object is one to its head, and may not be used to reach the tail. It has the accessors, `calculate_layout`, and in Model/StackedDrop.lean `vdrop` and `Drop for VBox` (a destructor gets a mutable reference to its value; what it does with it is left out); protectors and `UnsafeCell` are left out. Model/StackedSeq.lean adds construction (`Inits`: what the library's initializers write, part by part; their sources are in other allocations, and user-written `ArrayInitializer`s are left out) and sequences: iterators, offsets, push, storage, `OwnedElems` (the whole drain at once, as `Drop` does it) and `Drop for Seq`.

**Not modelled.** Lifetimes and the borrow checker (of lifetimes, C83 has variance), `Pin` as a type (its contract is C64, and C65 says which types are `Unpin`),
concurrent use except that of shared references (C67; `&mut` excludes the rest, by the borrow checker), interior mutability except in the aliasing model (C70) and in C57 (an arbitrary change of the bytes of the head of a struct), the borrow checker's exclusion of a destination that
overlaps a borrowed source (a hypothesis: destination and sources are in different blocks). Integers are little-endian (nothing depends on it). Making a `&mut [u8]` over
uninitialised bitmask memory is not treated as undefined, except in C72 (Model/Strict.lean).

## 3. Per property

| id | what is modelled / how it is proved |
|----|----|
| C01 | all layout functions of `macro_support`, `Array`, tuples, struct macro output; by `Lawful.calc_ok` + `InitLawful.init_ok` for every constructor |
| C02 | `BitVec w` arithmetic of the cautious functions against a `Nat` spec; iff |
| C03, C04, C05 | offset recurrences against a `Nat` spec of "least aligned offset"; induction over field lists |
| C06, C07, C08 | array model over byte memory; induction over elements |
| C09 | bytes of Lean `String`s; the `Str` type's representation predicate includes UTF-8 validity |
| C10-C12, C42 | VBox model over the allocator; C42 is refuted by witnesses |
| C13, C14 | cloner/copier initializers and frame theorems |
| C15-C17, C46 | Owned model; C16 and C17 refuted by witnesses, partial positive statements |
| C18 | state equality |
| C19-C34, C44, C48 | Seq model, invariant `SeqInv` tying the sequence to a list of values, preserved by every operation, induction over histories; C23/C24 refuted at the point where the code is wrong, with partial positive theorems |
| C35-C39, C41 | struct/tuple/newtype model; induction over fields |
| C40 | the macro's parsing decisions; closed form of the groups by induction over the fields; the error reported by induction over the fields before the first bad one. Props/MacroExamples.lean runs the declarations, tests and expected messages of varlen_example through the model |
| C43, C45 | arithmetic of the length types; C45 refuted for `u64` on narrower targets; `C45_array_len_partial` for whole arrays |
| C47 | zero-sized elements; refuted by witnesses, and for every type (`C47_every_zero_size_checked_push_undefined`, `C47_every_zero_size_never_dropped`); positive theorem for unchecked indexing (pushes, len, iteration) Which types have values of size zero is an inductive predicate on declarations (Spec/Sized.lean); every declared type has only such values or none (Props/Sized.lean). |
| C49 | the printed item is interpreted; equality of programs with the struct model, so C01-C41 apply to printed code |
| C51 | accounting of destructor effects: `Accounts` (Spec/Moves.lean) gives, by rules over the library's constructors, what an initializer holds and makes; induction over its derivation; then the box, arena and sequence theorems |
| C54 | second model of `seq.rs` with overflow-checked arithmetic and debug assertions (Model/Debug.lean); equality of programs on all states that histories reach |
| C55 | `new_array` with its local array as a block of the memory model (Model/NewArray.lean); reduced to C07 for the concrete initializers, to the contract of `ArrayInitializer` for all |
| C56 | transition system of programs (Spec/Client.lean): worlds hold any number of boxes, owned values, sequences, half-drained sequences; each step runs the modelled function; invariant over reachable worlds (Proofs/Client.lean, ClientSteps.lean) |
| C57 | arbitrary state change confined to the head of a struct; induction over the fields; refuted by a witness |
| C58 | the functions that run destructors are modelled again for destructors that may panic (Model/DropPanic.lean; `C58_base_model`: without panics these are the base model's programs); Rust's unwinding rules as a small specification over the list of `drop_in_place` calls a value takes (Spec/DropPanic.lean); induction over types, and over the history of a sequence |
| C59 | the same for the assignments of `try_set_layout_controllers`; refuted by a witness; the exact state after a panic and validity for the other cases by induction over the fields |
| C60 | `LenFn.eval` panics outside the domain, `Init.cautious` may panic; exact condition by induction over the fields against the packing specification; unwinding through the constructors and `push` by computation with the laws of `dropI` |
| C61 | iterators as arbitrary programs with own state and footprint (`ItemIter`, law `ItemIterLawful`), the loop cut off after `n` calls of `next`, induction over `n` on top of the push theorem; the cut-off is shown not to matter; instances: lists, closures, `seq.iter().map(f)` |
| C62 | types as syntax trees, the visitor and the filter of parameters, each printed item with what it declares and writes; scoping as a predicate on these, proved equivalent to a condition on the declaration by induction over syntax trees; instances by substitution, which leaves the head types alone |
| C63 | Tree Borrows as a state machine on trees of tags; invariant over all reachable trees (a live reference keeps its permission on its bytes; a live mutable one is not overlapped by live references that are not derived from it); each library function preserves it, by induction over types and fields |
| C64 | `PinKept` (Spec/Pin.lean): the object is still there or its destructors have run. Refuted for growing pushes, `VBox` as initializer and forgotten elements (every type, every history); proved for fitting pushes, drops and drains, from the specifications of C11-C29 |
| C65 | `Unpin` as an auto trait over the field lists of the Rust structs (Model/Unpin.lean), `mem::swap` as a program on heads; induction over types: no marker, no tail. Refuted with an `impl Unpin` |
| C66 | every allocation adds one block to the memory and nothing else does (freed blocks stay, marked dead), so counting blocks counts allocations; the specifications of `new`, `drop`, `push` fix it, and a count along the histories of Spec/SeqHist.lean (Spec/Allocs.lean) gives the bound by induction |
| C67 | the types as syntax (Model/AutoTraits.lean: `Ty`, with its meaning in the memory model), the declared fields of every struct, and the compiler's rules for auto traits; `Mentions` and `PartOf` (Spec/Threads.lean) say what a value is made of; by induction on the type. For schedules: every operation on a shared reference returns the state it was given, so an induction on the interleaving suffices |
| C68 | `Controls` (Spec/Controls.lean) says which bytes are lengths, by recursion on the type; a relational lemma about two runs of `calculate_layout` in two memories that agree on these bytes, by induction on the type and its field lists. Comparing layouts (`==`, Model/LayoutEq.lean): from the representation of arrays and of fixed-size values |
| C69 | `follow` (Model/Paths.lean) runs chains of the modelled accessors; `V.sub`, `V.put` (Spec/Paths.lean) are the parts of a value, with the laws of a lens; one lemma per accessor (result, place, effect of writes, drop accounting, disjointness of siblings), then induction on the chain (`Chain`, Spec/Paths.lean, gives the typing rules of chains as a user knows them, and `C69_chains` that they are those of the model); the program-level statement goes through `Step.editBox` of C56 |
| C70 | refuted: through the slice of `Array<Cell<_>, _>`, and behind a head without interior mutability, no byte can be stored to (`C70_array_store_undefined`, `C70_tail_store_undefined`: the marker types are plain data, so the reference to the head freezes the tail). Proved: cells in the head, cells behind a head with interior mutability, the reference of a box or sequence; other references keep their permissions by the invariant of C63 |
| C71 | `Relen fs gs`: the same fields with other length expressions, those of a later time. Refuted: `C71_length_changed_undefined` (a controller `&'static Cell<usize>` and the expression `n.get()`). Proved: the object is valid later iff every expression gives the old length; induction over the fields |
| C72 | `SliceContract`, `NotNull` (Spec/StdContracts.lean) for all references that chains of accessors give, for the fields during `initialize`, and for the pointers of a `Seq` and its iterators; the `CheckedIndexing` functions again with the full contract of `from_raw_parts_mut` checked (Model/Strict.lean): refuted for every push that (re)allocates, proved for the others. `Layout`s are checked by the memory model (`badLayout`) |
| C73 | `Builds` (Model/ByValue.lean): which values struct expressions give, from the declared fields; `Stands` (Spec/ByValue.lean): a struct value in a variable, with unknown memory after it; `Ty.glue`: the drop glue. Induction on the type: buildable types are those without marker, and for them the head is the whole object |
| C74 | Model/Scopes.lean: paths and how they resolve beside the declaration, in the printed module and in its submodule `lengths`; `refs()`/`muts()` with their reference types read in the module. `TypeChecks` (Spec/Scopes.lean) is what the compiler compares. Reduction to C49 and C36 when the types agree; concrete declarations (by evaluation) refute the rest |
| C75 | Model/Dispatch.lean: the printed impls with an optional method of the inner type that takes precedence. Directly from C39's proofs; concrete refutations by evaluation |
| C76 | Model/StackedBorrows.lean, Model/StackedDrop.lean, Model/StackedSeq.lean: Stacked Borrows for one allocation, and the accessors, destruction, construction and sequences over the syntax of types. A new tag is in no stack outside of its bytes; the item of the allocation stays at the bottom of every stack; induction over types, fields, elements and initializers; both directions. For sequences: all histories (`Hist`). What is done for one object concerns only its own bytes (`Only`), so references to other elements stay good |
| C77 | Model/NewtypeDrop.lean: the printed impl of a newtype with a user-written `Drop`. Exact condition from C39's proofs, containers from C11, C15 and C29; concrete refutation by evaluation |
| C78 | Model/UserCode.lean: array initializers and cloners whose user code is an arbitrary program in the memory monad. Contracts relative to a `World` (Spec/UserCode.lean), composed through every initializer; structs and tuples by replaying a run with the answers written down (Proofs/UserReplay.lean), so that the proofs for pure initializers apply; the pure initializers are the special case |
| C79 | Model/UserDrop.lean: the functions of Model/DropPanic.lean with destructors that are programs in the memory monad. Spec/UserDrop.lean: contract relative to an `Owner` (the condition of memory given the values still to be destroyed), Rust's rules on panics as inductive relations. Induction over the library types and the elements; boxes in boxes: the destructor of `Option<VBox<T>>` is proved to keep the contract, level by level. The programs of C58 are the special case |
| C80 | Spec/ClientPanic.lean: the transition system of C56 with, in addition, drops run by Model/DropPanic.lean for an arbitrary set of panicking destructors; after a panic the program goes on without the object. The invariant of C56 is preserved (Proofs/ClientPanic.lean); with no panicking destructor the reachable worlds are those of C56. Destructors of values inside initializers do not panic here |
| C81 | Props/Encapsulation.lean: `NewtypeInv T inv` runs the code of `Newtype T` and its values are those of `T` satisfying `inv`; it keeps the contract of `VarLen`, so the invariants of C56/C80 carry it to every object of every reachable world. The documentation's `CountedStr` is modelled function by function. That code outside the module cannot reach the constructor and the mutable accessor is Rust's privacy (the macro prints the visibilities it is given, newtype.rs:160-240): trusted. The ways around it found elsewhere (C65, C75) are excluded. |
| C82 | Model/UserDrop.lean: `try_set_layout_controllers` with destructors that are programs. Spec/UserDrop.lean: Rust's rule for a sequence of assignments (`AssignEnds`). Induction over the controllers: each assignment runs one destructor under the contract of C79, writes, and continues or unwinds; accounting of every old and new value by induction over the rule. The program of C59 is the special case |
| C83 | Model/Variance.lean: the compiler's subtyping rules on the declared fields of Model/AutoTraits.lean (`Sub`), by induction over the type equivalent to `Shrinks` (Spec/Variance.lean: the same type with subtypes inside), which by induction over the parts of a value (`PartOf`) carries good values to good values. Names of structs and the lifetimes of the references themselves (`'a` in `Iter<'a, T>`) are not in the model |
| C84 | Model/Containers.lean: the drop glue of `Option<VBox<T>>` and `Option<Seq<T>>` (decoded from the bytes by an arbitrary function), nested n levels. Spec/Containers.lean: the condition of memory when values own containers (`Owns`, `CtrsOk`), with or without leaks, and what destroying them comes to (`CtrsEffects`). Induction over the levels, each step by C79 for boxes and sequences: the destructors of one level keep the contract of C79 relative to those of the next |
| C85 | Model/Arena.lean: `new_in` where the arena answers with any place in one of its chunks. Spec/Arena.lean: the real memory is a *packed form* (`Packed`) of the memory of a program of C56 in which every object has an allocation of its own: each ideal allocation is a range of a real one, with the same address and contents, and live ones do not overlap; which ranges of the chunks are free (`Room`) is kept track of. The arena's contract is `Vacant`. Each operation of the library is shown, primitive by primitive and then by induction over types and initializers, to do in the packed memory what it does in the ideal one (`Sim`); so the invariant `Sound` is kept by every step (C85_start, …, C85_reset; sequences in Props/ArenaSeq.lean: C85_push, …, C85_drop_iter), and C56 applies to the ideal program. C85_intact_all: every object is intact where it really is (C19/C20/C32 for sequences in real memory); C85_disjoint: the memory of different objects (`Covers`) has disjoint addresses; C85_vclone, C85_vcopy, C85_box_as_init, C85_owned_as_init: an object in an arena can be the source of a new one anywhere. Examples: two arrays in one chunk, one dropped, the other intact; then reset and reuse; a clone of the object in the chunk is pushed onto a sequence |
| C52, C53 | frames of C10, C26, C27, C46, C48 for the blocks of boxes; C53 is refuted by a witness |
| C50 | rustc's rules about names as a predicate on the printed item; iff with a condition on the field names |

## 4. Disagreements between documentation and code

Each is a theorem with a concrete witness; the positive part is proved under the name `_partial`.

1. `Seq::take_elems` zeroes `occupied_offsets` before `clear_bitmasks`, so no bit is cleared: stale offsets stay valid and `from_offset` on
   them is undefined behaviour in safe code (C23, C24, C33).
2. `Initializer for Owned` copies `size * size_of::<T>()` bytes: writes outside the destination (C17).
3. `Owned::leak` runs the destructor of the value it returns (C16).
4. `VBox::new` does not check for a null allocation and allocates zero bytes for zero-sized objects (C42).
5. `Seq` with zero-sized elements: undefined with checked indexing; elements are never dropped; `offset_of` panics; the dangling pointer is
   `align_of::<T>()`, which may be less aligned than `T::ALIGN` (C47).
6. `u64` lengths are truncated by `as_usize` on narrower targets (C45; documented).
7. `VBox::new` leaks its allocation when `initialize` panics (C53; safe, but nothing documents it).
8. Field names that clash with names that the macro makes up give compile errors that the documentation does not mention (C50).
9. Nothing keeps safe code from changing a `#[controls_layout]` field in place: with a `Cell` type and `len.get()` as length expression (a `const fn` since Rust 1.88), or by a
   safe `impl Unpin for S {}`, which turns `Pin<&mut S>` into `&mut S`. After such a change `refs()` and dropping the struct are undefined behaviour (C57).
10. `try_set_layout_controllers` is not exception safe: if the destructor of an old controller panics, later controllers keep their old values, and the mixture may give other array
   lengths; `refs()` and dropping the struct are then undefined behaviour (C59).

11. `size_of::<#tyname>()` is printed without generic arguments, `Init` and `LayoutControllers` without the parameters their fields may use, and the where clause unfiltered on a filtered
   `VarLenLayout`. So generic structs compile only under the conditions of C62; where they compile the wrong instance has the right size.

12. The contract of `Pin` is not kept (C64): a push that grows the sequence moves objects for which `iter_mut` or `from_offset_mut` has handed out `Pin<&mut T>`; so does a `VBox` used as an initializer; and
   after `mem::forget` of the elements taken out, the next push overwrites them. User code that relies on pinning (self-references, intrusive lists in a type with its own `unsafe` code) breaks.
13. `impl Unpin for S {}` is safe and makes safe code swap heads without tails (C65, C57); the contract of `unsafe trait VarLen` does not mention `Unpin` either.
14. Interior mutability behind the head (C70): `FieldMarker` and `ArrayMarker` are plain data, so a `&Array<Cell<_>, _>` or a `&` to a struct or tuple without interior mutability in its head promises that the tail does not change; safe code that calls `Cell::set` on an
    element or on a field of the tail has undefined behaviour under Tree Borrows. A marker with an `UnsafeCell` in it where the marked type has one would repair it.
15. The length expression is a `const fn`, which does not make it a function of the bytes of the `#[controls_layout]` fields (C71): with a field `n: &'static Cell<usize>` and the expression `n.get()` (Rust 1.88), safe code changes the length of an existing object without touching it;
    `refs()` and drop are then undefined. (All other theorems about structs take the expression to be a function of the bytes.)
16. `alloc_storage` and `grow_storage` of `CheckedIndexing` make a `&mut [u8]` over bytes that the allocator has just returned (seq.rs:238-239, 257-258) before writing zeros to them; the contract of
   `slice::from_raw_parts_mut` requires initialised values (C72). So every push that (re)allocates violates it.
17. `define_varlen` copies the field types into the printed module, and `refs()`/`muts()` take the types of the references behind the head from there (lib.rs:307-319, 911-916, 996-1001). A path can mean another type there: `super::E`, a type declared in the
    function body around the declaration that shadows one of the module, or a type of the user named `LayoutControllers` or `VarLenLayout`. For `#[varlen_array]` elements the compiler compares nothing, for `#[varlen]` fields only the layout types: safe code then gets references of the
    wrong type (C74). Printing `ref_array::<#elem_ty>` and `ref_field::<#ty>`, as is done for the other functions, would make these programs fail to compile.
18. `define_varlen_newtype!` prints `self.0.calculate_layout()` and `impl_initializer_as_newtype!` prints `self.0.initialize(dst, layout)` (newtype.rs:195, 311): a safe method of that name on the inner type takes precedence over the trait's, and the printed `unsafe impl` breaks the
    contract (C75). Naming the trait, as in the lines around them, would repair it.
19. Under Stacked Borrows (Miri's default) the accessors of every object with a non-empty tail are undefined, because they reach for the tail from a reference to the head (C76); so is dropping a box or a sequence whose tails have something to destroy, and iterating over a sequence of objects whose fields have heads. Making objects and growing sequences is fine. Under Tree Borrows they are fine (C63).
20. A destructor that the user writes for a newtype (`impl Drop for Outer`, accepted by the compiler because `define_varlen_newtype!` prints none) never runs: the containers only call `vdrop`, which forwards to the inner object (C77).

## 5. Tests of the theorems

`seeded/LOG.jsonl`: one line per deliberate bug in a scratch copy of the model, with the theorems that failed and those tightened because of it.

Props/DocExamples.lean and Props/MacroExamples.lean test the model itself: the programs of the crate's documentation and of varlen_example, with the results and compiler errors they assert, are run through the model by the kernel. They are examples, not proofs, and count for no property.
