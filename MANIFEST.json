{
 "claims": [
  {
   "property": "C01",
   "status": "proved",
   "theorems": [
    "Varlen.C01_layouts_agree",
    "Varlen.C01_layout_stable"
   ],
   "note": ""
  },
  {
   "property": "C02",
   "status": "proved",
   "theorems": [
    "Varlen.C02_array_overflow_exact",
    "Varlen.C02_fields_overflow_exact",
    "Varlen.C02_tuple_overflow_exact"
   ],
   "note": ""
  },
  {
   "property": "C03",
   "status": "proved",
   "theorems": [
    "Varlen.C03_struct_packed",
    "Varlen.C03_tuple_packed",
    "Varlen.C03_array_packed"
   ],
   "note": ""
  },
  {
   "property": "C04",
   "status": "proved",
   "theorems": [
    "Varlen.C04_struct_fields_disjoint",
    "Varlen.C04_tuple_fields_disjoint"
   ],
   "note": ""
  },
  {
   "property": "C05",
   "status": "proved",
   "theorems": [
    "Varlen.C05_align_pow2",
    "Varlen.C05_struct_align_max",
    "Varlen.C05_tuple_align_max",
    "Varlen.C05_array_align_max"
   ],
   "note": ""
  },
  {
   "property": "C06",
   "status": "proved",
   "theorems": [
    "Varlen.C06_tryCopy",
    "Varlen.C06_tryCloneFromSlice",
    "Varlen.C06_copy_never_rejects"
   ],
   "note": ""
  },
  {
   "property": "C07",
   "status": "proved",
   "theorems": [
    "Varlen.C07_fillSequentially",
    "Varlen.C07_fillWithDefault",
    "Varlen.C07_fromIterPrefix",
    "Varlen.C07_copyFrom",
    "Varlen.C07_cloneFrom",
    "Varlen.C07_moveFrom"
   ],
   "note": ""
  },
  {
   "property": "C08",
   "status": "proved",
   "theorems": [
    "Varlen.C08_mut_slice",
    "Varlen.C08_index"
   ],
   "note": ""
  },
  {
   "property": "C09",
   "status": "proved",
   "theorems": [
    "Varlen.C09_tryCopy",
    "Varlen.C09_copy_never_rejects",
    "Varlen.C09_always_utf8",
    "Varlen.C09_clone",
    "Varlen.C09_mut_slice"
   ],
   "note": ""
  },
  {
   "property": "C10",
   "status": "proved",
   "theorems": [
    "Varlen.C10_overflow_panics",
    "Varlen.C10_vbox_new"
   ],
   "note": ""
  },
  {
   "property": "C11",
   "status": "proved",
   "theorems": [
    "Varlen.C11_vbox_drop",
    "Varlen.C11_new_drop"
   ],
   "note": ""
  },
  {
   "property": "C12",
   "status": "proved",
   "theorems": [
    "Varlen.C12_vbox_moves"
   ],
   "note": ""
  },
  {
   "property": "C13",
   "status": "proved",
   "theorems": [
    "Varlen.C13_clone",
    "Varlen.C13_clone_eq",
    "Varlen.C13_independent",
    "Varlen.C13_vbox_clone"
   ],
   "note": ""
  },
  {
   "property": "C14",
   "status": "proved",
   "theorems": [
    "Varlen.C14_vcopy"
   ],
   "note": ""
  },
  {
   "property": "C15",
   "status": "proved",
   "theorems": [
    "Varlen.C15_owned_drop"
   ],
   "note": ""
  },
  {
   "property": "C16",
   "status": "partial",
   "theorems": [
    "Varlen.C16_leak_drops",
    "Varlen.C16_leak_is_drop",
    "Varlen.C16_leak_partial"
   ],
   "note": "Refuted for types that need drop: C16_leak_drops is a concrete leak that runs the destructor, C16_leak_is_drop says leak does what drop does. C16_leak_partial proves the property when NEEDS_VDROP is false."
  },
  {
   "property": "C17",
   "status": "partial",
   "theorems": [
    "Varlen.C17_owned_init_broken",
    "Varlen.C17_owned_init_out_of_bounds",
    "Varlen.C17_box_of_owned_undefined",
    "Varlen.C17_empty_head_copies_nothing",
    "Varlen.C17_owned_moves_partial"
   ],
   "note": "Refuted: Initializer for Owned copies size*size_of::<T>() bytes (C17_owned_init_broken are concrete cases; C17_box_of_owned_undefined, C17_owned_init_out_of_bounds and C17_empty_head_copies_nothing say that it fails for all types with other heads). C17_owned_moves_partial proves it when the head is one byte."
  },
  {
   "property": "C18",
   "status": "proved",
   "theorems": [
    "Varlen.C18_raw_round_trip",
    "Varlen.C18_raw_then_drop"
   ],
   "note": ""
  },
  {
   "property": "C19",
   "status": "proved",
   "theorems": [
    "Varlen.C19_seq_is_list"
   ],
   "note": ""
  },
  {
   "property": "C20",
   "status": "proved",
   "theorems": [
    "Varlen.C20_offset_names_element",
    "Varlen.C20_push_keeps_names"
   ],
   "note": ""
  },
  {
   "property": "C21",
   "status": "proved",
   "theorems": [
    "Varlen.C21_offset_accounting"
   ],
   "note": ""
  },
  {
   "property": "C22",
   "status": "proved",
   "theorems": [
    "Varlen.C22_elements_are_valid"
   ],
   "note": ""
  },
  {
   "property": "C23",
   "status": "partial",
   "theorems": [
    "Varlen.C23_stale_offset_accepted",
    "Varlen.C23_only_elements_are_valid_partial",
    "Varlen.C23_valid_iff_ever_pushed",
    "Varlen.C23_elements_always_valid"
   ],
   "note": "Refuted after take_elems: C23_stale_offset_accepted is a concrete history in which a stale offset is accepted. C23_only_elements_are_valid_partial proves it for histories without take_elems; C23_valid_iff_ever_pushed says for all histories exactly which offsets are accepted."
  },
  {
   "property": "C24",
   "status": "partial",
   "theorems": [
    "Varlen.C24_from_offset_undefined",
    "Varlen.C24_from_offset_safe_partial",
    "Varlen.C24_from_offset_any_history"
   ],
   "note": "Refuted after take_elems: C24_from_offset_undefined is a concrete history of safe calls with undefined behaviour. C24_from_offset_safe_partial proves it for histories without take_elems; C24_from_offset_any_history for all histories at all offsets except those of removed elements."
  },
  {
   "property": "C25",
   "status": "proved",
   "theorems": [
    "Varlen.C25_growth_policy",
    "Varlen.C25_amortised"
   ],
   "note": ""
  },
  {
   "property": "C26",
   "status": "proved",
   "theorems": [
    "Varlen.C26_failed_push",
    "Varlen.C26_fitting_push_succeeds"
   ],
   "note": ""
  },
  {
   "property": "C27",
   "status": "proved",
   "theorems": [
    "Varlen.C27_panicking_initializer"
   ],
   "note": ""
  },
  {
   "property": "C28",
   "status": "proved",
   "theorems": [
    "Varlen.C28_drain"
   ],
   "note": ""
  },
  {
   "property": "C29",
   "status": "proved",
   "theorems": [
    "Varlen.C29_drop"
   ],
   "note": ""
  },
  {
   "property": "C30",
   "status": "proved",
   "theorems": [
    "Varlen.C30_iter_mut"
   ],
   "note": ""
  },
  {
   "property": "C31",
   "status": "proved",
   "theorems": [
    "Varlen.C31_owned_count",
    "Varlen.C31_iterator_counts"
   ],
   "note": ""
  },
  {
   "property": "C32",
   "status": "proved",
   "theorems": [
    "Varlen.C32_offset_of"
   ],
   "note": ""
  },
  {
   "property": "C33",
   "status": "partial",
   "theorems": [
    "Varlen.C33_no_undefined_behaviour_partial",
    "Varlen.C33_by_type"
   ],
   "note": "Partial: from_offset at the offset of an element removed by take_elems is excluded (C24), and elements of size zero (C47), which are those of the types without a size (C33_by_type)."
  },
  {
   "property": "C34",
   "status": "proved",
   "theorems": [
    "Varlen.C34_storage"
   ],
   "note": ""
  },
  {
   "property": "C35",
   "status": "proved",
   "theorems": [
    "Varlen.C35_struct_refs",
    "Varlen.C35_tuple_refs"
   ],
   "note": ""
  },
  {
   "property": "C36",
   "status": "proved",
   "theorems": [
    "Varlen.C36_struct_muts",
    "Varlen.C36_tuple_muts",
    "Varlen.C36_write_header_field"
   ],
   "note": ""
  },
  {
   "property": "C37",
   "status": "proved",
   "theorems": [
    "Varlen.C37_vdrop",
    "Varlen.C37_needs_vdrop_false",
    "Varlen.C37_vbox_drop"
   ],
   "note": ""
  },
  {
   "property": "C38",
   "status": "proved",
   "theorems": [
    "Varlen.C38_try_set"
   ],
   "note": ""
  },
  {
   "property": "C39",
   "status": "proved",
   "theorems": [
    "Varlen.C39_newtype_transparent"
   ],
   "note": ""
  },
  {
   "property": "C40",
   "status": "proved",
   "theorems": [
    "Varlen.Macro.C40_accepts",
    "Varlen.Macro.C40_error",
    "Varlen.Macro.C40_fields",
    "Varlen.Macro.C40_init_params"
   ],
   "note": ""
  },
  {
   "property": "C41",
   "status": "proved",
   "theorems": [
    "Varlen.C41_init_in_bounds"
   ],
   "note": ""
  },
  {
   "property": "C42",
   "status": "partial",
   "theorems": [
    "Varlen.C42_vbox_new_undefined",
    "Varlen.C42_vbox_new_defined_partial",
    "Varlen.C42_undefined_iff",
    "Varlen.C42_by_type"
   ],
   "note": "Refuted for a failing allocator and for size zero (C42_vbox_new_undefined). C42_vbox_new_defined_partial proves it when the size is non-zero and the allocation succeeds; C42_undefined_iff that these two are exactly the undefined cases; C42_by_type that the size is a matter of the type."
  },
  {
   "property": "C43",
   "status": "proved",
   "theorems": [
    "Varlen.C43_len_round_trip"
   ],
   "note": ""
  },
  {
   "property": "C44",
   "status": "proved",
   "theorems": [
    "Varlen.C44_growth_keeps_index"
   ],
   "note": ""
  },
  {
   "property": "C45",
   "status": "partial",
   "theorems": [
    "Varlen.C45_wide_length_truncated",
    "Varlen.C45_len_value_partial",
    "Varlen.C45_array_len_partial"
   ],
   "note": "Refuted for u64 lengths on narrower pointers (C45_wide_length_truncated). C45_len_value_partial and C45_array_len_partial prove it for lengths representable in usize."
  },
  {
   "property": "C46",
   "status": "proved",
   "theorems": [
    "Varlen.C46_owned_new_in"
   ],
   "note": ""
  },
  {
   "property": "C47",
   "status": "partial",
   "theorems": [
    "Varlen.C47_zero_size_checked_push_undefined",
    "Varlen.C47_zero_size_never_dropped",
    "Varlen.C47_zero_size_offset_of",
    "Varlen.C47_zero_size_unchecked_partial",
    "Varlen.C47_zero_size_misaligned",
    "Varlen.C47_every_zero_size_checked_push_undefined",
    "Varlen.C47_every_zero_size_never_dropped",
    "Varlen.C47_has_size",
    "Varlen.C47_no_size",
    "Varlen.C47_size_by_type",
    "Varlen.C47_size_of_initializer",
    "Varlen.C47_no_size_push"
   ],
   "note": "Refuted by four concrete sequences, and for every type by C47_every_zero_size_checked_push_undefined and C47_every_zero_size_never_dropped; the types concerned can be read off the declaration (C47_size_by_type, C47_has_size, C47_no_size); C47_zero_size_unchecked_partial is what holds (unchecked indexing, no destructors)."
  },
  {
   "property": "C48",
   "status": "proved",
   "theorems": [
    "Varlen.C48_extend",
    "Varlen.C48_from_iter"
   ],
   "note": ""
  },
  {
   "property": "C49",
   "status": "proved",
   "theorems": [
    "Varlen.Macro.C49_expansion",
    "Varlen.Macro.C49_contract",
    "Varlen.Macro.C49_init_contract"
   ],
   "note": ""
  },
  {
   "property": "C50",
   "status": "proved",
   "theorems": [
    "Varlen.Macro.C50_names",
    "Varlen.Macro.C50_clash"
   ],
   "note": ""
  },
  {
   "property": "C51",
   "status": "proved",
   "theorems": [
    "Varlen.C51_unused",
    "Varlen.C51_box",
    "Varlen.C51_box_panics",
    "Varlen.C51_owned",
    "Varlen.C51_push",
    "Varlen.C51_collect"
   ],
   "note": ""
  },
  {
   "property": "C52",
   "status": "proved",
   "theorems": [
    "Varlen.C52_boxes_freed",
    "Varlen.C52_push",
    "Varlen.C52_extend"
   ],
   "note": ""
  },
  {
   "property": "C53",
   "status": "partial",
   "theorems": [
    "Varlen.C53_vbox_new_leaks",
    "Varlen.C53_always_leaks",
    "Varlen.C53_refused_allocates_nothing_partial"
   ],
   "note": "Refuted: C53_vbox_new_leaks is a concrete panic in initialize that leaves the allocation live, C53_always_leaks says every panic in initialize does. C53_refused_allocates_nothing_partial proves it for panics caused by the layout."
  },
  {
   "property": "C54",
   "status": "proved",
   "theorems": [
    "Varlen.C54_push",
    "Varlen.C54_extend",
    "Varlen.C54_drop",
    "Varlen.C54_from_iter",
    "Varlen.C54_iterate",
    "Varlen.C54_index",
    "Varlen.C54_from_offset_unchecked",
    "Varlen.C54_offset_of",
    "Varlen.C54_vbox_new",
    "Varlen.C54_align_minus_one"
   ],
   "note": "Elements of non-zero size (PushArg); a counter of 2^w zero-sized elements would overflow."
  },
  {
   "property": "C55",
   "status": "proved",
   "theorems": [
    "Varlen.C55_fillSequentially",
    "Varlen.C55_fillWithDefault",
    "Varlen.C55_fromIterPrefix",
    "Varlen.C55_copyFrom",
    "Varlen.C55_cloneFrom",
    "Varlen.C55_moveFrom",
    "Varlen.C55_each_once"
   ],
   "note": ""
  },
  {
   "property": "C56",
   "status": "proved",
   "theorems": [
    "Varlen.C56_defined",
    "Varlen.C56_next",
    "Varlen.C56_intact",
    "Varlen.C56_apart",
    "Varlen.C56_at_most_once",
    "Varlen.C56_exactly_once",
    "Varlen.C56_all_destroyed",
    "Varlen.C56_no_leak"
   ],
   "note": "Steps excluded because they are refuted elsewhere: from_offset after take_elems (C24), zero-sized elements in Seq (C47), Owned as initializer for heads other than one byte (C17)."
  },
  {
   "property": "C57",
   "status": "partial",
   "theorems": [
    "Varlen.C57_head_rewrite_partial",
    "Varlen.C57_layout_lost",
    "Varlen.C57_controller_write_unsound"
   ],
   "note": "Refuted: C57_controller_write_unsound stores into a #[controls_layout] field through the reference refs() gives (possible in safe code with a Cell type, or with impl Unpin for the struct) and refs()/drop become undefined. C57_head_rewrite_partial proves it for changes under which all array lengths stay the same, C57_layout_lost that it fails for all others."
  },
  {
   "property": "C58",
   "status": "proved",
   "theorems": [
    "Varlen.C58_base_model",
    "Varlen.C58_plan",
    "Varlen.C58_vdrop",
    "Varlen.C58_at_most_once",
    "Varlen.C58_array_complete",
    "Varlen.C58_box_drop",
    "Varlen.C58_seq_drop",
    "Varlen.C58_drain_loop",
    "Varlen.C58_drain_loop_others"
   ],
   "note": ""
  },
  {
   "property": "C59",
   "status": "partial",
   "theorems": [
    "Varlen.C59_try_set_partial",
    "Varlen.C59_single_controller",
    "Varlen.C59_rejected",
    "Varlen.C59_length_panics",
    "Varlen.C59_try_set_unsound"
   ],
   "note": "Refuted: C59_try_set_unsound is a struct with two controllers where the destructor of the first old value panics and the mixture of new and old controllers gives another array length; refs() and drop are then undefined. C59_try_set_partial proves validity whenever the mixture has the same array lengths, and gives the exact state after a panic in every case; C59_single_controller and C59_rejected the two cases where nothing can go wrong."
  },
  {
   "property": "C60",
   "status": "proved",
   "theorems": [
    "Varlen.C60_struct_panics_exact",
    "Varlen.C60_construction_panics",
    "Varlen.C60_existing_defined",
    "Varlen.C60_try_set",
    "Varlen.C60_struct_box"
   ],
   "note": ""
  },
  {
   "property": "C61",
   "status": "proved",
   "theorems": [
    "Varlen.C61_extend",
    "Varlen.C61_cutoff",
    "Varlen.C61_list",
    "Varlen.C61_collect",
    "Varlen.C61_clone_all",
    "Varlen.C61_copy_all",
    "Varlen.C61_accounts"
   ],
   "note": ""
  },
  {
   "property": "C62",
   "status": "proved",
   "theorems": [
    "Varlen.Macro.C62_params",
    "Varlen.Macro.C62_scoped",
    "Varlen.Macro.C62_own_types",
    "Varlen.Macro.C62_head",
    "Varlen.Macro.C62_contract",
    "Varlen.Macro.C62_head_matters"
   ],
   "note": ""
  },
  {
   "property": "C63",
   "status": "proved",
   "theorems": [
    "Varlen.TB.C63_no_ub",
    "Varlen.TB.C63_drop_no_ub",
    "Varlen.TB.C63_refs",
    "Varlen.TB.C63_muts",
    "Varlen.TB.C63_deref",
    "Varlen.TB.C63_mut_slice",
    "Varlen.TB.C63_inner",
    "Varlen.TB.C63_inner_mut",
    "Varlen.TB.C63_iter",
    "Varlen.TB.C63_iter_mut"
   ],
   "note": "Under Tree Borrows; stores through shared references are limited to what no reference in use forbids, see C70; two-phase borrows and user-written impls of the unsafe traits are outside the model. C63_no_ub is the safety statement over all programs, the others say which references are returned."
  },
  {
   "property": "C64",
   "status": "partial",
   "theorems": [
    "Varlen.C64_growing_push_moves",
    "Varlen.C64_vbox_init_moves",
    "Varlen.C64_forgotten_overwritten",
    "Varlen.C64_pinned_object_moved",
    "Varlen.C64_fitting_push_partial",
    "Varlen.C64_seq_drop_partial",
    "Varlen.C64_vbox_drop_partial",
    "Varlen.C64_owned_drop_partial",
    "Varlen.C64_drain_partial"
   ],
   "note": "Refuted: C64_growing_push_moves and C64_vbox_init_moves for every type and object with a destructor, C64_forgotten_overwritten for every history, C64_pinned_object_moved is a concrete history of safe calls. The _partial theorems prove it for pushes that fit, for drops and for drains without leaks."
  },
  {
   "property": "C65",
   "status": "partial",
   "theorems": [
    "Varlen.C65_unpin_no_tail_partial",
    "Varlen.C65_swap_partial",
    "Varlen.C65_impl_unpin_unsound",
    "Varlen.C65_tail_is_pinned_partial"
   ],
   "note": "Refuted if the program has an impl Unpin: C65_impl_unpin_unsound. The _partial theorems prove it for programs without one, for all library types."
  },
  {
   "property": "C66",
   "status": "proved",
   "theorems": [
    "Varlen.C66_vbox_new",
    "Varlen.C66_owned_new_in",
    "Varlen.C66_clone",
    "Varlen.C66_drop",
    "Varlen.C66_seq_drop",
    "Varlen.C66_push",
    "Varlen.C66_growths"
   ],
   "note": ""
  },
  {
   "property": "C67",
   "status": "proved",
   "theorems": [
    "Varlen.C67_auto_iff",
    "Varlen.C67_handles",
    "Varlen.C67_contents",
    "Varlen.C67_shared_is_read_only",
    "Varlen.C67_schedules"
   ],
   "note": ""
  },
  {
   "property": "C68",
   "status": "proved",
   "theorems": [
    "Varlen.C68_layout_depends_on_lengths",
    "Varlen.C68_same_lengths_same_layout",
    "Varlen.C68_lengths_in_object",
    "Varlen.C68_no_lengths",
    "Varlen.C68_compare"
   ],
   "note": ""
  },
  {
   "property": "C69",
   "status": "proved",
   "theorems": [
    "Varlen.C69_chains",
    "Varlen.C69_reach",
    "Varlen.C69_out_of_bounds",
    "Varlen.C69_load",
    "Varlen.C69_write",
    "Varlen.C69_put_same",
    "Varlen.C69_put_other",
    "Varlen.C69_disjoint",
    "Varlen.C69_assign",
    "Varlen.C69_edit_part",
    "Varlen.C69_program"
   ],
   "note": ""
  },
  {
   "property": "C70",
   "status": "partial",
   "theorems": [
    "Varlen.TB.C70_store_undefined",
    "Varlen.TB.C70_store",
    "Varlen.TB.C70_array_store_undefined",
    "Varlen.TB.C70_tail_store_undefined",
    "Varlen.TB.C70_refs_store_partial",
    "Varlen.TB.C70_refs_store_undefined",
    "Varlen.TB.C70_deref_store",
    "Varlen.TB.C70_deref_store_undefined"
   ],
   "note": "Refuted for arrays and for the part behind a head without interior mutability: C70_array_store_undefined, C70_tail_store_undefined (with examples Array<Cell<_>> and a struct in Props/BorrowCellsDemo.lean). C70_refs_store_partial and C70_deref_store prove it for cells in the head and behind heads with interior mutability; C70_refs_store_undefined and C70_deref_store_undefined that nothing else can be changed; C70_store: such a store is defined and keeps every reference."
  },
  {
   "property": "C71",
   "status": "partial",
   "theorems": [
    "Varlen.C71_valid_iff_partial",
    "Varlen.C71_layout_partial",
    "Varlen.C71_length_changed_undefined"
   ],
   "note": "Refuted: C71_length_changed_undefined. C71_valid_iff_partial and C71_layout_partial: it holds exactly for objects whose length expressions give the same lengths as when it was made."
  },
  {
   "property": "C72",
   "status": "partial",
   "theorems": [
    "Varlen.C72_allocations",
    "Varlen.C72_references",
    "Varlen.C72_init_fields",
    "Varlen.C72_init_tuple",
    "Varlen.C72_seq_pointers",
    "Varlen.C72_push_unchecked",
    "Varlen.C72_push_partial",
    "Varlen.C72_push_refuted",
    "Varlen.C72_take_elems"
   ],
   "note": "Refuted for CheckedIndexing: C72_push_refuted says every push that (re)allocates makes a byte slice over uninitialised memory. C72_push_partial: the other pushes meet the contract; the remaining theorems cover all other slices and pointers."
  },
  {
   "property": "C73",
   "status": "proved",
   "theorems": [
    "Varlen.C73_which",
    "Varlen.C73_complete",
    "Varlen.C73_no_tail",
    "Varlen.C73_scope_end",
    "Varlen.C73_markers_needed"
   ],
   "note": ""
  },
  {
   "property": "C74",
   "status": "partial",
   "theorems": [
    "Varlen.Macro.C74_refs_partial",
    "Varlen.Macro.C74_safe_paths",
    "Varlen.Macro.C74_unsafe_paths",
    "Varlen.Macro.C74_wrong_type",
    "Varlen.Macro.C74_wrong_field_type"
   ],
   "note": "Refuted: C74_wrong_type (three concrete declarations that the compiler accepts, in which refs() is undefined) and C74_wrong_field_type. C74_refs_partial proves it when the types of the fields behind the head mean the same in the printed module as beside the declaration; C74_safe_paths says when they do, C74_unsafe_paths which paths can fail."
  },
  {
   "property": "C75",
   "status": "partial",
   "theorems": [
    "Varlen.C75_newtype_partial",
    "Varlen.C75_init_partial",
    "Varlen.C75_own_layout",
    "Varlen.C75_own_initialize"
   ],
   "note": "Refuted: C75_own_layout, C75_own_initialize (safe methods of the inner type are called in place of the trait's). C75_newtype_partial says exactly when the printed VarLen impl is lawful, C75_init_partial is the sufficient condition for initializers."
  },
  {
   "property": "C76",
   "status": "partial",
   "theorems": [
    "Varlen.SB.C76_refs_partial",
    "Varlen.SB.C76_muts_partial",
    "Varlen.SB.C76_tuple_partial",
    "Varlen.SB.C76_layout_partial",
    "Varlen.SB.C76_array_deref_partial",
    "Varlen.SB.C76_mut_slice_partial",
    "Varlen.SB.C76_vdrop_partial",
    "Varlen.SB.C76_box_drop_partial",
    "Varlen.SB.C76_box_of_array_partial",
    "Varlen.SB.C76_iter_partial",
    "Varlen.SB.C76_iter_mut_partial",
    "Varlen.SB.C76_from_offset_partial",
    "Varlen.SB.C76_seq_drop_partial",
    "Varlen.SB.C76_own_bytes_partial",
    "Varlen.SB.C76_others_partial",
    "Varlen.SB.C76_construct_partial",
    "Varlen.SB.C76_push_partial",
    "Varlen.SB.C76_storage_partial"
   ],
   "note": "Refuted: the theorems say exactly when each accessor, vdrop and the drop of a box is undefined under Stacked Borrows, which is for every object with something in its tail to refer to (non-empty arrays, fields with a non-empty head; for vdrop, something to destroy); the positive half is for the rest. Iterating over a sequence is fine exactly if it is empty or no field has a head (and all returned references stay good), dropping it exactly if there is nothing to destroy in tails; construction, push, growth and offsets are always fine; nothing done with one object affects references to other objects. Protectors and UnsafeCell are left out of the model."
  },
  {
   "property": "C77",
   "status": "partial",
   "theorems": [
    "Varlen.C77_newtype_partial",
    "Varlen.C77_box_ignores",
    "Varlen.C77_owned_ignores",
    "Varlen.C77_seq_ignores",
    "Varlen.C77_drop_not_run"
   ],
   "note": "Refuted: C77_box_ignores, C77_owned_ignores and C77_seq_ignores say for every inner type, destructor and object that the user's destructor does not run; C77_drop_not_run is a concrete program. C77_newtype_partial: the property holds exactly for destructors without effects."
  },
  {
   "property": "C78",
   "status": "proved",
   "theorems": [
    "Varlen.Eff.C78_box",
    "Varlen.Eff.C78_arena",
    "Varlen.Eff.C78_push",
    "Varlen.Eff.C78_fill_sequentially",
    "Varlen.Eff.C78_fill_with_default",
    "Varlen.Eff.C78_from_iter_prefix",
    "Varlen.Eff.C78_clone_from",
    "Varlen.Eff.C78_clone_fixed",
    "Varlen.Eff.C78_pure",
    "Varlen.Eff.C78_pure_array",
    "Varlen.Eff.C78_sized_init",
    "Varlen.Eff.C78_newtype",
    "Varlen.Eff.C78_struct",
    "Varlen.Eff.C78_tuple",
    "Varlen.Eff.C78_filled_array",
    "Varlen.Eff.C78_nested",
    "Varlen.Eff.C78_fill_special",
    "Varlen.Eff.C78_iter_special",
    "Varlen.Eff.C78_clone_special"
   ],
   "note": "User code is an arbitrary program that keeps the contract of its world. Destructors of values (in vdrop) are in C79."
  },
  {
   "property": "C79",
   "status": "proved",
   "theorems": [
    "Varlen.UD.C79_vdrop",
    "Varlen.UD.C79_owned_drop",
    "Varlen.UD.C79_box_drop",
    "Varlen.UD.C79_seq_drop",
    "Varlen.UD.C79_drain_loop",
    "Varlen.UD.C79_accounting",
    "Varlen.UD.C79_drain_accounting",
    "Varlen.UD.C79_special",
    "Varlen.UD.C79_special_rules",
    "Varlen.UD.C79_nested",
    "Varlen.UD.C79_nested_freed"
   ],
   "note": "Destructors are arbitrary programs that keep the contract. C79_nested and C79_nested_freed are about destructors of inner values that do not panic; the other theorems allow any panics and aborts (with panics: C84)."
  },
  {
   "property": "C80",
   "status": "proved",
   "theorems": [
    "Varlen.C80_base_model",
    "Varlen.C80_defined",
    "Varlen.C80_abort",
    "Varlen.C80_intact",
    "Varlen.C80_apart",
    "Varlen.C80_at_most_once",
    "Varlen.C80_exactly_once",
    "Varlen.C80_no_leak"
   ],
   "note": "Destructors that run when an object of the library is dropped; those of values in initializers do not panic here."
  },
  {
   "property": "C81",
   "status": "proved",
   "theorems": [
    "Varlen.C81_same_code",
    "Varlen.C81_type",
    "Varlen.C81_init",
    "Varlen.C81_arg",
    "Varlen.C81_clone",
    "Varlen.C81_always",
    "Varlen.C81_reference",
    "Varlen.C81_counted_from_str",
    "Varlen.C81_counted_in_sync"
   ],
   "note": "The module's own code builds and edits only values that satisfy the invariant; that others cannot is Rust's privacy, which is trusted."
  },
  {
   "property": "C82",
   "status": "proved",
   "theorems": [
    "Varlen.UD.C82_try_set",
    "Varlen.UD.C82_rejected",
    "Varlen.UD.C82_length_panics",
    "Varlen.UD.C82_accounting",
    "Varlen.UD.C82_calm",
    "Varlen.UD.C82_single",
    "Varlen.UD.C82_special"
   ],
   "note": ""
  },
  {
   "property": "C83",
   "status": "proved",
   "theorems": [
    "Varlen.C83_covariant",
    "Varlen.C83_invariant",
    "Varlen.C83_muts",
    "Varlen.C83_read",
    "Varlen.C83_write"
   ],
   "note": ""
  },
  {
   "property": "C84",
   "status": "proved",
   "theorems": [
    "Varlen.UD.C84_contract",
    "Varlen.UD.C84_drop",
    "Varlen.UD.C84_freed"
   ],
   "note": "How the bytes of a container value are decoded (the layout of Option<VBox<T>> and Seq<T>, fixed by the compiler) is an arbitrary function. C84_drop is about destructors that may panic, for values that may be leaked; C84_freed about those that do not."
  },
  {
   "property": "C85",
   "status": "proved",
   "theorems": [
    "Varlen.Arena.C85_start",
    "Varlen.Arena.C85_new_in",
    "Varlen.Arena.C85_new_box",
    "Varlen.Arena.C85_discard",
    "Varlen.Arena.C85_drop_owned",
    "Varlen.Arena.C85_drop_box",
    "Varlen.Arena.C85_forget",
    "Varlen.Arena.C85_edit_owned",
    "Varlen.Arena.C85_edit_box",
    "Varlen.Arena.C85_other",
    "Varlen.Arena.C85_new_chunk",
    "Varlen.Arena.C85_reset",
    "Varlen.Arena.C85_own_memory",
    "Varlen.Arena.C85_intact",
    "Varlen.Arena.C85_disjoint",
    "Varlen.Arena.C85_once",
    "Varlen.Arena.C85_look",
    "Varlen.Arena.C85_vclone",
    "Varlen.Arena.C85_vcopy",
    "Varlen.Arena.C85_box_as_init",
    "Varlen.Arena.C85_owned_as_init",
    "Varlen.Arena.C85_new_seq",
    "Varlen.Arena.C85_push",
    "Varlen.Arena.C85_try_push",
    "Varlen.Arena.C85_drop_seq",
    "Varlen.Arena.C85_take_elems",
    "Varlen.Arena.C85_next_item",
    "Varlen.Arena.C85_drop_item",
    "Varlen.Arena.C85_drop_iter",
    "Varlen.Arena.C85_forget_item",
    "Varlen.Arena.C85_forget_iter",
    "Varlen.Arena.C85_end_drain",
    "Varlen.Arena.C85_edit_elem",
    "Varlen.Arena.C85_edit_item",
    "Varlen.Arena.C85_intact_all",
    "Varlen.Arena.C85_offset_of"
   ],
   "note": "Sequences (whose storage is from the global allocator) are included: C85_push, C85_take_elems, C85_next_item, ..., with elements made from objects in arenas. Types and initializers are the library's, or user-written ones that do the same at every address (Reloc, InitSim). After mem::forget of an object, C85_reset does not apply to its chunk (the rest does). The accounts of destroyed values are C85_once."
  }
 ]
}