{
 "claims": [
  {
   "property": "C01",
   "status": "proved",
   "theorems": [
    "Gost.C01_checkedAdd_signed",
    "Gost.C01_checkedAdd_unsigned"
   ],
   "note": "all ten types; generic in the width"
  },
  {
   "property": "C02",
   "status": "proved",
   "theorems": [
    "Gost.C02_checkedSub_unsigned"
   ],
   "note": ""
  },
  {
   "property": "C03",
   "status": "partial",
   "theorems": [
    "Gost.C03_checkedSub_signed_partial",
    "Gost.C03_checkedSub_signed_sound_partial",
    "Gost.C03_checkedSub_signed_fails",
    "Gost.C03_checkedSub_isize_partial",
    "Gost.C03_checkedSub_isize_sound_partial",
    "Gost.C03_checkedSub_isize_fails"
   ],
   "note": "code violates the property; exact domain (iff), soundness of Some, and a counterexample in every width"
  },
  {
   "property": "C04",
   "status": "proved",
   "theorems": [
    "Gost.C04_checkedMul_unsigned"
   ],
   "note": ""
  },
  {
   "property": "C05",
   "status": "partial",
   "theorems": [
    "Gost.C05_checkedMul_usize_partial",
    "Gost.C05_checkedMul_usize_fails"
   ],
   "note": "code violates the property (32-bit bound); exact domain proved"
  },
  {
   "property": "C06",
   "status": "partial",
   "theorems": [
    "Gost.C06_checkedMul_signed_partial",
    "Gost.C06_checkedMul_signed_sound_partial",
    "Gost.C06_checkedMul_signed_fails"
   ],
   "note": "code violates the property (mixed signs); exact domain and soundness of Some proved"
  },
  {
   "property": "C07",
   "status": "proved",
   "theorems": [
    "Gost.C07_checkedDiv_signed",
    "Gost.C07_checkedDiv_unsigned"
   ],
   "note": ""
  },
  {
   "property": "C08",
   "status": "proved",
   "theorems": [
    "Gost.C08_checkedRem_unsigned"
   ],
   "note": ""
  },
  {
   "property": "C09",
   "status": "partial",
   "theorems": [
    "Gost.C09_checkedRem_signed_partial",
    "Gost.C09_checkedRem_signed_fails"
   ],
   "note": "code violates the property; exact domain proved"
  },
  {
   "property": "C10",
   "status": "proved",
   "theorems": [
    "Gost.C10_wrappingAdd_signed",
    "Gost.C10_wrappingAdd_unsigned",
    "Gost.C10_wrappingSub"
   ],
   "note": ""
  },
  {
   "property": "C11",
   "status": "proved",
   "theorems": [
    "Gost.C11_wrappingMul"
   ],
   "note": ""
  },
  {
   "property": "C12",
   "status": "partial",
   "theorems": [
    "Gost.C12_isizeWrappingMul_partial",
    "Gost.C12_isizeWrappingMul_fails"
   ],
   "note": "code violates the property; exact domain proved"
  },
  {
   "property": "C13",
   "status": "proved",
   "theorems": [
    "Gost.C13_saturatingAdd_signed",
    "Gost.C13_saturatingAdd_unsigned"
   ],
   "note": ""
  },
  {
   "property": "C14",
   "status": "proved",
   "theorems": [
    "Gost.C14_saturatingSub_signed",
    "Gost.C14_saturatingSub_unsigned"
   ],
   "note": ""
  },
  {
   "property": "C15",
   "status": "partial",
   "theorems": [
    "Gost.C15_saturatingSub_isize_partial",
    "Gost.C15_saturatingSub_isize_fails"
   ],
   "note": "code violates the property (32-bit bounds); exact domain proved"
  },
  {
   "property": "C16",
   "status": "proved",
   "theorems": [
    "Gost.C16_saturatingMul_unsigned"
   ],
   "note": ""
  },
  {
   "property": "C17",
   "status": "partial",
   "theorems": [
    "Gost.C17_saturatingMul_signed_partial",
    "Gost.C17_saturatingMul_usize_partial",
    "Gost.C17_saturatingMul_fails"
   ],
   "note": "code violates the property; exact domain proved for signed types and USize"
  },
  {
   "property": "C18",
   "status": "proved",
   "theorems": [
    "Gost.C18_saturatingDiv_signed",
    "Gost.C18_saturatingDiv_unsigned"
   ],
   "note": ""
  },
  {
   "property": "C19",
   "status": "proved",
   "theorems": [
    "Gost.C19_absDiff_signed",
    "Gost.C19_absDiff_unsigned"
   ],
   "note": ""
  },
  {
   "property": "C20",
   "status": "partial",
   "theorems": [
    "Gost.C20_i128_abs_partial",
    "Gost.C20_i128_abs_fails",
    "Gost.C20_abs_neg_sign"
   ],
   "note": "Abs of I128 is wrong exactly for negative numbers whose low half is 0 or 2^64-1 (exact domain, iff); the other types in full"
  },
  {
   "property": "C21",
   "status": "proved",
   "theorems": [
    "Gost.C21_pow_unsigned",
    "Gost.C21_pow_signed"
   ],
   "note": ""
  },
  {
   "property": "C22",
   "status": "partial",
   "theorems": [
    "Gost.C22_shift_partial",
    "Gost.C22_shift_fails"
   ],
   "note": "code shifts by the left operand; right operand proved irrelevant"
  },
  {
   "property": "C23",
   "status": "proved",
   "theorems": [
    "Gost.C23_cmp_signed",
    "Gost.C23_cmp_unsigned",
    "Gost.C23_cmp_i128",
    "Gost.C23_cmp_u128",
    "Gost.C23_cmp_byte_char",
    "Gost.C23_cmp_bool",
    "Gost.C23_cmp_string",
    "Gost.C23_cmp_lawful"
   ],
   "note": ""
  },
  {
   "property": "C24",
   "status": "partial",
   "theorems": [
    "Gost.C24_float_cmp_partial",
    "Gost.C24_float_cmp_fails",
    "Gost.C24_float_order",
    "Gost.C24_float_formats"
   ],
   "note": "code violates the property on NaN; lawful exactly on the non-NaN floats; for all pairs, NaN included, Cmp and Eq are the order and equality of the numbers that IEEE 754 assigns to the bit patterns, which are exactly the numbers of the two formats"
  },
  {
   "property": "C25",
   "status": "proved",
   "theorems": [
    "Gost.C25_u128_add_sub"
   ],
   "note": ""
  },
  {
   "property": "C26",
   "status": "proved",
   "theorems": [
    "Gost.C26_u128_mul"
   ],
   "note": ""
  },
  {
   "property": "C27",
   "status": "proved",
   "theorems": [
    "Gost.C27_u128_div_rem"
   ],
   "note": ""
  },
  {
   "property": "C28",
   "status": "proved",
   "theorems": [
    "Gost.C28_u128_toString"
   ],
   "note": ""
  },
  {
   "property": "C29",
   "status": "proved",
   "theorems": [
    "Gost.C29_i128_add"
   ],
   "note": ""
  },
  {
   "property": "C30",
   "status": "partial",
   "theorems": [
    "Gost.C30_i128_neg_sub_partial",
    "Gost.C30_i128_neg_sub_fails"
   ],
   "note": "code violates the property; exact domain (iff) proved for every operand"
  },
  {
   "property": "C31",
   "status": "partial",
   "theorems": [
    "Gost.C31_i128_mul_partial",
    "Gost.C31_i128_mul_fails",
    "Gost.C31_i128_mul_value_partial"
   ],
   "note": "code violates the property (inherits Neg); value returned for every pair of operands; exact domain among non-negative or mixed-low operands"
  },
  {
   "property": "C32",
   "status": "partial",
   "theorems": [
    "Gost.C32_i128_div_rem_partial",
    "Gost.C32_i128_div_rem_fails",
    "Gost.C32_i128_div_value_partial",
    "Gost.C32_i128_rem_value_partial",
    "Gost.C32_i128_div_panics_fails",
    "Gost.C32_i128_wrapped_dividend_partial",
    "Gost.C32_i128_wrapped_divisor_partial",
    "Gost.C32_i128_div_zero_fails"
   ],
   "note": "code violates the property (inherits Neg, sign of remainder, panic on -2^64); exact domain among non-negative or mixed-low operands; the value returned for every pair of operands"
  },
  {
   "property": "C33",
   "status": "partial",
   "theorems": [
    "Gost.C33_i128_toString_partial",
    "Gost.C33_i128_toString_fails"
   ],
   "note": "code violates the property for negative values with low half 0 or 2^64-1; exact domain proved"
  },
  {
   "property": "C34",
   "status": "partial",
   "theorems": [
    "Gost.C34_shift128_partial",
    "Gost.C34_shift128_by_one_partial",
    "Gost.C34_shift128_fails"
   ],
   "note": "code violates the property for every amount but 1; exact domain proved"
  },
  {
   "property": "C35",
   "status": "proved",
   "theorems": [
    "Gost.C35_widening"
   ],
   "note": ""
  },
  {
   "property": "C36",
   "status": "partial",
   "theorems": [
    "Gost.C36_i128_sign_partial",
    "Gost.C36_i128_sign_fails"
   ],
   "note": "IsPositive wrong exactly for 0 < v < 2^64; IsNegative right"
  },
  {
   "property": "C37",
   "status": "proved",
   "theorems": [
    "Gost.C37_durationNew"
   ],
   "note": ""
  },
  {
   "property": "C38",
   "status": "proved",
   "theorems": [
    "Gost.C38_duration_constructors",
    "Gost.C38_duration_accessors",
    "Gost.C38_duration_roundtrip"
   ],
   "note": ""
  },
  {
   "property": "C39",
   "status": "proved",
   "theorems": [
    "Gost.C39_option_observers",
    "Gost.C39_option_combinators",
    "Gost.C39_option_update",
    "Gost.C39_option_laws",
    "Gost.C39_option_eq",
    "Gost.C39_option_clone"
   ],
   "note": ""
  },
  {
   "property": "C40",
   "status": "partial",
   "theorems": [
    "Gost.C40_option_and_replace_partial",
    "Gost.C40_option_and_replace_fails"
   ],
   "note": "code violates the property on None; proved for Some"
  },
  {
   "property": "C41",
   "status": "proved",
   "theorems": [
    "Gost.C41_result_constructors",
    "Gost.C41_result_observers",
    "Gost.C41_result_combinators",
    "Gost.C41_result_closed",
    "Gost.C41_result_eq",
    "Gost.C41_result_clone"
   ],
   "note": ""
  },
  {
   "property": "C42",
   "status": "partial",
   "theorems": [
    "Gost.C42_chain_partial",
    "Gost.C42_chain_fails"
   ],
   "note": "code runs every true branch and returns the last; proved for chains with at most one true condition, exact characterisation for value branches"
  },
  {
   "property": "C43",
   "status": "proved",
   "theorems": [
    "Gost.C43_pair_cmp",
    "Gost.C43_pair_missing_methods",
    "Gost.C43_pair_clone"
   ],
   "note": ""
  },
  {
   "property": "C44",
   "status": "proved",
   "theorems": [
    "Gost.C44_assert",
    "Gost.C44_assertEq_Ne"
   ],
   "note": ""
  },
  {
   "property": "C45",
   "status": "proved",
   "theorems": [
    "Gost.C45_append_shared",
    "Gost.C45_vec_history",
    "Gost.C45_vec_capacity"
   ],
   "note": ""
  },
  {
   "property": "C46",
   "status": "partial",
   "theorems": [
    "Gost.C46_reserve_partial",
    "Gost.C46_reserve_fails"
   ],
   "note": "code violates the property (Reserve appends zero elements); exact domain proved"
  },
  {
   "property": "C47",
   "status": "partial",
   "theorems": [
    "Gost.C47_set_partial",
    "Gost.C47_set_fails"
   ],
   "note": "code violates the property (panics out of range); exact domain proved"
  },
  {
   "property": "C48",
   "status": "proved",
   "theorems": [
    "Gost.C48_retain_fillWith",
    "Gost.C48_retain_fill_reverse"
   ],
   "note": ""
  },
  {
   "property": "C49",
   "status": "proved",
   "theorems": [
    "Gost.C49_vec_dedup"
   ],
   "note": ""
  },
  {
   "property": "C50",
   "status": "partial",
   "theorems": [
    "Gost.C50_dedupByKey_partial",
    "Gost.C50_dedupByKey_fails"
   ],
   "note": "code violates the property (removes non-adjacent repeats too); what it does and the exact domain proved"
  },
  {
   "property": "C51",
   "status": "proved",
   "theorems": [
    "Gost.C51_binarySearchBy",
    "Gost.C51_binarySearch",
    "Gost.C51_binarySearchBy_inRange"
   ],
   "note": ""
  },
  {
   "property": "C52",
   "status": "proved",
   "theorems": [
    "Gost.C52_vec_sort",
    "Gost.C52_vec_sort_unique",
    "Gost.C52_vec_sort_noCmp"
   ],
   "note": ""
  },
  {
   "property": "C53",
   "status": "proved",
   "theorems": [
    "Gost.C53_vec_iter_next",
    "Gost.C53_vec_iter_adapters",
    "Gost.C53_vec_iter_adapters_pure"
   ],
   "note": ""
  },
  {
   "property": "C54",
   "status": "partial",
   "theorems": [
    "Gost.C54_rev_partial",
    "Gost.C54_rev_fails"
   ],
   "note": "code violates the property after partial consumption; exact domain proved"
  },
  {
   "property": "C55",
   "status": "proved",
   "theorems": [
    "Gost.C55_clone_independent",
    "Gost.C55_contains_eq_clone",
    "Gost.C55_missing_methods"
   ],
   "note": "independence of the clone proved on an explicit heap of slices, for every interleaving of operations on both"
  },
  {
   "property": "C56",
   "status": "proved",
   "theorems": [
    "Gost.C56_deque_history",
    "Gost.C56_deque_constructors",
    "Gost.C56_push_alloc"
   ],
   "note": "all operations and histories, while 2*Len, capacity and requested room stay below 2^63; behaviour of a push beyond that proved separately"
  },
  {
   "property": "C57",
   "status": "partial",
   "theorems": [
    "Gost.C57_reserve_partial",
    "Gost.C57_reserve_fails"
   ],
   "note": "holds exactly while Capacity + n < 2^63; from 2^64 on Reserve silently does nothing (violation)"
  },
  {
   "property": "C58",
   "status": "proved",
   "theorems": [
    "Gost.C58_deque_dedup",
    "Gost.C58_deque_dedup_noEq"
   ],
   "note": "for every layout; equality must be symmetric and transitive, not reflexive (NaN)"
  },
  {
   "property": "C59",
   "status": "partial",
   "theorems": [
    "Gost.C59_asSlice_head_fails",
    "Gost.C59_asSlice_partial",
    "Gost.C59_asSlice_fails"
   ],
   "note": "code violates the property when the head is not at the start of the buffer; proved for head 0, violation for every deque whose first element is not also in slot 0"
  },
  {
   "property": "C60",
   "status": "partial",
   "theorems": [
    "Gost.C60_noCmp",
    "Gost.C60_searchBy_partial",
    "Gost.C60_slots_partial",
    "Gost.C60_sort_behind_fails",
    "Gost.C60_sort_full_fails",
    "Gost.C60_sort_search_partial",
    "Gost.C60_sort_fails",
    "Gost.C60_binarySearch_fails"
   ],
   "note": "code sorts and searches the raw buffer; proved for head 0; for every layout: what is sorted and searched is what AsSlice returns, without panics; Sort changes nothing on deques behind their own length, and never sorts a full deque with another head (unless all elements are equal); violation for BinarySearch; elements without Cmp"
  },
  {
   "property": "C61",
   "status": "partial",
   "theorems": [
    "Gost.C61_deque_iter_next",
    "Gost.C61_deque_iter_adapters_partial",
    "Gost.C61_adapters_fails",
    "Gost.C61_rev_fails"
   ],
   "note": "Next proved; adapters restart from the beginning (violation); Rev always panics (violation)"
  },
  {
   "property": "C62",
   "status": "proved",
   "theorems": [
    "Gost.C62_deque_noEq",
    "Gost.C62_clone_independent",
    "Gost.C62_deque_contents",
    "Gost.C62_deque_fillWith"
   ],
   "note": "contents, FillWith order, elements without Eq, and independence of the clone under every interleaving"
  },
  {
   "property": "C63",
   "status": "proved",
   "theorems": [
    "Gost.C63_list_history",
    "Gost.C63_list_new",
    "Gost.C63_list_links"
   ],
   "note": "all histories over any number of list variables on one heap, at most 2^64 nodes ever allocated"
  },
  {
   "property": "C64",
   "status": "proved",
   "theorems": [
    "Gost.C64_append"
   ],
   "note": "including every later history on both lists; self-append is C92"
  },
  {
   "property": "C65",
   "status": "partial",
   "theorems": [
    "Gost.C65_list_iter_start",
    "Gost.C65_list_iter_next",
    "Gost.C65_list_iter_nexts",
    "Gost.C65_list_map",
    "Gost.C65_list_filter",
    "Gost.C65_list_fold",
    "Gost.C65_list_collect_vec",
    "Gost.C65_list_collect_list",
    "Gost.C65_list_rev_partial",
    "Gost.C65_list_rev_fails",
    "Gost.C65_list_clone",
    "Gost.C65_list_clone_no_method",
    "Gost.C65_list_eq",
    "Gost.C65_collect_from_vec",
    "Gost.C65_collect_from_deque"
   ],
   "note": "everything proved except Rev, which keeps the order (exact domain and violation proved)"
  },
  {
   "property": "C66",
   "status": "proved",
   "theorems": [
    "Gost.C66_heap_history",
    "Gost.C66_heap_new"
   ],
   "note": "every total and transitive Cmp (weaker than lawful), all histories; Cmp assumed pure"
  },
  {
   "property": "C67",
   "status": "proved",
   "theorems": [
    "Gost.C67_intoSortedVec",
    "Gost.C67_intoVec"
   ],
   "note": "heaps of fewer than 2^63 elements (a larger slice cannot be made)"
  },
  {
   "property": "C68",
   "status": "partial",
   "theorems": [
    "Gost.C68_append_partial",
    "Gost.C68_append_fails"
   ],
   "note": "exact domain proved; violated: other is never emptied, zero values get in when there is no room, and then Pop may not return a maximum"
  },
  {
   "property": "C69",
   "status": "proved",
   "theorems": [
    "Gost.C69_map_history",
    "Gost.C69_map_new",
    "Gost.C69_map_size"
   ],
   "note": "every key type with an equivalence as == (0 and -0 included), keys hashable; every other map of the program is unchanged"
  },
  {
   "property": "C70",
   "status": "proved",
   "theorems": [
    "Gost.C70_map_iter",
    "Gost.C70_map_clone",
    "Gost.C70_map_clone_independent",
    "Gost.C70_map_clone_missing",
    "Gost.C70_map_eq"
   ],
   "note": "every order of range; Clone and Eq of elements assumed pure, key clones equal to the key"
  },
  {
   "property": "C71",
   "status": "proved",
   "theorems": [
    "Gost.C71_set_history",
    "Gost.C71_set_new",
    "Gost.C71_set_iter",
    "Gost.C71_set_intersection",
    "Gost.C71_set_union",
    "Gost.C71_set_symmetricDifference",
    "Gost.C71_set_fromSlice",
    "Gost.C71_set_clone",
    "Gost.C71_set_comparisons"
   ],
   "note": "every order of range; fewer than 2^64 elements"
  },
  {
   "property": "C72",
   "status": "partial",
   "theorems": [
    "Gost.C72_btree_history_partial",
    "Gost.C72_insert_partial",
    "Gost.C72_insert_fails"
   ],
   "note": "every lawful Cmp, every heap; Insert works iff Fits; Insert above the eleventh of 11..20 keys loses the entry"
  },
  {
   "property": "C73",
   "status": "partial",
   "theorems": [
    "Gost.C73_btree_capacity_fails",
    "Gost.C73_btree_capacity_partial"
   ],
   "note": "the full property is false: every sequence of 22 distinct insertions panics; 21 descending ones, and any 11, work"
  },
  {
   "property": "C74",
   "status": "partial",
   "theorems": [
    "Gost.C74_remove_low_fails",
    "Gost.C74_remove_eleventh_fails",
    "Gost.C74_remove_twelfth_fails",
    "Gost.C74_remove_big_partial",
    "Gost.C74_remove_largest_fails",
    "Gost.C74_remove_inner_fails",
    "Gost.C74_remove_panics_fails",
    "Gost.C74_remove_partial",
    "Gost.C74_remove_absent_partial"
   ],
   "note": "exact domain for every reached map: C74_remove_partial for at most 11 keys, C74_remove_big_partial for 12 and more; the full property is false, see C74_*_fails"
  },
  {
   "property": "C75",
   "status": "partial",
   "theorems": [
    "Gost.C75_iter_gap_fails",
    "Gost.C75_btree_iter_partial",
    "Gost.C75_iter_lost_fails",
    "Gost.C75_iter_removed_fails"
   ],
   "note": "maps reached by histories whose operations all work; the empty map panics"
  },
  {
   "property": "C76",
   "status": "partial",
   "theorems": [
    "Gost.C76_set_history_partial",
    "Gost.C76_set_elements_partial",
    "Gost.C76_insert_fails",
    "Gost.C76_remove_fails",
    "Gost.C76_set_comparisons_partial",
    "Gost.C76_empty_fails",
    "Gost.C76_set_intersection_partial",
    "Gost.C76_set_union_partial",
    "Gost.C76_set_symmetricDifference_partial",
    "Gost.C76_union_empty_fails",
    "Gost.C76_intersection_fails",
    "Gost.C76_union_fails",
    "Gost.C76_clone_fails"
   ],
   "note": "false for empty operands (panic), for results of 12 elements (element missing) and for Clone (does not terminate); right on the stated domain"
  },
  {
   "property": "C77",
   "status": "proved",
   "theorems": [
    "Gost.C77_format",
    "Gost.C77_format_result"
   ],
   "note": "full for well-formed templates; Display methods may have effects or panic"
  },
  {
   "property": "C78",
   "status": "partial",
   "theorems": [
    "Gost.C78_string_history",
    "Gost.C78_bytes_roundtrip",
    "Gost.C78_push_pop_partial",
    "Gost.C78_push_pop_fails",
    "Gost.C78_push_invalid_fails"
   ],
   "note": "full for strings that are valid UTF-8 and runes that are characters; on other strings Pop replaces invalid bytes by U+FFFD, other runes are pushed as U+FFFD"
  },
  {
   "property": "C79",
   "status": "partial",
   "theorems": [
    "Gost.C79_signed_toString",
    "Gost.C79_unsigned_toString",
    "Gost.C79_usize_toString_partial",
    "Gost.C79_usize_toString_fails",
    "Gost.C79_parseI64",
    "Gost.C79_parseU64_partial",
    "Gost.C79_parseU64_fails"
   ],
   "note": "full for the signed types, U8..U64 ToString and ParseI64; USize.ToString is negative from 2^63 on; ParseU64 rejects 2^63.. and accepts negative numerals"
  },
  {
   "property": "C80",
   "status": "partial",
   "theorems": [
    "Gost.C80_utf16_partial",
    "Gost.C80_utf16_fails"
   ],
   "note": "false from two code units on: every second code unit is skipped; right iff at most one unit"
  },
  {
   "property": "C81",
   "status": "proved",
   "theorems": [
    "Gost.C81_mutual_exclusion",
    "Gost.C81_tryLock",
    "Gost.C81_end",
    "Gost.C81_always_ends",
    "Gost.C81_unlock_free"
   ],
   "note": "any number of goroutines, any critical sections; mutual exclusion, no lost update, no deadlock, TryLock, fatal Unlock"
  },
  {
   "property": "C82",
   "status": "proved",
   "theorems": [
    "Gost.C82_join_after_return",
    "Gost.C82_join_can_return",
    "Gost.C82_always_ends",
    "Gost.C82_end"
   ],
   "note": "any function that takes finitely many internal steps, any number of goroutines with any sequence of Join and IsFinished calls; every execution is finite and ends with the only Join returned"
  },
  {
   "property": "C83",
   "status": "partial",
   "theorems": [
    "Gost.C83_signal_once_fails",
    "Gost.C83_first_call_partial",
    "Gost.C83_unready_fails"
   ],
   "note": "false: all calls together succeed at most once; the first call after the task waits succeeds"
  },
  {
   "property": "C84",
   "status": "partial",
   "theorems": [
    "Gost.C84_await_after_return",
    "Gost.C84_await_value_partial",
    "Gost.C84_end",
    "Gost.C84_always_ends",
    "Gost.C84_other_awaits_fails"
   ],
   "note": "exactly one Await gets the value, all others the zero value, in every execution"
  },
  {
   "property": "C85",
   "status": "partial",
   "theorems": [
    "Gost.C85_write_holds",
    "Gost.C85_others",
    "Gost.C85_read_partial",
    "Gost.C85_write_read_partial",
    "Gost.C85_large_fails"
   ],
   "note": "proved up to 1 GiB with any later history that spares the file; beyond 1 GiB Read returns zeros"
  },
  {
   "property": "C86",
   "status": "partial",
   "theorems": [
    "Gost.C86_copy_partial",
    "Gost.C86_existing_fails",
    "Gost.C86_alias_fails"
   ],
   "note": "contents right after Copy proved; Copy is a hard link: never overwrites, and writes to one name change the other"
  },
  {
   "property": "C87",
   "status": "partial",
   "theorems": [
    "Gost.C87_readDir_partial",
    "Gost.C87_path_partial",
    "Gost.C87_blank_fails",
    "Gost.C87_path_leads",
    "Gost.C87_path_clean",
    "Gost.C87_path_link_fails"
   ],
   "note": "right only for empty directories: n blank items precede the n entries, all typed as files. The paths of the items are clean (C87_path_clean) and lead to the entries if the directory's path goes over no symbolic link (C87_path_leads); over a link followed by .. they lead elsewhere (C87_path_link_fails)"
  },
  {
   "property": "C88",
   "status": "proved",
   "theorems": [
    "Gost.C88_option_copies_independent",
    "Gost.C88_option_pointer_refers",
    "Gost.C88_option_unwrap"
   ],
   "note": ""
  },
  {
   "property": "C89",
   "status": "partial",
   "theorems": [
    "Gost.C89_copy_history_partial",
    "Gost.C89_disjoint_vecs_independent",
    "Gost.C89_copy_partial",
    "Gost.C89_copy_fails"
   ],
   "note": "copies of a vector variable share the array; independence proved for vectors with different arrays and for the operations that do not write in place; failure proved for every vector with spare capacity"
  },
  {
   "property": "C90",
   "status": "partial",
   "theorems": [
    "Gost.C90_append_self_fails",
    "Gost.C90_append_self_partial"
   ],
   "note": "appending a nonempty deque to itself never ends"
  },
  {
   "property": "C91",
   "status": "partial",
   "theorems": [
    "Gost.C91_copy_adds_partial",
    "Gost.C91_pop_push_fails",
    "Gost.C91_disjoint_deques_independent",
    "Gost.C91_copy_fails"
   ],
   "note": "A copied variable shares its buffer (violation: C91_copy_fails for Set, C91_pop_push_fails for PopFront + PushFront). C91_copy_adds_partial: histories of pushes, Append, Reserve, Clear and reads through the copy leave the contents of the original. C91_disjoint_deques_independent: variables with distinct buffers are independent under every interleaving."
  },
  {
   "property": "C92",
   "status": "partial",
   "theorems": [
    "Gost.C92_append_self_partial",
    "Gost.C92_append_self_fails"
   ],
   "note": "violated by every nonempty list: it ends up empty"
  },
  {
   "property": "C93",
   "status": "partial",
   "theorems": [
    "Gost.C93_copy_partial",
    "Gost.C93_copy_fails"
   ],
   "note": "exact effect of each of the four operations on the copy; violated by PushBack and PopBack"
  },
  {
   "property": "C94",
   "status": "partial",
   "theorems": [
    "Gost.C94_reserve_partial",
    "Gost.C94_reserve_fails"
   ],
   "note": "exact domain; violated whenever the vector must grow: zero values get into the heap and Pop may not return a maximum"
  },
  {
   "property": "C95",
   "status": "partial",
   "theorems": [
    "Gost.C95_keys_partial",
    "Gost.C95_keys_fails"
   ],
   "note": "exact domain; violated by NaN keys (entries that can never be found or removed), unhashable interface keys (panic) and the zero value (Insert panics)"
  },
  {
   "property": "C96",
   "status": "partial",
   "theorems": [
    "Gost.C96_handles_partial",
    "Gost.C96_handles_fails"
   ],
   "note": "all histories without Clear; violated by Clear: the copy keeps the entries and is detached for good"
  },
  {
   "property": "C97",
   "status": "partial",
   "theorems": [
    "Gost.C97_hash_iter_partial",
    "Gost.C97_hash_iter_fails"
   ],
   "note": "Map, Filter, Fold always; CollectToVec and Rev exactly for fresh iterators, violated for all others; callbacks pure here (with effects: C53)"
  },
  {
   "property": "C98",
   "status": "partial",
   "theorems": [
    "Gost.C98_btree_eq_partial",
    "Gost.C98_btree_eq_fails"
   ],
   "note": "right for maps of admissible histories (C72, C74); panics when the values have no Eq method"
  },
  {
   "property": "C99",
   "status": "proved",
   "theorems": [
    "Gost.C99_find"
   ],
   "note": "strings.Index by contract"
  },
  {
   "property": "C100",
   "status": "partial",
   "theorems": [
    "Gost.C100_empty",
    "Gost.C100_units_unique",
    "Gost.C100_split",
    "Gost.C100_replace",
    "Gost.C100_replace_unique",
    "Gost.C100_repeat_partial",
    "Gost.C100_repeat_fails"
   ],
   "note": "Split and Replace full, for empty and non-empty separators on arbitrary bytes; Repeat panics from 2^63 on"
  },
  {
   "property": "C101",
   "status": "partial",
   "theorems": [
    "Gost.C101_char_toString_fails"
   ],
   "note": "false for every character"
  },
  {
   "property": "C102",
   "status": "partial",
   "theorems": [
    "Gost.C102_gokio_leak_fails",
    "Gost.C102_thread_leak_fails"
   ],
   "note": "false when nobody joins or awaits: leaks in every execution"
  },
  {
   "property": "C103",
   "status": "partial",
   "theorems": [
    "Gost.C103_copy_fails",
    "Gost.C103_race_fails"
   ],
   "note": "false for every two updates; C103_race_fails: the updates through two copies are also a data race"
  },
  {
   "property": "C104",
   "status": "partial",
   "theorems": [
    "Gost.C104_write_prefix_partial",
    "Gost.C104_truncated_fails",
    "Gost.C104_killed_partial"
   ],
   "note": "false: the file is truncated before it is written; a prefix of the data is left (also if the program is killed between two system calls)"
  },
  {
   "property": "C105",
   "status": "partial",
   "theorems": [
    "Gost.C105_remove_partial",
    "Gost.C105_remove_fails"
   ],
   "note": "each also removes what the other is for"
  },
  {
   "property": "C106",
   "status": "partial",
   "theorems": [
    "Gost.C106_rename_partial",
    "Gost.C106_error_unchanged_partial",
    "Gost.C106_same_fails",
    "Gost.C106_tree_partial",
    "Gost.C106_places_partial"
   ],
   "note": "proved for files on all paths (target missing or another file); for everything including directories: exact description of all places in the tree afterwards (all paths), and of what a and b lead to (absolute paths without symbolic links); nothing happens if both names are hard links to one file"
  },
  {
   "property": "C107",
   "status": "proved",
   "theorems": [
    "Gost.C107_vec_display",
    "Gost.C107_vec_missing",
    "Gost.C107_deque_display",
    "Gost.C107_deque_missing",
    "Gost.C107_list_display",
    "Gost.C107_list_missing",
    "Gost.C107_vec_injective"
   ],
   "note": "all three proved, effects and panics of Display methods included; missing method panics"
  },
  {
   "property": "C108",
   "status": "partial",
   "theorems": [
    "Gost.C108_map_display",
    "Gost.C108_set_display",
    "Gost.C108_btree_map_display_partial",
    "Gost.C108_btree_set_display_partial",
    "Gost.C108_btree_set_fails"
   ],
   "note": "hash containers proved in full; B-trees for maps and sets that hold what was put in (C72/C76); Display of the empty BTreeSet panics (proved)"
  },
  {
   "property": "C109",
   "status": "partial",
   "theorems": [
    "Gost.C109_display_partial",
    "Gost.C109_nested_partial",
    "Gost.C109_pair_fails",
    "Gost.C109_pair_text_partial",
    "Gost.C109_interface_fails",
    "Gost.C109_nil_error_fails"
   ],
   "note": "texts proved; fails for pairs inside anything, for Option/Result of interface types, for Err(nil)"
  },
  {
   "property": "C110",
   "status": "partial",
   "theorems": [
    "Gost.C110_debug_partial",
    "Gost.C110_debug_fails"
   ],
   "note": "text proved; no type but Pair implements Debug (proved)"
  },
  {
   "property": "C111",
   "status": "partial",
   "theorems": [
    "Gost.C111_panic",
    "Gost.C111_assert_partial",
    "Gost.C111_assert_fails",
    "Gost.C111_assertEq_partial",
    "Gost.C111_assertEq_fails",
    "Gost.C111_stubs"
   ],
   "note": "Panic in full; assertions for messages without placeholders; with a placeholder the message is substituted for the argument, and a Go string message panics with a nil dereference (proved)"
  },
  {
   "property": "C112",
   "status": "proved",
   "theorems": [
    "Gost.C112_signed",
    "Gost.C112_unsigned",
    "Gost.C112_assign",
    "Gost.C112_sum",
    "Gost.C112_u128",
    "Gost.C112_i128_sum"
   ],
   "note": "The floating-point and complex operators are an arbitrary function in C112_assign; their values are C137 and C145. The 128-bit operators are C25-C32."
  },
  {
   "property": "C113",
   "status": "partial",
   "theorems": [
    "Gost.C113_sleep_partial",
    "Gost.C113_sleep_fails"
   ],
   "note": "Holds below 2^63 nanoseconds (about 292 years); longer durations panic (C113_sleep_fails)."
  },
  {
   "property": "C114",
   "status": "partial",
   "theorems": [
    "Gost.C114_readLine_partial",
    "Gost.C114_words_partial",
    "Gost.C114_readLine_fails"
   ],
   "note": "Holds exactly if the buffer is empty and the line has no white space. Otherwise the buffer is overwritten, only the first word is stored, and a letter is lost. Assumed: valid UTF-8, no read errors."
  },
  {
   "property": "C115",
   "status": "partial",
   "theorems": [
    "Gost.C115_print",
    "Gost.C115_println_partial",
    "Gost.C115_println_fails"
   ],
   "note": "The text is right and each goroutine's writes come in order, but Println writes text and newline separately, so lines of different goroutines can share a line. Write errors are not modelled."
  },
  {
   "property": "C116",
   "status": "partial",
   "theorems": [
    "Gost.C116_lock_fails",
    "Gost.C116_holder_fails"
   ],
   "note": "Fails: Lock returns the mutex without locking it; locking it and then reading deadlocks."
  },
  {
   "property": "C117",
   "status": "partial",
   "theorems": [
    "Gost.C117_asRef_partial",
    "Gost.C117_asRef_fails"
   ],
   "note": "The pointer is to a copy: the value is right at the time of the call, later writes are not shared."
  },
  {
   "property": "C118",
   "status": "proved",
   "theorems": [
    "Gost.C118_floor",
    "Gost.C118_ceil",
    "Gost.C118_round",
    "Gost.C118_trunc",
    "Gost.C118_frac",
    "Gost.C118_abs"
   ],
   "note": "package math and IEEE conversions are contracts"
  },
  {
   "property": "C119",
   "status": "proved",
   "theorems": [
    "Gost.C119_sqrt"
   ],
   "note": "math.Sqrt is assumed correctly rounded to float64"
  },
  {
   "property": "C120",
   "status": "partial",
   "theorems": [
    "Gost.C120_rounded",
    "Gost.C120_powi_partial",
    "Gost.C120_powi_fails"
   ],
   "note": "partial: Powi converts the int exponent to float64, so odd exponents beyond 2^53 give (-1).Powi(n) = 1 (C120_powi_fails)"
  },
  {
   "property": "C121",
   "status": "proved",
   "theorems": [
    "Gost.C121_trim",
    "Gost.C121_trim_text",
    "Gost.C121_trim_unique",
    "Gost.C121_trim_idempotent"
   ],
   "note": "strings.TrimSpace and utf8.DecodeLastRuneInString are modelled from their definitions in the Go standard library (contract)."
  },
  {
   "property": "C122",
   "status": "proved",
   "theorems": [
    "Gost.C122_case_text",
    "Gost.C122_case_ascii",
    "Gost.C122_case_bytes"
   ],
   "note": "The tables of package unicode are a parameter, assumed only to agree with ASCII and to map characters to characters."
  },
  {
   "property": "C123",
   "status": "partial",
   "theorems": [
    "Gost.C123_copy_insert_partial",
    "Gost.C123_copy_shared_fails",
    "Gost.C123_copy_full_fails",
    "Gost.C123_set_copy_fails",
    "Gost.C123_copy_remove_partial",
    "Gost.C123_copy_remove_fails",
    "Gost.C123_copy_remove_largest_fails"
   ],
   "note": "Violated by the code: both variables point to the same nodes. C123_copy_insert_partial and C123_copy_remove_partial say exactly when the Gets of the original are undisturbed; the _fails theorems say what it shows otherwise (stale Len; with eleven keys its largest key is lost; removed keys disappear). Insertions that do not fit (C72) and Remove from a map of more than eleven keys through a copy are not covered."
  },
  {
   "property": "C124",
   "status": "partial",
   "theorems": [
    "Gost.C124_copy_push_partial",
    "Gost.C124_disjoint_push",
    "Gost.C124_copy_push_fails",
    "Gost.C124_copy_pop_fails"
   ],
   "note": "Violated by the code: copies share the array. C124_copy_push_partial is exact for one Push; the _fails theorems cover two Pushes and Pop. C124_disjoint_push: heaps with separate arrays are independent under Push and behave as in C66."
  },
  {
   "property": "C125",
   "status": "partial",
   "theorems": [
    "Gost.C125_self_append_distinct",
    "Gost.C125_self_append_middle_fails",
    "Gost.C125_self_append_partial",
    "Gost.C125_self_append_fails",
    "Gost.C125_self_append_no_loss"
   ],
   "note": "Violated by the code: the loop of Append reads elements that Push has moved. C125_self_append_no_loss: for every heap with room nothing is lost and as many own elements are added, none less than the one at its place; C125_self_append_partial gives a sufficient condition for the right result (met by all heaps of at most two elements), C125_self_append_fails a violation for every heap of three or more elements with a single greatest one; C125_self_append_distinct: a heap in which no two elements compare equal is doubled exactly when it has at most two elements; C125_self_append_middle_fails: a violation for every heap whose greatest element is greater than the one in the middle of its array (ties or not); heaps of three or more with the greatest element also in the middle are not decided exactly. Without room in the array Append adds zero values (C68)."
  },
  {
   "property": "C126",
   "status": "proved",
   "theorems": [
    "Gost.C126_results",
    "Gost.C126_end",
    "Gost.C126_always_ends",
    "Gost.C126_reaches_end"
   ],
   "note": "Futures that are not awaited before the next call are outside the property; a function of fs.go is one atomic step in the model."
  },
  {
   "property": "C127",
   "status": "partial",
   "theorems": [
    "Gost.Nested.C127_clone_partial",
    "Gost.Nested.C127_element_fails",
    "Gost.Nested.C127_set_fails",
    "Gost.Nested.C127_deque_partial",
    "Gost.Nested.C127_deque_fails"
   ],
   "note": "Exact domain of Clone, equality and independence under arbitrary later changes proved for all nested types. Violations proved: elements of type I128, U128, VecDeque or BTreeMap panic, a BTreeSet element never returns, VecDeque.Clone copies its elements shallowly."
  },
  {
   "property": "C128",
   "status": "partial",
   "theorems": [
    "Gost.Nested.C128_eq_partial",
    "Gost.Nested.C128_clone_partial",
    "Gost.Nested.C128_element_fails"
   ],
   "note": "Proved for all nested types without complex numbers and BTreeMaps inside; Eq panics on containers with elements of those types (violation proved)."
  },
  {
   "property": "C129",
   "status": "proved",
   "theorems": [
    "Gost.C129_hash_map",
    "Gost.C129_hash_set",
    "Gost.C129_btree_map",
    "Gost.C129_btree_set"
   ],
   "note": "All iterator types; B-trees on the domain of C72/C76."
  },
  {
   "property": "C130",
   "status": "proved",
   "theorems": [
    "Gost.C130_roundtrip",
    "Gost.C130_text32",
    "Gost.C130_integers",
    "Gost.C130_parse",
    "Gost.C130_parse_other",
    "Gost.C130_complex"
   ],
   "note": "FormatFloat and ParseFloat are contracts; texts with underscores or hexadecimal prefix go through an arbitrary function. An exponent of more than five digits counts only with its first five, as strconv does."
  },
  {
   "property": "C131",
   "status": "proved",
   "theorems": [
    "Gost.C131_tree",
    "Gost.C131_below"
   ],
   "note": "for histories in which the working directory is not removed (second half)"
  },
  {
   "property": "C132",
   "status": "partial",
   "theorems": [
    "Gost.C132_heap_bag",
    "Gost.C132_heap_answered",
    "Gost.C132_push_order",
    "Gost.C132_push_fails",
    "Gost.C132_pop_fails",
    "Gost.C132_pop_panics",
    "Gost.C132_append",
    "Gost.C132_intoSorted_fails"
   ],
   "note": "As a bag the heap is right in every history with recovered panics and arbitrary Cmp (C132_heap_bag, C132_append), and operations in which Cmp does not panic behave as in C66 (C132_heap_answered). The documented guarantee about unwinding is violated: after a Push that panicked the greatest element may be below others and the next Pop returns another one (C132_push_order gives the exact state); a Pop that panics, and IntoSortedVec, lose elements."
  },
  {
   "property": "C133",
   "status": "partial",
   "theorems": [
    "Gost.C133_vec_retain",
    "Gost.C133_vec_dedupByKey",
    "Gost.C133_vec_fillWith",
    "Gost.C133_vec_insert_fails",
    "Gost.C133_vec_agrees",
    "Gost.C133_deque_fillWith",
    "Gost.C133_deque_retain_partial",
    "Gost.C133_deque_retain_fails",
    "Gost.C133_deque_dedup_partial",
    "Gost.C133_deque_dedup_fails"
   ],
   "note": "Holds for Vec.Retain, Vec.DedupByKey and both FillWith. VecDeque.Retain and Dedup leave the accepted elements followed by the old ones from that position (exact state proved), so elements are lost and doubled; Vec.Insert with an index greater than Len panics after the value has been appended."
  },
  {
   "property": "C134",
   "status": "proved",
   "theorems": [
    "Gost.C134_wrappingDiv_signed",
    "Gost.C134_wrappingDiv_unsigned"
   ],
   "note": ""
  },
  {
   "property": "C135",
   "status": "partial",
   "theorems": [
    "Gost.C135_append_self_partial",
    "Gost.C135_append_self_fails"
   ],
   "note": "Violated by every nonempty vector: other.data = make([]T, 0) is executed last and empties it."
  },
  {
   "property": "C136",
   "status": "proved",
   "theorems": [
    "Gost.C136_unsigned",
    "Gost.C136_signed",
    "Gost.C136_values",
    "Gost.C136_wraps"
   ],
   "note": "C136_unsigned/_signed: bounds under Cmp, and uniqueness; C136_values: the numbers; C136_wraps: MAX+1 and MIN-1. The four 128-bit constants are variables in Go and could be reassigned by a program; the model is their initial value."
  },
  {
   "property": "C137",
   "status": "proved",
   "theorems": [
    "Gost.C137_add",
    "Gost.C137_sub",
    "Gost.C137_mul",
    "Gost.C137_div",
    "Gost.C137_rounds_unique",
    "Gost.C137_special",
    "Gost.C137_closed",
    "Gost.C137_exact",
    "Gost.C137_integers",
    "Gost.C137_algebra",
    "Gost.C137_not_associative",
    "Gost.C137_sub_zero",
    "Gost.C137_sterbenz",
    "Gost.C137_monotone",
    "Gost.C137_monotone_mul",
    "Gost.C137_assign",
    "Gost.C137_complex"
   ],
   "note": "C137_add/_sub/_mul/_div: correct rounding with zero and division-by-zero cases; C137_special: NaN and infinities; C137_exact, _integers, _sterbenz, _sub_zero, _algebra, _monotone, _monotone_mul, _closed, _assign, _complex. C137_not_associative records that Add is not associative (not part of the claim). Products and quotients of complex numbers are C145."
  },
  {
   "property": "C138",
   "status": "partial",
   "theorems": [
    "Gost.C138_deque_count",
    "Gost.C138_deque_partial",
    "Gost.C138_deque_fails",
    "Gost.C138_vec_count",
    "Gost.C138_vec_partial",
    "Gost.C138_vec_sees",
    "Gost.C138_vec_fails",
    "Gost.C138_list_view",
    "Gost.C138_list_partial",
    "Gost.C138_list_fails"
   ],
   "note": "Vec, VecDeque: the iterator shares the array; the number of elements, termination and absence of panics hold for all histories (C138_vec_count, C138_deque_count), the values under the histories of C138_vec_partial, C138_deque_partial; Set after IntoIter is seen (C138_vec_fails, C138_deque_fails; C138_vec_sees is exact for one operation). LinkedList: exact for all histories by C138_list_view; a loop that pushes at the back never ends (C138_list_fails). Iterators of HashMap, HashSet, BTreeMap and BTreeSet own a freshly built Vec, so they are not affected (C70, C75)."
  },
  {
   "property": "C139",
   "status": "partial",
   "theorems": [
    "Gost.C139_answered",
    "Gost.C139_reads",
    "Gost.C139_insert_partial",
    "Gost.C139_remove_partial",
    "Gost.C139_insert_fails",
    "Gost.C139_full_fails"
   ],
   "note": "Runs that return are those of the pure model and reads write nothing, for every map. Insert and Remove that panic are described exactly for maps of up to eleven keys (Remove leaves the map as it was; Insert leaves it as it was unless a comparison with the new key as argument panics, and then one entry may be in two slots). False: C139_insert_fails, C139_full_fails. Missing: maps of more than eleven keys."
  },
  {
   "property": "C140",
   "status": "proved",
   "theorems": [
    "Gost.C140_binarySearchBy",
    "Gost.C140_heap"
   ],
   "note": "Bounds for every run, including those that panic and vectors that are not heaps or not sorted."
  },
  {
   "property": "C141",
   "status": "partial",
   "theorems": [
    "Gost.C141_vec",
    "Gost.C141_shared_partial",
    "Gost.C141_shared_fails",
    "Gost.C141_into_vec_set_fails",
    "Gost.C141_into_vec_pop_fails"
   ],
   "note": "Holds for VecIter. CollectToVec of the map and set iterators returns the iterator's own vector and BinaryHeap.IntoVec the heap's own: a Set on it changes what Next or Pop gives afterwards; two Pushes to two collected vectors collide; Pop of the heap changes the vector."
  },
  {
   "property": "C142",
   "status": "partial",
   "theorems": [
    "Gost.C142_alone",
    "Gost.C142_writes_partial",
    "Gost.C142_reads_partial",
    "Gost.C142_writes_fails",
    "Gost.C142_read_fails"
   ],
   "note": "false: Write empties the file first and Read asks for the size first, so overlapping calls mix contents, read nothing, give io.EOF, or cut and pad; exact outcomes for Writes of equal lengths"
  },
  {
   "property": "C143",
   "status": "partial",
   "theorems": [
    "Gost.C143_returning",
    "Gost.C143_join_partial",
    "Gost.C143_join_blocks_fails",
    "Gost.C143_panic_kills_fails",
    "Gost.C143_await_zero_fails",
    "Gost.C143_await_panicked_fails"
   ],
   "note": "false: Join never returns an error; Goexit blocks it for ever, a panic kills the program; Await returns the zero value"
  },
  {
   "property": "C144",
   "status": "partial",
   "theorems": [
    "Gost.C144_read_partial",
    "Gost.C144_readDirectory_fails",
    "Gost.C144_write",
    "Gost.C144_createDir",
    "Gost.C144_remove",
    "Gost.C144_readDir",
    "Gost.C144_copy",
    "Gost.C144_rename",
    "Gost.C144_lost",
    "Gost.C144_anyRead_partial",
    "Gost.C144_anyWrite",
    "Gost.C144_anyCreateDir",
    "Gost.C144_anyRemove",
    "Gost.C144_anyReadDir",
    "Gost.C144_anyCopy",
    "Gost.C144_anyRename"
   ],
   "note": "Proved for all paths, symbolic links and dots included.  Violated by Read and ReadToString for a directory of reported size 0: it is read as an empty file (C144_readDirectory_fails).  Rename also succeeds, doing nothing, for two spellings of one directory."
  },
  {
   "property": "C145",
   "status": "partial",
   "theorems": [
    "Gost.C145_mul128",
    "Gost.C145_mul64",
    "Gost.C145_mul128_nan_fails",
    "Gost.C145_mul_exact",
    "Gost.C145_mul_integers",
    "Gost.C145_mul_algebra",
    "Gost.C145_mul_infinite_fails",
    "Gost.C145_conjugate",
    "Gost.C145_div_real",
    "Gost.C145_div_imaginary",
    "Gost.C145_div_zero",
    "Gost.C145_div_exact",
    "Gost.C145_div_self_partial",
    "Gost.C145_div_self_fails",
    "Gost.C145_div_infinite",
    "Gost.C145_div_by_infinite_partial",
    "Gost.C145_div_by_infinite_fails",
    "Gost.C145_closed",
    "Gost.C145_assign",
    "Gost.C145_div_error",
    "Gost.C145_div64_error",
    "Gost.C145_div_part_fails"
   ],
   "note": "Fails: a Complex128 product of finite numbers may be NaN (overflow of two products that cancel); products with infinite numbers may be NaN in both parts; z/z has real part 1 for parts up to 2^1022 but not always imaginary part 0 ((49+i)/(49+i)); a finite number over Inf+Inf\u00b7i may be NaN. Division: norm-wise relative error at most 2^-50 for parts that are 0 or within 2^\u00b1200 (Complex64: all finite operands), and no such bound holds for the single parts."
  },
  {
   "property": "C146",
   "status": "partial",
   "theorems": [
    "Gost.C146_deque_exact",
    "Gost.C146_vec",
    "Gost.C146_vec_sort",
    "Gost.C146_vec_answers",
    "Gost.C146_vec_sorted",
    "Gost.C146_vec_noOrd",
    "Gost.C146_deque_partial",
    "Gost.C146_deque_sort",
    "Gost.C146_deque_answers",
    "Gost.C146_deque_fails"
   ],
   "note": "Proved for Vec in full. VecDeque violates it: SortBy of 9, 4, 5 (9 pushed at the front) gives 9, 0, 4 (C146_deque_fails); C146_deque_partial covers the layouts where the sorted slots are exactly the elements, or none of them. C146_deque_exact: those are exactly the layouts where every comparison keeps the elements, provided a sorted slot holds a value that is not an element; mixed layouts whose free slots only hold copies of elements are not decided. The comparison is assumed not to touch the container itself."
  },
  {
   "property": "C147",
   "status": "proved",
   "theorems": [
    "Gost.C147_lookup",
    "Gost.C147_get",
    "Gost.C147_iter",
    "Gost.C147_insert",
    "Gost.C147_remove",
    "Gost.C147_set"
   ],
   "note": "Every state reachable by calls that return, no condition on the number of keys or on Cmp."
  },
  {
   "property": "C148",
   "status": "partial",
   "theorems": [
    "Gost.C148_lookup",
    "Gost.C148_get",
    "Gost.C148_iter",
    "Gost.C148_insert",
    "Gost.C148_remove",
    "Gost.C148_insert_fails",
    "Gost.C148_remove_fails"
   ],
   "note": "C148_lookup, C148_get, C148_iter, C148_insert, C148_remove hold after every history with recovered panics. The last sentence is false: an Insert that panics can take another key out of IntoIter (C148_insert_fails), a Remove that panics can take away its key and another one without changing Len (C148_remove_fails)."
  },
  {
   "property": "C149",
   "status": "proved",
   "theorems": [
    "Gost.C149_step",
    "Gost.C149_run"
   ],
   "note": "C149_step: each call after any calls that returned. C149_run: whole programs up to the first panic, which is the same one."
  },
  {
   "property": "C150",
   "status": "partial",
   "theorems": [
    "Gost.C150_deque_partial",
    "Gost.C150_deque_fails",
    "Gost.C150_deque_reads",
    "Gost.C150_map_partial",
    "Gost.C150_set_partial",
    "Gost.C150_hash_fails",
    "Gost.C150_hash_clone",
    "Gost.C150_others"
   ],
   "note": "Violated by VecDeque, HashMap and HashSet (C150_deque_fails, C150_hash_fails); for these the exact set of histories that work is proved. Vec, LinkedList, BinaryHeap, BTreeMap and BTreeSet work without a constructor (C150_others)."
  },
  {
   "property": "C151",
   "status": "partial",
   "theorems": [
    "Gost.C151_result_eq_partial",
    "Gost.C151_result_eq_fails"
   ],
   "note": "Proved: the exact pairs for which Eq returns, for which it is true, and the exact Results equal to themselves. Violated: two errors of one uncomparable type panic; Err(nil) is not equal to itself."
  },
  {
   "property": "C152",
   "status": "partial",
   "theorems": [
    "Gost.C152_vec_partial",
    "Gost.C152_vec_adding",
    "Gost.C152_vec_lost_fails",
    "Gost.C152_vec_overwrites_fails",
    "Gost.C152_vec_reads",
    "Gost.C152_sort_reads",
    "Gost.C152_sort_fails",
    "Gost.C152_deque_reads_partial",
    "Gost.C152_deque_sees_fails",
    "Gost.C152_deque_pop_fails",
    "Gost.C152_deque_push_fails"
   ],
   "note": "Vec.Retain and DedupByKey keep exactly the accepted values whatever the function does, and call it with the old elements if it only calls Push, Clear and Retain. Fails: what the function adds is lost; Pop followed by Push overwrites elements still to come; a push inside SortBy on a full vector leaves it unsorted; VecDeque.Retain shows a half-compacted deque, loses elements after PopFront, and never returns if the predicate pushes."
  },
  {
   "property": "C153",
   "status": "proved",
   "theorems": [
    "Gost.C153_fork_join",
    "Gost.C153_no_deadlock",
    "Gost.C153_terminates",
    "Gost.C153_counter",
    "Gost.C153_completes"
   ],
   "note": "C153_fork_join: safety; C153_no_deadlock, C153_terminates, C153_completes: every schedule ends with the value read; C153_counter: with commuting updates the result is that of executing them in sequence."
  },
  {
   "property": "C154",
   "status": "proved",
   "theorems": [
    "Gost.C154_task_tree",
    "Gost.C154_no_deadlock",
    "Gost.C154_all_end",
    "Gost.C154_terminates"
   ],
   "note": "C154_task_tree: safety and result; C154_no_deadlock, C154_all_end, C154_terminates: progress and termination for every schedule."
  },
  {
   "property": "C155",
   "status": "partial",
   "theorems": [
    "Gost.C155_never_both",
    "Gost.C155_ok_or_err_partial",
    "Gost.C155_neither_fails"
   ],
   "note": "False: Err of a nil error, MapErr to nil and a declared Result are neither (C155_neither_fails). C155_never_both and C155_ok_or_err_partial say exactly which results are right."
  },
  {
   "property": "C156",
   "status": "proved",
   "theorems": [
    "Gost.C156_vec_chain",
    "Gost.C156_deque_chain",
    "Gost.C156_list_chain",
    "Gost.C156_pure_chain",
    "Gost.C156_hash_keys_chain"
   ],
   "note": "Proved for Vec-like, VecDeque and LinkedList iterators; Rev only where it works at all (C54, C61, C65)."
  },
  {
   "property": "C157",
   "status": "proved",
   "theorems": [
    "Gost.C157_deadlock_iff",
    "Gost.C157_gate",
    "Gost.C157_serializable",
    "Gost.C157_no_deadlock",
    "Gost.C157_terminates",
    "Gost.C157_invariant",
    "Gost.C157_any_order",
    "Gost.C157_opposite_orders",
    "Gost.C157_bank"
   ],
   "note": "Serializability, its converse, no deadlock under a lock ranking, termination, invariants; opposite orders deadlock. As everywhere, goroutines go on when main has returned. C157_deadlock_iff: exactly when a deadlock is possible; C157_gate: a common first Mutex rules it out."
  },
  {
   "property": "C158",
   "status": "partial",
   "theorems": [
    "Gost.C158_proper_partial",
    "Gost.C158_search_exact_partial",
    "Gost.C158_search_fails",
    "Gost.C158_sort_fails",
    "Gost.C158_heap_fails",
    "Gost.C158_map_fails"
   ],
   "note": "Holds for comparisons that only return the three constants (C158_proper_partial). Otherwise BinarySearch(By) never returns when the middle element gets another number (exact dichotomy in C158_search_exact_partial), Sort/SortBy change nothing when no answer is exactly -1, a BinaryHeap puts smaller elements on top, and a BTreeMap does not find its second key."
  },
  {
   "property": "C159",
   "status": "partial",
   "theorems": [
    "Gost.C159_capacity_partial",
    "Gost.C159_amortized_partial",
    "Gost.C159_append_fails",
    "Gost.C159_reserve_fails"
   ],
   "note": "Capacity bound and amortised cost proved without Append (and Reserve for the cost). Append reserves Len(other) more slots even when there is room, so a queue fed by Append and drained grows without bound (C159_append_fails); Reserve(1) before each push costs quadratically many slots (C159_reserve_fails)."
  },
  {
   "property": "C160",
   "status": "proved",
   "theorems": [
    "Gost.C160_linearizable",
    "Gost.C160_finishes",
    "Gost.C160_history",
    "Gost.C160_any_order",
    "Gost.C160_queue"
   ],
   "note": "The calls of one collection are one critical section each. C160_history carries every theorem about sequential histories (C45, C56, C66, ...) over. The queue theorem assumes fewer than 2^62 elements and calls, the limit at which VecDeque cannot grow (C56_push_alloc)."
  },
  {
   "property": "C161",
   "status": "partial",
   "theorems": [
    "Gost.C161_race_iff",
    "Gost.C161_exact",
    "Gost.C161_mixture",
    "Gost.C161_kept_partial",
    "Gost.C161_finishes",
    "Gost.C161_changed_fails",
    "Gost.C161_torn_fails"
   ],
   "note": "partial: the contents at the call are written only if data is left alone until Await; C161_exact gives exactly what may be written otherwise. Opening the file and its errors are left out (C142). C161_race_iff: the write is free of data races exactly if no variable changed before Await belongs to data."
  },
  {
   "property": "C162",
   "status": "proved",
   "theorems": [
    "Gost.C162_always",
    "Gost.C162_step",
    "Gost.C162_read",
    "Gost.C162_works",
    "Gost.C162_alone"
   ],
   "note": "Proved for a path whose last component is a file (not a symbolic link), temporary names that do not exist at the start and differ, and contents up to 1 GiB (C85: Read of larger files is wrong); nothing else changes the file system meanwhile. Crash of the program, not power failure."
  },
  {
   "property": "C163",
   "status": "partial",
   "theorems": [
    "Gost.C163_unique",
    "Gost.C163_leaves",
    "Gost.C163_sequences",
    "Gost.C163_options",
    "Gost.C163_hash",
    "Gost.C163_hashMap",
    "Gost.C163_trees_partial",
    "Gost.C163_strings_fails",
    "Gost.C163_table"
   ],
   "note": "Proved for all nested values over separator-free leaves and for integers, Bools and None. Partial: a BTreeSet must not be empty (its Display panics, C108), and the property fails for Strings, which are shown unquoted (C163_strings_fails)."
  },
  {
   "property": "C164",
   "status": "proved",
   "theorems": [
    "Gost.C164_safe",
    "Gost.C164_no_deadlock",
    "Gost.C164_all_end",
    "Gost.C164_terminates",
    "Gost.C164_exclusive",
    "Gost.C164_await_locked",
    "Gost.C164_fib"
   ],
   "note": "Proved for all programs that keep to the discipline and all schedules; C164_await_locked shows that holding a Mutex while awaiting a task that locks it hangs."
  },
  {
   "property": "C165",
   "status": "proved",
   "theorems": [
    "Gost.C165_total",
    "Gost.C165_unlocked",
    "Gost.C165_shown",
    "Gost.C165_fib",
    "Gost.C165_tickets"
   ],
   "note": "Proved for all programs that keep to the ranking; C165_fib and C165_tickets apply it to programs with any number of tasks."
  },
  {
   "property": "C166",
   "status": "proved",
   "theorems": [
    "Gost.C166_discipline",
    "Gost.C166_closed",
    "Gost.C166_parts",
    "Gost.C166_await",
    "Gost.C166_tasks",
    "Gost.C166_mutex",
    "Gost.C166_impatient",
    "Gost.C166_transactions",
    "Gost.C166_backoff",
    "Gost.C166_shared",
    "Gost.C166_forkJoin"
   ],
   "note": "Proved. C166_discipline is the general rule, C166_parts, C166_await, C166_tasks, C166_mutex, C166_transactions, C166_shared and C166_forkJoin its applications, C166_impatient the racy execution without waiting. Channels are unbuffered, as in the library."
  },
  {
   "property": "C167",
   "status": "proved",
   "theorems": [
    "Gost.C167_serializable",
    "Gost.C167_no_deadlock",
    "Gost.C167_terminates",
    "Gost.C167_invariant",
    "Gost.C167_uncontended",
    "Gost.C167_any_order",
    "Gost.C167_both_give_up",
    "Gost.C167_philosophers"
   ],
   "note": "C167_serializable, C167_no_deadlock, C167_terminates, C167_invariant, C167_uncontended, C167_any_order hold for all programs of this form; C167_philosophers is an instance for any number of philosophers. C167_both_give_up shows that success is not promised. The number of attempts is finite in every program (Client is inductive): a goroutine that tries again for ever can livelock, about which nothing is claimed."
  },
  {
   "property": "C168",
   "status": "proved",
   "theorems": [
    "Gost.C168_atomic",
    "Gost.C168_priority_queue",
    "Gost.C168_map",
    "Gost.C168_claim"
   ],
   "note": "for every schedule; the heap without bound on its size; HashMap while entries and calls are fewer than 2^64"
  },
  {
   "property": "C169",
   "status": "proved",
   "theorems": [
    "Gost.C169_lock",
    "Gost.C169_lock_free",
    "Gost.C169_one_winner",
    "Gost.C169_claims",
    "Gost.C169_linked"
   ],
   "note": "Absolute paths without symbolic links. One call is one atomic step, as mkdir, rename, unlink and rmdir are; os.Rename's look at the new name before the system call is taken as part of the step."
  },
  {
   "property": "C170",
   "status": "partial",
   "theorems": [
    "Gost.C170_exclusion",
    "Gost.C170_lost",
    "Gost.C170_dropped_fails"
   ],
   "note": "First half proved for arbitrary programs (C170_exclusion). The documented release is violated: nothing unlocks the Mutex but Unlock; C170_lost shows that it then stays locked for ever in any program, C170_dropped_fails gives the executions for the clients of C81."
  },
  {
   "property": "C171",
   "status": "proved",
   "theorems": [
    "Gost.C171_distinct",
    "Gost.C171_search",
    "Gost.C171_heap"
   ],
   "note": "Elements that compare equal may be exchanged (SameBy Eq); with an Eq that is identity the lists are the same."
  },
  {
   "property": "C172",
   "status": "partial",
   "theorems": [
    "Gost.C172_maps_partial",
    "Gost.C172_few_keys_partial",
    "Gost.C172_maps_fails",
    "Gost.C172_sets_partial"
   ],
   "note": "Partial: holds for the histories a BTreeMap can take (C72, C74, C76); fails from the twelfth key on, `C172_maps_fails`."
  },
  {
   "property": "C173",
   "status": "proved",
   "theorems": [
    "Gost.C173_confined"
   ],
   "note": "Inside counts a file with a second hard link outside: writing to it shows there. Examples show that `..` and a symbolic link below the directory lead out. Permissions are not modelled (they could only make calls fail)."
  },
  {
   "property": "C174",
   "status": "proved",
   "theorems": [
    "Gost.C174_location",
    "Gost.C174_undisturbed",
    "Gost.C174_moved",
    "Gost.C174_listing",
    "Gost.C174_listing_undisturbed"
   ],
   "note": "Paths must be short enough for both places, or the directories equally deep (`Fits`): the kernel limits the number of steps. Read of a directory is excluded in (1): what it returns depends on the size the file system reports. Calls are interleaved whole; the system calls of a Write are not separated here (C176 does that)."
  },
  {
   "property": "C175",
   "status": "proved",
   "theorems": [
    "Gost.C175_createDir",
    "Gost.C175_copy",
    "Gost.C175_write",
    "Gost.C175_rename",
    "Gost.C175_unnoticed"
   ],
   "note": "Rename onto an existing file cannot be undone, and RemoveFile after a Write through a symbolic link to a missing name removes the link and not the file; both are shown as examples."
  },
  {
   "property": "C176",
   "status": "proved",
   "theorems": [
    "Gost.C176_apart",
    "Gost.C176_atonce",
    "Gost.C176_finishes"
   ],
   "note": "For absolute paths without .. below the directory; directories have a size other than 0."
  },
  {
   "property": "C177",
   "status": "proved",
   "theorems": [
    "Gost.C177_shared",
    "Gost.C177_atonce",
    "Gost.C177_finishes"
   ],
   "note": "For absolute paths without .. below the directories; directories have a size other than 0."
  }
 ]
}
