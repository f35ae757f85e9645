{
 "claims": [
  {
   "property": "C01",
   "status": "proved",
   "theorems": [
    "Verif.HMap.C01_map_is_ordered_dictionary",
    "Verif.HMap.C01_get_after_put",
    "Verif.HMap.C01_get_after_remove",
    "Verif.HMap.C01_views_agree"
   ],
   "note": "Pointer-level model of internal/map.go refines an insertion-ordered dictionary, for every program of regular calls, every capacity and every hash consistent with Equals."
  },
  {
   "property": "C02",
   "status": "proved",
   "theorems": [
    "Verif.HMap.C02_put_order",
    "Verif.HMap.C02_putAll_order",
    "Verif.HMap.C02_remove_order",
    "Verif.HMap.C02_removeAll_order",
    "Verif.HMap.C02_readd_goes_last"
   ],
   "note": "Order of iteration after Put, PutAll, Remove, RemoveAll and re-adding, in every reachable heap."
  },
  {
   "property": "C03",
   "status": "partial",
   "theorems": [
    "Verif.HMap.C03_existing_maps_untouched",
    "Verif.HMap.C03_with_partial",
    "Verif.HMap.C03_with_nil_is_lost",
    "Verif.HMap.C03_without",
    "Verif.HMap.C03_withoutAll",
    "Verif.HMap.C03_merge",
    "Verif.HMap.C03_map",
    "Verif.HMap.C03_copy"
   ],
   "note": "Proved for all operations, except With(k, nil), for which the claim is false (C03_with_nil_is_lost)."
  },
  {
   "property": "C04",
   "status": "proved",
   "theorems": [
    "Verif.HMap.C04_maps_are_independent"
   ],
   "note": "Every map is independent of all later calls on other maps. Maps made by ToMapFromEntries from the entries of another map are outside (C05_entries_are_shared shows that they do share nodes)."
  },
  {
   "property": "C05",
   "status": "partial",
   "theorems": [
    "Verif.HMap.C05_repeated_keys",
    "Verif.HMap.C05_list_into_map",
    "Verif.HMap.C05_map_from_list_partial",
    "Verif.HMap.C05_repeated_keys_fail",
    "Verif.HMap.C05_entries_are_shared"
   ],
   "note": "Proved for lists without repeated keys; the claim is false with repeated keys (C05_repeated_keys_fail) and for ToMapFromEntries on entries of another map (C05_entries_are_shared). For every list, C05_repeated_keys says what the map answers and C05_list_into_map what putting it into another map gives."
  },
  {
   "property": "C06",
   "status": "proved",
   "theorems": [
    "Verif.HMap.C06_table_size",
    "Verif.HMap.C06_slot_inside",
    "Verif.HMap.C06_reachable_tables"
   ],
   "note": "All 64-bit capacities and hash codes."
  },
  {
   "property": "C07",
   "status": "proved",
   "theorems": [
    "Verif.Value.C07_equal_iff_same_mapping",
    "Verif.Value.C07_order_does_not_matter",
    "Verif.Value.C07_equal_maps_same_hash"
   ],
   "note": "All maps without NaN and with different keys; map equality is equality of the lookup functions."
  },
  {
   "property": "C08",
   "status": "proved",
   "theorems": [
    "Verif.Value.C08_equals_is_equivalence",
    "Verif.Value.C08_nan_is_not_reflexive",
    "Verif.Value.C08_repeated_keys_not_symmetric"
   ],
   "note": "All trees of values; NaN and maps with repeated keys are excluded, with witnesses that they have to be."
  },
  {
   "property": "C09",
   "status": "partial",
   "theorems": [
    "Verif.Graph.C09_cyclic_hash_differs",
    "Verif.Value.C09_equal_values_same_hash_partial"
   ],
   "note": "Proved for all acyclic values that are not types. False for cyclic arrays (C09_cyclic_hash_differs) and for types."
  },
  {
   "property": "C10",
   "status": "proved",
   "theorems": [
    "Verif.Value.C10_comparison_laws",
    "Verif.Value.C10_strictly_transitive",
    "Verif.Value.C10_string_order",
    "Verif.Value.C10_nil_is_smallest",
    "Verif.Value.C10_mixed_numbers_not_transitive"
   ],
   "note": "All kinds, arrays nested to any depth; mixing integers and floats is shown not to be transitive."
  },
  {
   "property": "C11",
   "status": "partial",
   "theorems": [
    "Verif.Arr.C11_sort_leaves_receiver",
    "Verif.Value.C11_sort_keeps_elements",
    "Verif.Value.C11_sort_orders",
    "Verif.Value.C11_sort_is_stable",
    "Verif.Value.C11_mixed_partial",
    "Verif.Value.C11_any_sort",
    "Verif.Value.C11_any_mixed_partial",
    "Verif.Value.C11_nil_violated"
   ],
   "note": "sort.SliceStable is modelled by insertion sort; any other stable sort yields the same (C11_any_sort, C11_any_mixed_partial), so the algorithm of the Go library matters only where the order is no order. That the receiver is unchanged is C11_sort_leaves_receiver in Verif/Arr. Values of different types are C11_mixed_partial; violated for nil beside values that cannot be compared (C11_nil_violated)."
  },
  {
   "property": "C12",
   "status": "proved",
   "theorems": [
    "Verif.Arr.C12_frozen_array_mutators_panic",
    "Verif.HMap.C12_frozen_map_mutators_panic"
   ],
   "note": "All mutators of frozen arrays and frozen maps panic and leave the heap exactly as it was, in every heap. PutAll with an empty argument on a frozen map does nothing instead (as the property says)."
  },
  {
   "property": "C13",
   "status": "partial",
   "theorems": [
    "Verif.Arr.C13_frozen_never_changes_partial",
    "Verif.Arr.C13_with_overwrites_frozen",
    "Verif.Arr.C13_mutable_receiver_overwrites_frozen",
    "Verif.Arr.C13_goSlice_before_freeze",
    "Verif.Arr.C13_remove_makes_nil_element"
   ],
   "note": "Proved for every history of calls that do not extend an array in place. The claim is false for With on slices, for GoSlice before Freeze, and for Freeze of an array derived from a mutable one (C13_with_overwrites_frozen, C13_mutable_receiver_overwrites_frozen, C13_goSlice_before_freeze, C13_remove_makes_nil_element)."
  },
  {
   "property": "C14",
   "status": "partial",
   "theorems": [
    "Verif.Arr.C14_with_is_independent_partial",
    "Verif.Arr.C14_with_shares_spare_capacity",
    "Verif.Arr.C14_frozen_with_shares_spare_capacity",
    "Verif.Arr.C14_other_derivations",
    "Verif.Arr.C14_new",
    "Verif.Arr.C14_copy",
    "Verif.Arr.C14_with_results",
    "Verif.Arr.C14_filter_results"
   ],
   "note": "Proved when the receiver has no spare capacity, for every growth policy; false otherwise (C14_with_shares_spare_capacity, C14_frozen_with_shares_spare_capacity). The other derivations are always independent."
  },
  {
   "property": "C15",
   "status": "proved",
   "theorems": [
    "Verif.Arr.C15_add",
    "Verif.Arr.C15_insert",
    "Verif.Arr.C15_set_get",
    "Verif.Arr.C15_remove",
    "Verif.Arr.C15_removeValue",
    "Verif.Arr.C15_pop",
    "Verif.Arr.C15_slice_beyond_length",
    "Verif.Arr.C15_slice_partial",
    "Verif.Arr.C15_observers"
   ],
   "note": "Every reachable heap, whatever storage is shared, every growth policy. Slice beyond the length is shown not to panic (C15_slice_beyond_length)."
  },
  {
   "property": "C16",
   "status": "partial",
   "theorems": [
    "Verif.Value.C16_sameValues",
    "Verif.Value.C16_containsAll_partial",
    "Verif.Value.C16_containsAll_misses_later_elements"
   ],
   "note": "SameValues is proved. ContainsAll is proved sound and exactly characterised; its completeness is false (C16_containsAll_misses_later_elements)."
  },
  {
   "property": "C17",
   "status": "proved",
   "theorems": [
    "Verif.Value.C17_unique",
    "Verif.Value.C17_unique_values"
   ],
   "note": "Bucket table modelled; every hash function consistent with Equals."
  },
  {
   "property": "C18",
   "status": "proved",
   "theorems": [
    "Verif.Value.C18_flatten"
   ],
   "note": "All nesting depths."
  },
  {
   "property": "C19",
   "status": "proved",
   "theorems": [
    "Verif.Value.C19_indexOf",
    "Verif.Value.C19_select_reject",
    "Verif.Value.C19_all_any_one",
    "Verif.Value.C19_map_reduce_find"
   ],
   "note": "All arrays and pure callbacks."
  },
  {
   "property": "C20",
   "status": "partial",
   "theorems": [
    "Verif.Graph.C20_deep_partial",
    "Verif.Graph.C20_nothing_else",
    "Verif.Graph.C20_stays",
    "Verif.Graph.C20_returns_partial",
    "Verif.Graph.C20_stops_at_frozen",
    "Verif.Graph.C20_diverges"
   ],
   "note": "Proved for every object graph, cyclic ones included, in which frozen collections contain nothing mutable; permanence for all later calls. The claim is false where a frozen collection already contains a mutable one (C20_stops_at_frozen), and Freeze does not return on an entry that is its own value (C20_diverges)."
  },
  {
   "property": "C21",
   "status": "proved",
   "theorems": [
    "Verif.Graph.C21_frozen_copy",
    "Verif.Graph.C21_cyclic_diverges"
   ],
   "note": "All acyclic graphs in which frozen collections contain only frozen things and no map has a repeated key."
  },
  {
   "property": "C22",
   "status": "partial",
   "theorems": [
    "Verif.Graph.C22_safe_partial",
    "Verif.Graph.C22_with_breaks",
    "Verif.Graph.C22_map_breaks",
    "Verif.Graph.C22_withAll_breaks",
    "Verif.Graph.C22_mapWith_breaks",
    "Verif.Graph.C22_mapMap_breaks",
    "Verif.Graph.C22_merge_breaks",
    "Verif.Graph.C22_entry_thawedCopy_breaks",
    "Verif.Graph.C22_panicking_freeze_breaks",
    "Verif.Graph.C22_shared_entry_breaks"
   ],
   "note": "Proved for all programs of the calls that SafeOp describes; the claim is false for the others, with a witness for each (C22_*_breaks)."
  },
  {
   "property": "C23",
   "status": "partial",
   "theorems": [
    "Verif.Graph.C23_thawed_copy_partial",
    "Verif.Graph.C23_entry_is_changed"
   ],
   "note": "Proved for all acyclic values in which map entries are not elements; false for map entries (C23_entry_is_changed)."
  },
  {
   "property": "C24",
   "status": "partial",
   "theorems": [
    "Verif.Types.C24_instance_partial",
    "Verif.Types.C24_refused",
    "Verif.Types.C24_violated"
   ],
   "note": "Instance = range for every pair of bounds except the full 64-bit range with exclusive end, for which the code is proved to accept MaxInt64 (C24_violated)."
  },
  {
   "property": "C25",
   "status": "partial",
   "theorems": [
    "Verif.Types.C25_int_partial",
    "Verif.Types.C25_exact_violated",
    "Verif.Types.C25_float_sound_partial",
    "Verif.Types.C25_float_complete_partial",
    "Verif.Types.C25_float_violated",
    "Verif.Types.C25_nan_violated"
   ],
   "note": "Integers: proved for proper ranges. Assigning to the type of one number, an inclusive float range from an exclusive one, and NaN bounds violate it (witnesses proved); floats are sound, and complete but for these."
  },
  {
   "property": "C26",
   "status": "partial",
   "theorems": [
    "Verif.Types.C26_sound_partial",
    "Verif.Types.C26_sound_nested_partial",
    "Verif.Types.C26_sound_not_partial",
    "Verif.Types.C26_violated"
   ],
   "note": "False in general: eight proved witnesses (guard, variadic tuples, additional keys, oneOf, not, empty allOf). Proved for two large classes of types where the guard is not hit."
  },
  {
   "property": "C27",
   "status": "partial",
   "theorems": [
    "Verif.Types.C27_reflexive_partial",
    "Verif.Types.C27_nan_violated",
    "Verif.Types.C27_all_of_in_order",
    "Verif.Types.C27_equal_violated",
    "Verif.Types.C27_transitive_partial",
    "Verif.Types.C27_struct_violated",
    "Verif.Types.C27_ci_violated",
    "Verif.Types.C27_transitive_values_partial"
   ],
   "note": "Reflexive but for NaN bounds; transitivity is false for structs and case insensitive strings (witnesses), proved for scalar, array, map and sensitive types, and with unions and tuples in the third type (C27_transitive_values_partial, from C26 and C107)."
  },
  {
   "property": "C28",
   "status": "proved",
   "theorems": [
    "Verif.Types.C28_own_type",
    "Verif.Types.C28_nan_excluded"
   ],
   "note": "For all values without NaN and with distinct map keys; identities, recursion guard and generic types included."
  },
  {
   "property": "C29",
   "status": "proved",
   "theorems": [
    "Verif.Types.C29_any_of",
    "Verif.Types.C29_all_of",
    "Verif.Types.C29_one_of",
    "Verif.Types.C29_not"
   ],
   "note": "AnyOf, AllOf, OneOf, Not including the constructor simplifications for 0 and 1 operands."
  },
  {
   "property": "C30",
   "status": "proved",
   "theorems": [
    "Verif.Text.C30_characters_partial",
    "Verif.Text.C30_characters_violated",
    "Verif.Types.C30_string",
    "Verif.Types.C30_binary",
    "Verif.Types.C30_array",
    "Verif.Types.C30_array_panics",
    "Verif.Types.C30_map"
   ],
   "note": "Strings, binaries, arrays, maps; the array constructor panics exactly for one element of nil type (C30_array_panics). Sizes of strings count bytes; where the documentation says characters, C30_characters_violated."
  },
  {
   "property": "C31",
   "status": "proved",
   "theorems": [
    "Verif.Types.C31_tuple",
    "Verif.Types.C31_variadic"
   ],
   "note": "Exact and variadic tuples, including the simplification to exact array types."
  },
  {
   "property": "C32",
   "status": "partial",
   "theorems": [
    "Verif.Types.C32_instance_partial",
    "Verif.Types.C32_duplicates_violated",
    "Verif.Types.C32_validate_partial",
    "Verif.Types.C32_verbose_agrees",
    "Verif.Types.C32_validate_answers",
    "Verif.Types.C32_validate_violated",
    "Verif.Types.C32_keys_violated"
   ],
   "note": "Instance needs distinct declared keys (C32_duplicates_violated). Validate agrees with Instance unless additional keys are allowed or an exact map holds sensitive values (C32_validate_violated), and panics for keys that are nil or sensitive (C32_keys_violated). ValidateVerbose always agrees with Validate."
  },
  {
   "property": "C33",
   "status": "partial",
   "theorems": [
    "Verif.Types.C33_new_partial",
    "Verif.Types.C33_keeps_instances",
    "Verif.Types.C33_sensitive_violated"
   ],
   "note": "All types except sensitive, which is proved to violate it."
  },
  {
   "property": "C34",
   "status": "partial",
   "theorems": [
    "Verif.Types.C34_keeps_partial",
    "Verif.Types.C34_refused",
    "Verif.Types.C34_wraps_violated"
   ],
   "note": "Numbers up to MaxInt64 kept; only MaxUint64 refused; all others above MaxInt64 are proved to wrap (C34_wraps_violated)."
  },
  {
   "property": "C35",
   "status": "partial",
   "theorems": [
    "Verif.Text.C35_instances_partial",
    "Verif.Text.C35_same_text_partial",
    "Verif.Text.C35_partial",
    "Verif.Text.C35_injective_partial",
    "Verif.Text.C35_stable_partial",
    "Verif.Text.C35_violated"
   ],
   "note": "Round trip proved for RtTy: all nestings of the operators, arrays, maps, tuples, structs, ranges, sizes and literals, except the cases that are not read back (C35_violated, DESIGN.md). C35_instances_partial says the same through the instances of the type read back, C35_same_text_partial that types with the same text have the same instances. Function types are C96, values of named types C79, names of an alias map C126; time, regexp and sized binary types are printed in a form the parser does not know as types."
  },
  {
   "property": "C36",
   "status": "partial",
   "theorems": [
    "Verif.Text.C36_raw",
    "Verif.Text.C36_partial",
    "Verif.Text.C36_violated"
   ],
   "note": "Quoted strings of printable characters and the escapes the lexer knows are read back and all others are rejected (never read as another string); full claim violated: C36_violated"
  },
  {
   "property": "C37",
   "status": "partial",
   "theorems": [
    "Verif.Text.C37_partial",
    "Verif.Text.C37_violated"
   ],
   "note": "Exactly the sources without backslash, control characters and U+FFFD are read back; full claim violated: C37_violated"
  },
  {
   "property": "C38",
   "status": "proved",
   "theorems": [
    "Verif.Text.C38_token",
    "Verif.Text.C38_ranges"
   ],
   "note": "Every integer token and every result of IntegerType, over the models of the printer, the lexer and the parser."
  },
  {
   "property": "C39",
   "status": "proved",
   "theorems": [
    "Verif.Text.C39_progress",
    "Verif.Text.C39_total"
   ],
   "note": "Every text reaches the end token or an error; every token consumes at least one character"
  },
  {
   "property": "C40",
   "status": "partial",
   "theorems": [
    "Verif.Text.C40_texts",
    "Verif.Text.C40_reader",
    "Verif.Text.C40_column_partial",
    "Verif.Text.C40_column_violated"
   ],
   "note": "Results of Next/Peek/Peek2/Rewind in any order and Line for all texts; Column is one too large after the first line: C40_column_violated"
  },
  {
   "property": "C41",
   "status": "proved",
   "theorems": [
    "Verif.Conc.Alias.C41_not_lost",
    "Verif.Conc.Alias.C41_origin",
    "Verif.Conc.Alias.C41_stays",
    "Verif.Conc.Alias.C41_exclusive"
   ],
   "note": "State machine of concurrent AddAliases calls on one shared map; all schedules. typeNames (the inverse map) and the insides of type objects are not modelled."
  },
  {
   "property": "C42",
   "status": "proved",
   "theorems": [
    "Verif.Conc.Named.C42_at_most_one",
    "Verif.Conc.Named.C42_exactly_one",
    "Verif.Conc.Named.C42_winner_stays"
   ],
   "note": "State machine of concurrent registrations and lookups on a sync.Map; LoadOrStore and Load are atomic by the documentation of sync.Map."
  },
  {
   "property": "C43",
   "status": "proved",
   "theorems": [
    "Verif.Conc.Loader.C43_agree",
    "Verif.Conc.Loader.C43_cached",
    "Verif.Conc.Loader.C43_fixed"
   ],
   "note": "State machine of concurrent Get calls, with and without finder; Equals is the modelled equality of values without NaN."
  },
  {
   "property": "C44",
   "status": "proved",
   "theorems": [
    "Verif.Conc.Namespace.C44_same",
    "Verif.Conc.Namespace.C44_for_ever"
   ],
   "note": "State machine of concurrent Namespace calls; the creator may return anything."
  },
  {
   "property": "C45",
   "status": "proved",
   "theorems": [
    "Verif.Conc.Tree.C45_segments",
    "Verif.Conc.Tree.C45_child"
   ],
   "note": "Load of a child loader for all names; a loader is a function from keys and namespace names."
  },
  {
   "property": "C46",
   "status": "partial",
   "theorems": [
    "Verif.Stream.C46_collected_partial",
    "Verif.Stream.C46_equal_partial",
    "Verif.Stream.C46_decoded_partial",
    "Verif.Stream.C46_string_once_partial",
    "Verif.Stream.C46_graph_partial",
    "Verif.Stream.C46_once_partial",
    "Verif.Stream.C46_backward_partial",
    "Verif.Stream.C46_violated_ref",
    "Verif.Stream.C46_violated_cycle"
   ],
   "note": "Every finite value at every level and threshold (C46_collected, C46_equal, C46_decoded), every graph with cycles at levels other than NoDedup (C46_graph), every object once (C46_once), references point backwards (C46_backward). Missing: maps that look like references (C46_violated_ref) and cycles at NoDedup (C46_violated_cycle), for which the property is false; named types, functions, errors and native values."
  },
  {
   "property": "C47",
   "status": "partial",
   "theorems": [
    "Verif.Stream.C47_grammar_partial",
    "Verif.Stream.C47_marshalJSON",
    "Verif.Stream.C47_violated_alias"
   ],
   "note": "For every value the tokens written are one JSON value of the grammar; unconditional for MarshalJSON (no alias map). With an alias map it must know the names of all types (C47_violated_alias). The bytes of the tokens are in C84."
  },
  {
   "property": "C48",
   "status": "partial",
   "theorems": [
    "Verif.Stream.C48_round_partial",
    "Verif.Stream.C48_violated_shared",
    "Verif.Stream.C48_violated_type_key",
    "Verif.Stream.C48_violated_ref_key",
    "Verif.Stream.C48_violated_float",
    "Verif.Stream.C48_violated_nan",
    "Verif.Stream.C48_violated_utf8",
    "Verif.Stream.C48_violated_pcore",
    "Verif.Stream.C48_violated_loop"
   ],
   "note": "Round trip for all finite rich values at every level of de-duplication, both dialects, under hypotheses each of which is shown to be needed by a C48_violated_* theorem: rich values not shared (or no de-duplication), no reserved keys, valid UTF-8, no integral or non-finite floats, nothing de-duplicated with pcore."
  },
  {
   "property": "C49",
   "status": "proved",
   "theorems": [
    "Verif.Print.C49_redacted"
   ],
   "note": "noninterference of String and Indent for arrays, maps, entries and sensitive values"
  },
  {
   "property": "C50",
   "status": "proved",
   "theorems": [
    "Verif.Binary.C50_frozen",
    "Verif.Binary.C50_made",
    "Verif.Binary.C50_read",
    "Verif.Binary.C50_wrapped",
    "Verif.Binary.C50_freeze",
    "Verif.Binary.C50_copy",
    "Verif.Binary.C50_goBytes",
    "Verif.Binary.C50_text",
    "Verif.Binary.C50_text_unique",
    "Verif.Binary.C50_url",
    "Verif.Binary.C50_raw"
   ],
   "note": ""
  },
  {
   "property": "C51",
   "status": "partial",
   "theorems": [
    "Verif.Graph.C51_returns",
    "Verif.Graph.C51_indistinguishable_equal",
    "Verif.Graph.C51_symmetric_partial",
    "Verif.Graph.C51_not_symmetric"
   ],
   "note": "Termination proved for all object graphs; indistinguishable values are equal; symmetry proved for acyclic values and false for cyclic ones (C51_not_symmetric)."
  },
  {
   "property": "C52",
   "status": "partial",
   "theorems": [
    "Verif.Print.C52_text",
    "Verif.Print.C52_no_blanks",
    "Verif.Print.C52_concat_partial",
    "Verif.Print.C52_order",
    "Verif.Print.C52_texts",
    "Verif.Print.C52_violated"
   ],
   "note": "All that String returns for every sequence of calls (C52_texts), the buffer (C52_order), no blanks at ends of lines (C52_no_blanks). Missing: String drains the buffer and strips blanks before line breaks, so reading twice gives the empty text and blanks are lost (C52_violated)."
  },
  {
   "property": "C53",
   "status": "partial",
   "theorems": [
    "Verif.Conc.Alias.C53_clean_partial",
    "Verif.Conc.Alias.C53_violated"
   ],
   "note": "Holds when no alias is added for another alias that is added by the same call; C53_violated is a chain of two aliases that stays unresolved."
  },
  {
   "property": "C54",
   "status": "proved",
   "theorems": [
    "Verif.Text.C54_total"
   ],
   "note": "Fuel bounded by the number of tokens is never used up"
  },
  {
   "property": "C55",
   "status": "partial",
   "theorems": [
    "Verif.Text.C55_partial",
    "Verif.Text.C55_violated"
   ],
   "note": "control characters and NUL are accepted (C55_violated)"
  },
  {
   "property": "C56",
   "status": "partial",
   "theorems": [
    "Verif.Print.C56_ends",
    "Verif.Print.C56_fuel",
    "Verif.Print.C56_shared",
    "Verif.Print.C56_marker",
    "Verif.Print.C56_begins_partial",
    "Verif.Print.C56_entry_violated"
   ],
   "note": "Proved: printing ends, values that are only shared are printed in full, a value met inside itself is the marker. Missing: the entry of a map is printed once more inside itself (C56_entry_violated)."
  },
  {
   "property": "C57",
   "status": "partial",
   "theorems": [
    "Verif.Text.C57_partial",
    "Verif.Text.C57_violated",
    "Verif.Text.C57_wrong_violated"
   ],
   "note": "literals out of range and malformed ones are accepted (C57_violated); which integer a literal out of range or with digits that are none becomes is shown (C57_wrong_violated)"
  },
  {
   "property": "C58",
   "status": "partial",
   "theorems": [
    "Verif.Types.C58_same_partial",
    "Verif.Types.C58_violated",
    "Verif.Types.C58_asymmetric"
   ],
   "note": "Proved for types that share no parts and have no sensitive values in exact types; false otherwise (witnesses)."
  },
  {
   "property": "C59",
   "status": "proved",
   "theorems": [
    "Verif.Types.C59_congruence"
   ],
   "note": "For all types made by the constructors and all values without NaN."
  },
  {
   "property": "C60",
   "status": "partial",
   "theorems": [
    "Verif.Types.C60_hash_partial",
    "Verif.Types.C60_same_partial",
    "Verif.Types.C60_violated"
   ],
   "note": "Proved for all types without logical operations, tuples of exact types only, and sensitive values in exact types, also with shared parts; types of any form made in the same way have the same hash code (C60_same_partial); false for the rest (C60_violated)."
  },
  {
   "property": "C61",
   "status": "proved",
   "theorems": [
    "Verif.Pcore.C61_total"
   ],
   "note": "For all texts; a panic of the code is an error of the model."
  },
  {
   "property": "C62",
   "status": "partial",
   "theorems": [
    "Verif.Pcore.C62_tuple_sizes_partial",
    "Verif.Pcore.C62_pattern_strings",
    "Verif.Pcore.C62_partial",
    "Verif.Pcore.C62_float_violated",
    "Verif.Pcore.C62_undef_violated",
    "Verif.Pcore.C62_tuple_violated",
    "Verif.Pcore.C62_number_violated",
    "Verif.Pcore.C62_default_violated"
   ],
   "note": "Proved from the text to the instances for all expressions of Pt that are Ok (limits in order, Number with exact limits, no bare Undef in arrays, tuples and structs), for patterns in strings, and for the sizes of tuples as the code treats them; named types, Callable and calls are not modelled; false for the expressions in the C62_..._violated theorems."
  },
  {
   "property": "C63",
   "status": "partial",
   "theorems": [
    "Verif.Pcore.C63_entry_partial",
    "Verif.Pcore.C63_entries_partial",
    "Verif.Pcore.C63_partial",
    "Verif.Pcore.C63_violated"
   ],
   "note": "Proved for all values without types, binaries, times and sensitive values, for lists with entries (scalar keys), and for a single entry; strings, floats and regular expressions must be ones that are read back (C36, C37). False for repeated keys in a hash (C63_violated)."
  },
  {
   "property": "C64",
   "status": "proved",
   "theorems": [
    "Verif.Pcore.C64_layout"
   ],
   "note": "For all texts that are sequences of words, literals and punctuation, accepted or not."
  },
  {
   "property": "C65",
   "status": "partial",
   "theorems": [
    "Verif.Pcore.C65_partial",
    "Verif.Pcore.C65_violated"
   ],
   "note": "Proved for texts without U+0000 - U+0007; false for these (C65_violated)."
  },
  {
   "property": "C66",
   "status": "partial",
   "theorems": [
    "Verif.Reflect.C66_partial",
    "Verif.Reflect.C66_interface_partial",
    "Verif.Reflect.C66_violated"
   ],
   "note": "Proved for variables that can hold the value (Survives) and for interface{} without times; violated by truncation, zero values of nil, []byte and times."
  },
  {
   "property": "C67",
   "status": "partial",
   "theorems": [
    "Verif.Reflect.C67_partial",
    "Verif.Reflect.C67_violated"
   ],
   "note": "Proved for readable values whose interfaces hold the types that dgo chooses (Known, Returns); violated otherwise."
  },
  {
   "property": "C68",
   "status": "partial",
   "theorems": [
    "Verif.Reflect.C68_typed",
    "Verif.Reflect.C68_nil",
    "Verif.Reflect.C68_total_partial",
    "Verif.Reflect.C68_violated"
   ],
   "note": "Type correctness proved for all; totality for maps without arrays, maps or binaries as keys, violated with them."
  },
  {
   "property": "C69",
   "status": "partial",
   "theorems": [
    "Verif.Reflect.C69_partial",
    "Verif.Reflect.C69_violated"
   ],
   "note": "Proved for scalar key types; violated for interface{} keys and NaN."
  },
  {
   "property": "C70",
   "status": "partial",
   "theorems": [
    "Verif.Reflect.C70_partial",
    "Verif.Reflect.C70_violated"
   ],
   "note": "Proved for keys of one ordered kind; violated for times, which have no order."
  },
  {
   "property": "C71",
   "status": "partial",
   "theorems": [
    "Verif.Reflect.C71_view_partial",
    "Verif.Reflect.C71_lookup_partial",
    "Verif.Reflect.C71_run_partial",
    "Verif.Reflect.C71_put_partial",
    "Verif.Reflect.C71_frozen",
    "Verif.Reflect.C71_derived_partial",
    "Verif.Reflect.C71_equals_partial",
    "Verif.Reflect.C71_put_violated",
    "Verif.Reflect.C71_embedded_violated",
    "Verif.Reflect.C71_value_violated"
   ],
   "note": "structs without embedded structs whose fields can be read; the rest is C71_*_violated"
  },
  {
   "property": "C72",
   "status": "partial",
   "theorems": [
    "Verif.Reflect.Alias.C72_frozen_partial",
    "Verif.Reflect.Alias.C72_copies",
    "Verif.Reflect.Alias.C72_thawed",
    "Verif.Reflect.Alias.C72_original",
    "Verif.Reflect.Alias.C72_live",
    "Verif.Reflect.Alias.C72_slice_violated",
    "Verif.Reflect.Alias.C72_goStruct_violated"
   ],
   "note": "elements of slices in frozen structs, and GoStruct on frozen copies, are excluded: C72_slice_violated, C72_goStruct_violated"
  },
  {
   "property": "C73",
   "status": "partial",
   "theorems": [
    "Verif.Reflect.C73_fits_partial",
    "Verif.Reflect.C73_kept_partial",
    "Verif.Reflect.C73_read",
    "Verif.Reflect.C73_total",
    "Verif.Reflect.C73_violated"
   ],
   "note": "Types with pointers to pointers or to interface{} are outside of the first part (false there, see C73_violated); what is read is characterised exactly."
  },
  {
   "property": "C74",
   "status": "partial",
   "theorems": [
    "Verif.Reflect.C74_call",
    "Verif.Reflect.C74_arguments",
    "Verif.Reflect.C74_in",
    "Verif.Reflect.C74_accepted_partial",
    "Verif.Reflect.C74_kept_partial",
    "Verif.Reflect.C74_results_partial",
    "Verif.Reflect.C74_nil",
    "Verif.Reflect.C74_identity_partial",
    "Verif.Reflect.C74_arity_partial",
    "Verif.Reflect.C74_covariant_violated"
   ],
   "note": "Arguments: as C73.  That instances of a function type can be called as the type says is false (C74_covariant_violated); only the numbers of parameters and results are proved for them."
  },
  {
   "property": "C75",
   "status": "partial",
   "theorems": [
    "Verif.Types.C75_accepts_partial",
    "Verif.Types.C75_idempotent",
    "Verif.Types.C75_unchanged",
    "Verif.Types.C75_total_partial",
    "Verif.Types.C75_nil_violated",
    "Verif.Types.C75_own",
    "Verif.Types.C75_scalar",
    "Verif.Types.C75_array",
    "Verif.Types.C75_map",
    "Verif.Types.C75_struct_violated",
    "Verif.Types.C75_binary_violated",
    "Verif.Types.C75_nested_violated",
    "Verif.Types.C75_order"
   ],
   "note": "Instances of a type are instances of Generic of it: proved for exact types, tuples, closed structs and allOf of each other and of types of scalars, arrays and maps; false for structs with additional keys and for typ.AllOf (witnesses). Idempotence and the exact description for scalars, arrays and maps of scalars hold outright."
  },
  {
   "property": "C76",
   "status": "partial",
   "theorems": [
    "Verif.Types.C76_int",
    "Verif.Types.C76_int_unique",
    "Verif.Types.C76_radix",
    "Verif.Types.C76_int_round",
    "Verif.Types.C76_bool",
    "Verif.Types.C76_bool_round",
    "Verif.Types.C76_binary",
    "Verif.Types.C76_encodings",
    "Verif.Types.C76_binary_refused",
    "Verif.Types.C76_array",
    "Verif.Types.C76_map_partial",
    "Verif.Types.C76_map_violated"
   ],
   "note": "Integers, booleans, binaries and arrays outright; arrays of keys and values to maps when no key is repeated; the refusal of what is no map is proved to be violated."
  },
  {
   "property": "C77",
   "status": "partial",
   "theorems": [
    "Verif.Types.C77_size_partial",
    "Verif.Types.C77_exact",
    "Verif.Types.C77_ci_violated",
    "Verif.Types.C77_array",
    "Verif.Types.C77_map",
    "Verif.Types.C77_unbounded_partial",
    "Verif.Types.C77_unbounded_violated",
    "Verif.Types.C77_element_partial",
    "Verif.Types.C77_entry_partial",
    "Verif.Types.C77_element_violated",
    "Verif.Types.C77_int",
    "Verif.Types.C77_float_partial",
    "Verif.Types.C77_float_violated"
   ],
   "note": "Outright for integers and for array and map types; sizes for all types but case insensitive strings; members for all array types and closed map types as instances of ElementType or of one of its operands; what is left out is proved to be violated."
  },
  {
   "property": "C78",
   "status": "partial",
   "theorems": [
    "Verif.Named.C78_instance",
    "Verif.Named.C78_checked",
    "Verif.Named.C78_new",
    "Verif.Named.C78_new_partial",
    "Verif.Named.C78_new_violated",
    "Verif.Named.C78_exact_new",
    "Verif.Named.C78_exact_new_violated",
    "Verif.Named.C78_promoted",
    "Verif.Named.C78_equal",
    "Verif.Named.C78_equivalence",
    "Verif.Named.C78_generic",
    "Verif.Named.C78_generic_violated",
    "Verif.Named.C78_sound_partial",
    "Verif.Named.C78_sound_violated",
    "Verif.Named.C78_union",
    "Verif.Named.C78_exact_accepts",
    "Verif.Named.C78_reflected"
   ],
   "note": "Instances, checkers, equality, hash codes and the registry are proved outright. Partial because New without a checker, New of exact types and assignability of types with an interface do not keep the claim (negations proved with witnesses)."
  },
  {
   "property": "C79",
   "status": "partial",
   "theorems": [
    "Verif.Text.C79_binary_violated",
    "Verif.Text.C79_time_violated",
    "Verif.Text.C79_partial",
    "Verif.Text.C79_value_partial",
    "Verif.Text.C79_words",
    "Verif.Text.C79_violated"
   ],
   "note": "Proved for all arguments made of nil, booleans, integers, floats, strings, non-empty arrays and maps. Violated: the text of an empty array is read as an empty map (C79_violated), binaries and regular expressions are read as other values, times not at all (C79_binary_violated, C79_time_violated). Values of the user as arguments are not covered."
  },
  {
   "property": "C80",
   "status": "partial",
   "theorems": [
    "Verif.Stream.Named.C80_partial",
    "Verif.Stream.Named.C80_violated",
    "Verif.Stream.Named.C80_keys_partial",
    "Verif.Stream.Named.C80_keys_violated",
    "Verif.Stream.Named.C80_direct",
    "Verif.Stream.Named.C80_panic_iff"
   ],
   "note": "C80_partial: round trip for data without maps that look like a representation, empty argument maps and clashes of keys; C80_keys_partial: string keys for consumers that need them if argument maps have string keys; C80_violated and C80_keys_violated show what is excluded fails"
  },
  {
   "property": "C81",
   "status": "partial",
   "theorems": [
    "Verif.Types.Rec.C81_returns",
    "Verif.Types.Rec.C81_returns_finite",
    "Verif.Types.Rec.C81_accepts",
    "Verif.Types.Rec.C81_exact",
    "Verif.Types.Rec.C81_partial",
    "Verif.Types.Rec.C81_files_violated",
    "Verif.Types.Rec.C81_data_violated",
    "Verif.Types.Rec.C81_list_violated",
    "Verif.Types.Rec.C81_diverges"
   ],
   "note": "Returns for all graphs that are contractive and stratified; accepts all that conforms; exact for types that do not contain themselves, and for those that do on values that do not if operands of unions are plain; the rest is false (witnesses: the documented example, the built-in type data, linked lists, three that never return)"
  },
  {
   "property": "C82",
   "status": "partial",
   "theorems": [
    "Verif.Types.RecEq.C82_operands_partial",
    "Verif.Types.RecEq.C82_alike_equivalence",
    "Verif.Types.RecEq.C82_shared_violated",
    "Verif.Types.RecEq.C82_hash_returns",
    "Verif.Types.RecEq.C82_hash_diverges",
    "Verif.Types.RecEq.C82_equals_returns",
    "Verif.Types.RecEq.C82_equals_diverges",
    "Verif.Types.RecEq.C82_equal",
    "Verif.Types.RecEq.C82_partial",
    "Verif.Types.RecEq.C82_copy",
    "Verif.Types.RecEq.C82_cut_violated",
    "Verif.Types.RecEq.C82_both_violated",
    "Verif.Types.RecEq.C82_operands_violated",
    "Verif.Types.RecEq.C82_hash_violated"
   ],
   "note": "HashCode returns exactly if no negation contains itself; Equals returns if one side has no such negation; types that are the same are equal; copies are equal with equal hash codes; equal types are the same if the receiver neither contains itself nor has operands; types with operands that do not contain themselves and share no part with parts are equal exactly if they are alike but for the order of operands (C82_operands_partial). Violated otherwise: equality cuts off on one side (asymmetric, wrong), also for acyclic types that share a part, equal types with different hash codes, overflow for x=[]!x."
  },
  {
   "property": "C83",
   "status": "partial",
   "theorems": [
    "Verif.RecAsg.C83_returns",
    "Verif.RecAsg.C83_same",
    "Verif.RecAsg.C83_partial",
    "Verif.RecAsg.C83_scalar_union",
    "Verif.RecAsg.C83_array_violated",
    "Verif.RecAsg.C83_operand_violated",
    "Verif.RecAsg.C83_files_violated",
    "Verif.RecAsg.C83_data_violated",
    "Verif.RecAsg.C83_periods_violated"
   ],
   "note": "Returns unless a union is its own operand or both sides have an array type that contains itself; true for types that are the same; true only for inclusion if one side does not contain itself and operands are leaves. Violated otherwise: x=[]x against y=[]y never returns, data accepts string|[]regexp, files accepts map[string](string|regexp)."
  },
  {
   "property": "C84",
   "status": "partial",
   "theorems": [
    "Verif.Stream.C84_written",
    "Verif.Stream.C84_round_partial"
   ],
   "note": "MarshalJSON (no alias map) writes a text of RFC 8259, byte for byte, for every value and every string; json.Marshal of floats is a parameter that writes numbers. The round trip has the hypotheses of C48, each shown to be needed there."
  },
  {
   "property": "C85",
   "status": "partial",
   "theorems": [
    "Verif.Stream.C85_spelling",
    "Verif.Stream.C85_only_partial",
    "Verif.Stream.C85_rest_violated",
    "Verif.Stream.C85_utf8_violated"
   ],
   "note": "All spellings of a text are read alike; what is read begins with a JSON value. Violated: anything may follow the first value, and bytes that are not UTF-8 are read as U+FFFD."
  },
  {
   "property": "C86",
   "status": "partial",
   "theorems": [
    "Verif.Stream.C86_data_partial",
    "Verif.Stream.C86_type_violated",
    "Verif.Stream.C86_ref_violated",
    "Verif.Stream.C86_big_violated"
   ],
   "note": "Every JSON text whose objects have different names, none reserved, is read as the data it says. Violated for the names __type and __ref, and integers of more than 64 bits become floats. The model of the collector does not merge repeated names; C05_list_into_map says what the code of the collectors makes of them: the last value wins, at the place of the first."
  },
  {
   "property": "C87",
   "status": "partial",
   "theorems": [
    "Verif.Reflect.C87_fits_partial",
    "Verif.Reflect.C87_back_partial",
    "Verif.Reflect.C87_described_partial",
    "Verif.Reflect.C87_total_partial",
    "Verif.Reflect.C87_violated"
   ],
   "note": "fits, comes back, described, total: for types without open structs, with the exceptions the code has; violations with witnesses"
  },
  {
   "property": "C88",
   "status": "proved",
   "theorems": [
    "Verif.Types.C88_accepts",
    "Verif.Types.C88_returns",
    "Verif.Types.C88_notation",
    "Verif.Types.C88_nil_violated"
   ],
   "note": "The parser of the texts is a parameter: the theorems hold for every function from texts to values, types or panics. C88_returns gives exactly when it panics; one of the panics is not documented (C88_nil_violated)."
  },
  {
   "property": "C89",
   "status": "partial",
   "theorems": [
    "Verif.Conc.Tree.C89_name",
    "Verif.Conc.Tree.C89_load",
    "Verif.Conc.Tree.C89_identifies",
    "Verif.Conc.Tree.C89_violated"
   ],
   "note": "holds for every root loader without a name of its own (as the built-in and the documented ones are); false for a root loader with a name (C89_violated)"
  },
  {
   "property": "C90",
   "status": "partial",
   "theorems": [
    "Verif.Types.C90_truncates",
    "Verif.Types.C90_rounds",
    "Verif.Types.C90_exact",
    "Verif.Types.C90_beyond",
    "Verif.Types.C90_violated",
    "Verif.Types.C90_bool"
   ],
   "note": "round trip holds up to 53 bits and is false beyond (C90_violated); floats beyond the range of integers are not refused (C90_beyond); text, time: C76"
  },
  {
   "property": "C91",
   "status": "partial",
   "theorems": [
    "Verif.Types.C91_order",
    "Verif.Types.C91_range_partial",
    "Verif.Types.C91_refused",
    "Verif.Types.C91_all"
   ],
   "note": "false for the bounds -MaxFloat64 and MaxFloat64 (C91_all)"
  },
  {
   "property": "C92",
   "status": "partial",
   "theorems": [
    "Verif.Text.C92_tells",
    "Verif.Text.C92_incomplete_partial",
    "Verif.Text.C92_dot_violated"
   ],
   "note": "C92_tells is for all texts; false for a text like 1.5. that ends with a second dot (C92_dot_violated)"
  },
  {
   "property": "C93",
   "status": "proved",
   "theorems": [
    "Verif.Text.C93_tokens",
    "Verif.Text.C93_unique"
   ],
   "note": "refinement of the lexer to a grammar, both directions"
  },
  {
   "property": "C94",
   "status": "partial",
   "theorems": [
    "Verif.Text.C94_position_partial",
    "Verif.Text.C94_violated"
   ],
   "note": "holds for identifiers, numbers without plus sign, dots, single characters and the end, on the first line; violated for strings, plus signs and later lines (witnesses proved)"
  },
  {
   "property": "C95",
   "status": "partial",
   "theorems": [
    "Verif.Stream.C95_told",
    "Verif.Stream.C95_data",
    "Verif.Stream.C95_basic",
    "Verif.Stream.C95_refused_partial",
    "Verif.Stream.C95_accepted",
    "Verif.Stream.C95_nodedup",
    "Verif.Stream.C95_violated_types"
   ],
   "note": "Proved for all graphs, options and consumers: what is told is within what the consumer can do, refused exactly what is neither data nor a type, no references without de-duplication. Missing: types should be refused without RichData too and are not (C95_violated_types)."
  },
  {
   "property": "C96",
   "status": "partial",
   "theorems": [
    "Verif.Text.C96_partial",
    "Verif.Text.C96_operand_partial",
    "Verif.Text.C96_violated",
    "Verif.Text.C96_injective_partial",
    "Verif.Text.C96_returns"
   ],
   "note": "Round trip for function types over the types of C35 (C96_partial, C96_operand_partial, C96_injective_partial); what is read never returns a varying number of values (C96_returns). The code violates it where the type returned begins with a parenthesis or the function is an operand of | (C96_violated). Function types nested in other types are not covered."
  },
  {
   "property": "C97",
   "status": "partial",
   "theorems": [
    "Verif.Graph.C97_apart",
    "Verif.Graph.C97_put",
    "Verif.Graph.C97_remove",
    "Verif.Graph.C97_putAll",
    "Verif.Graph.C97_with",
    "Verif.Graph.C97_without",
    "Verif.Graph.C97_merge",
    "Verif.Graph.C97_map",
    "Verif.Graph.C97_frame_partial",
    "Verif.Graph.C97_frame_violated"
   ],
   "note": "Separation and the effects of Put, PutAll, Remove, With, Without, Merge and Map hold for all programs. The frame (no other collection is changed) excludes ThawedCopy and WithAll, which change maps whose entries are elements: C97_frame_violated."
  },
  {
   "property": "C98",
   "status": "proved",
   "theorems": [
    "Verif.Pcore.C98_tokens",
    "Verif.Pcore.C98_unique"
   ],
   "note": "Both directions, for every input. Characters U+0001 to U+0007 are tokens of the types with these numbers, as in C55."
  },
  {
   "property": "C99",
   "status": "partial",
   "theorems": [
    "Verif.Native.C99_equal_hash",
    "Verif.Native.C99_one_hash",
    "Verif.Native.C99_returns_partial",
    "Verif.Native.C99_returns_violated",
    "Verif.Native.C99_symm_trans",
    "Verif.Native.C99_refl_partial",
    "Verif.Native.C99_refl_violated"
   ],
   "note": "HashCode does not return for pointers in a cycle, panics for uintptr and for structs with a slice in an unexported field (C99_returns_violated); a native with a function in it is not equal to itself (C99_refl_violated). Everything else is proved: equal natives have the same hash code, equality is symmetric and transitive, HashCode returns for all other values"
  },
  {
   "property": "C100",
   "status": "partial",
   "theorems": [
    "Verif.Native.C100_instance",
    "Verif.Native.C100_own_type",
    "Verif.Native.C100_assignable_iff",
    "Verif.Native.C100_assignable_partial",
    "Verif.Native.C100_assignable_violated",
    "Verif.Native.C100_hash_partial",
    "Verif.Native.C100_hash_violated"
   ],
   "note": "Go's assignability is not transitive (C100_assignable_violated) and the hash code of DefaultNativeType panics (C100_hash_violated); what is accepted and assignable is characterised outright (C100_instance, C100_assignable_iff)"
  },
  {
   "property": "C101",
   "status": "partial",
   "theorems": [
    "Verif.Errs.C101_equal",
    "Verif.Errs.C101_dgo_partial",
    "Verif.Errs.C101_symmetric_violated",
    "Verif.Errs.C101_messages",
    "Verif.Errs.C101_types",
    "Verif.Errs.C101_is_partial",
    "Verif.Errs.C101_is_violated",
    "Verif.Errs.C101_pointer_violated"
   ],
   "note": "equality of errors of different kinds is not symmetric (C101_symmetric_violated), errors.Is does not find the error itself (C101_is_violated), *error destinations expose the value's own variable (C101_pointer_violated); the rest is proved"
  },
  {
   "property": "C102",
   "status": "partial",
   "theorems": [
    "Verif.Alias.C102_accepted",
    "Verif.Alias.C102_call",
    "Verif.Alias.C102_both_directions",
    "Verif.Alias.C102_inverse_partial",
    "Verif.Alias.C102_stale_name",
    "Verif.Alias.C102_declared",
    "Verif.Alias.C102_redeclared"
   ],
   "note": "What calls answer, and that both directions have the same names and types, is proved for all histories. The inverse holds where no name is given to another type, as is the case if names are declared in texts only (C102_declared, C102_redeclared), and is violated otherwise (C102_stale_name). What Replace does is not assumed (its code is in Conc/Alias)."
  },
  {
   "property": "C103",
   "status": "partial",
   "theorems": [
    "Verif.Func.C103_equal_iff",
    "Verif.Func.C103_laws",
    "Verif.Func.C103_symmetric_partial",
    "Verif.Func.C103_go_types",
    "Verif.Func.C103_both_ways",
    "Verif.Func.C103_one_way",
    "Verif.Func.C103_functions",
    "Verif.Func.C103_closures_differ"
   ],
   "note": "Equality is characterised for all function types; it is reflexive and transitive and respects hash codes. Symmetry is violated between the type of a Go function and the one read from its text (C103_one_way), and closures that behave differently are equal (C103_closures_differ). Types that contain themselves are not in this model (C82 has those that contain themselves through other types)."
  },
  {
   "property": "C104",
   "status": "partial",
   "theorems": [
    "Verif.Types.C104_string",
    "Verif.Types.C104_binary",
    "Verif.Types.C104_array",
    "Verif.Types.C104_map",
    "Verif.Types.C104_errors",
    "Verif.Types.C104_enum",
    "Verif.Types.C104_ci_partial",
    "Verif.Types.C104_ci_violated"
   ],
   "note": "All lists of arguments, both directions, and the errors. Missing: tf.Array of one nil panics (C104_array, C30_array_panics); tf.CiString of a text whose lower case differs from it by more than case (C104_ci_violated)."
  },
  {
   "property": "C105",
   "status": "partial",
   "theorems": [
    "Verif.Conc.LoaderShare.C105_new_is_fixed",
    "Verif.Conc.LoaderShare.C105_exposed_violated",
    "Verif.Conc.LoaderShare.C105_copy_shares_violated",
    "Verif.Conc.LoaderShare.C105_untouched",
    "Verif.Conc.LoaderVal.C105_equivalence",
    "Verif.Conc.LoaderVal.C105_equal_iff",
    "Verif.Conc.LoaderVal.C105_hash",
    "Verif.Conc.LoaderVal.C105_answers_partial",
    "Verif.Conc.LoaderVal.C105_answers_violated",
    "Verif.Conc.LoaderVal.C105_name_violated",
    "Verif.Conc.LoaderVal.C105_round_trip",
    "Verif.Conc.LoaderVal.C105_new_iff"
   ],
   "note": "answers proved for loaders without finders; finders, names and the maps handed out by ExtractInitArg violate the rest (C105_answers_violated, C105_name_violated, C105_exposed_violated, C105_copy_shares_violated)"
  },
  {
   "property": "C106",
   "status": "partial",
   "theorems": [
    "Verif.Text.C106_own_partial",
    "Verif.Text.C106_new_iff",
    "Verif.Text.C106_describes_one",
    "Verif.Text.C106_text_partial",
    "Verif.Text.C106_dgo_iff",
    "Verif.Text.C106_dgo_text_partial",
    "Verif.Text.C106_violated"
   ],
   "note": "own type: not for NaN bounds; texts: for the types of C35; C106_violated: types of types compare with Equals"
  },
  {
   "property": "C107",
   "status": "partial",
   "theorems": [
    "Verif.Types.C107_complete_partial",
    "Verif.Types.C107_reason_partial",
    "Verif.Types.C107_iff_partial",
    "Verif.Types.C107_violated"
   ],
   "note": "Complete for solid types on the left and ample types (with unions) on the right; unions, float, structs, conjunctions and one-valued types violate it (C107_violated)"
  },
  {
   "property": "C108",
   "status": "partial",
   "theorems": [
    "Verif.HMap.C108_refines_partial",
    "Verif.HMap.C108_remove_current",
    "Verif.HMap.C108_others",
    "Verif.HMap.C108_keys",
    "Verif.HMap.C108_ends",
    "Verif.HMap.C108_live",
    "Verif.HMap.C108_added_violated",
    "Verif.HMap.C108_removed_violated",
    "Verif.HMap.C108_stale_violated",
    "Verif.HMap.C108_endless_violated"
   ],
   "note": "Refinement to a cursor for every actor; without removals all keys of the start are visited and the loop ends; removal of the current entry and of others. Violated: endless loops, removed entries visited, added entries depending on the capacity, old values after growth. The entry given to the actor is modelled as its key and value at the time of the call."
  },
  {
   "property": "C109",
   "status": "partial",
   "theorems": [
    "Verif.Arr.C109_calls",
    "Verif.Arr.C109_current",
    "Verif.Arr.C109_adds",
    "Verif.Arr.C109_others_partial",
    "Verif.Arr.C109_frozen_partial",
    "Verif.Arr.C109_removed_violated",
    "Verif.Arr.C109_inserted_violated",
    "Verif.Arr.C109_stale_violated"
   ],
   "note": "For all actors: no panic, one call per index of the start; replaced elements are seen as Get returns them; elements added are not visited; other and frozen arrays in programs without shared storage. Violated: nil and missed elements after removal, elements visited twice after insertion, old elements after growth."
  },
  {
   "property": "C110",
   "status": "partial",
   "theorems": [
    "Verif.Alias.Res.C110_returns_partial",
    "Verif.Alias.Res.C110_resolved",
    "Verif.Alias.Res.C110_no_alias_partial",
    "Verif.Alias.Res.C110_unknown",
    "Verif.Alias.Res.C110_known",
    "Verif.Alias.Res.C110_published",
    "Verif.Alias.Res.C110_meanwhile",
    "Verif.Alias.Res.C110_seen_violated",
    "Verif.Alias.Res.C110_opaque_violated",
    "Verif.Alias.Res.C110_endless_violated",
    "Verif.Alias.Res.C110_failed_violated"
   ],
   "note": "For all heaps, shared and cyclic: all aliases replaced by what has their name, nothing else changed, ends, fails exactly for unknown names, every moment described. Partial: arrays in exact types must not contain themselves, aliases below function and sensitive types stay. Violated: published types are empty for a moment, opaque types, failed calls leave types empty."
  },
  {
   "property": "C111",
   "status": "partial",
   "theorems": [
    "Verif.Text.C111_integers_partial",
    "Verif.Text.C111_floats_partial",
    "Verif.Text.C111_dots",
    "Verif.Text.C111_swallowed_violated",
    "Verif.Text.C111_exponent_violated",
    "Verif.Text.C111_full_violated"
   ],
   "note": "For integers and floats whose text the lexer reads as one number. Violated: the token after an open range of floats is swallowed (C111_swallowed_violated), floats with an exponent before dots are refused (C111_exponent_violated), and some ranges with extreme ends accept too much or too little (C111_full_violated)."
  },
  {
   "property": "C112",
   "status": "partial",
   "theorems": [
    "Verif.Live.C112_freeze",
    "Verif.Live.C112_thaw",
    "Verif.Live.C112_follows",
    "Verif.Live.C112_equal",
    "Verif.Live.C112_frozen_partial",
    "Verif.Live.C112_copy",
    "Verif.Live.C112_changes",
    "Verif.Live.C112_keys_partial",
    "Verif.Live.C112_frozen_violated",
    "Verif.Live.C112_tuple_violated",
    "Verif.Live.C112_keys_violated"
   ],
   "note": "What the type of an array accepts is characterised for every moment. What is frozen does not change where types in it are of frozen arrays too; violated otherwise (C112_frozen_violated, C112_tuple_violated, C112_keys_violated). Maps and binaries are not modelled as elements."
  },
  {
   "property": "C113",
   "status": "partial",
   "theorems": [
    "Verif.Pcore.C113_tokens",
    "Verif.Pcore.C113_names",
    "Verif.Pcore.C113_different",
    "Verif.Pcore.C113_read_partial",
    "Verif.Pcore.C113_control_violated",
    "Verif.Pcore.C113_declares",
    "Verif.Pcore.C113_reference",
    "Verif.Pcore.C113_keyword_violated"
   ],
   "note": "Which names there are, what they are in dgo, that different names stay different, what is refused and what a use refers to are proved outright. That dgo reads its name of a declared type back is proved for names with one part that are not words of the language of types, and refuted for the others."
  },
  {
   "property": "C114",
   "status": "partial",
   "theorems": [
    "Verif.Pcore.Fn.C114_params",
    "Verif.Pcore.Fn.C114_returns",
    "Verif.Pcore.Fn.C114_sizes_partial",
    "Verif.Pcore.Fn.C114_one_partial",
    "Verif.Pcore.Fn.C114_block_partial",
    "Verif.Pcore.Fn.C114_none",
    "Verif.Pcore.Fn.C114_empty_violated",
    "Verif.Pcore.Fn.C114_block_violated",
    "Verif.Pcore.Fn.C114_all"
   ],
   "note": "The parameters, the results, the block and that nothing is lost are proved for all lists of arguments; the sizes are proved to be what was written exactly if they are the number of the types (with one size: one less), and refuted otherwise."
  },
  {
   "property": "C115",
   "status": "partial",
   "theorems": [
    "Verif.Args.C115_equal_partial",
    "Verif.Args.C115_equal_iff",
    "Verif.Args.C115_itself_violated",
    "Verif.Args.C115_hash",
    "Verif.Args.C115_compare_violated",
    "Verif.Args.C115_instance_partial",
    "Verif.Args.C115_instance_violated",
    "Verif.Args.C115_uses",
    "Verif.Args.C115_iterable",
    "Verif.Args.C115_flatten_partial",
    "Verif.Args.C115_elements_violated",
    "Verif.Args.C115_arg",
    "Verif.Args.C115_frozen_partial",
    "Verif.Args.C115_frozen_violated"
   ],
   "note": "Hash codes, use as arguments of methods, iterables, AssertSize and Arg outright; equality, instances and Flatten for values in which there are no arguments on the other side (exact for values that share no parts), frozen arguments if made from frozen arrays. The rest is proved to be violated."
  },
  {
   "property": "C116",
   "status": "partial",
   "theorems": [
    "Verif.Alias.C116_asked_partial",
    "Verif.Alias.C116_twice_violated",
    "Verif.Alias.C116_unknown_violated",
    "Verif.Alias.C116_stays",
    "Verif.Alias.C116_known"
   ],
   "note": "Proved for texts that are refused or declare nothing, and that those accepted without declarations stay accepted; every text with a declaration violates it (C116_twice_violated, C116_unknown_violated)."
  },
  {
   "property": "C117",
   "status": "partial",
   "theorems": [
    "Verif.Entry.C117_preorder",
    "Verif.Entry.C117_equal_partial",
    "Verif.Entry.C117_struct",
    "Verif.Entry.C117_equal_violated",
    "Verif.Entry.C117_type",
    "Verif.Entry.C117_type_violated",
    "Verif.Entry.C117_copy_partial",
    "Verif.Entry.C117_key_violated",
    "Verif.Entry.C117_copy_violated",
    "Verif.Entry.C117_values",
    "Verif.Entry.C117_to_map_partial",
    "Verif.Entry.C117_to_map_violated"
   ],
   "note": "Equality is a preorder that follows contents; symmetric and by contents without struct entries, hash codes follow; frozen copies, vf.Values/IndexOf and ToMapFromEntries where keys are immutable and entries are nodes. Violations for struct entries, mutable keys and plain entries are proved."
  },
  {
   "property": "C118",
   "status": "partial",
   "theorems": [
    "Verif.Time.C118_year",
    "Verif.Time.C118_inner_partial",
    "Verif.Time.C118_outer_partial",
    "Verif.Time.C118_order_partial",
    "Verif.Time.C118_whole_partial",
    "Verif.Time.C118_back_partial",
    "Verif.Time.C118_int",
    "Verif.Time.C118_precision_violated",
    "Verif.Time.C118_equal_violated",
    "Verif.Time.C118_whole_violated",
    "Verif.Time.C118_far_violated",
    "Verif.Time.C118_int_violated"
   ],
   "note": "Errors of at most 1.5 microseconds in 1679-2261 and 33 microseconds in years up to 10000, order within one zone across the boundaries, exact whole seconds until 2116, round trips; documented precision, equal times in different zones, far years and integers are proved to be violated for every nearest rounding."
  },
  {
   "property": "C119",
   "status": "partial",
   "theorems": [
    "Verif.Time.C119_read",
    "Verif.Time.C119_back_partial",
    "Verif.Time.C119_text",
    "Verif.Time.C119_accepts",
    "Verif.Time.C119_zone_violated",
    "Verif.Time.C119_year_violated"
   ],
   "note": "Round trip and injectivity for years 0 to 9999 and zones that are whole minutes from Greenwich, and what is read for all zones; other zones and years are proved to violate it."
  },
  {
   "property": "C120",
   "status": "partial",
   "theorems": [
    "Verif.Text.C120_back_partial",
    "Verif.Text.C120_exponent",
    "Verif.Text.C120_type_partial",
    "Verif.Text.C120_range_violated",
    "Verif.Text.C120_nan_violated"
   ],
   "note": "proved for all floats that are numbers, for any FormatFloat and ParseFloat that meet Strconv; violated by NaN, infinities and ranges whose lower bound is printed with an exponent"
  },
  {
   "property": "C121",
   "status": "partial",
   "theorems": [
    "Verif.Goarg.C121_equals_partial",
    "Verif.Goarg.C121_compare_partial",
    "Verif.Goarg.C121_instance_partial",
    "Verif.Goarg.C121_pointer_violated",
    "Verif.Goarg.C121_compare_violated",
    "Verif.Goarg.C121_collection_violated",
    "Verif.Goarg.C121_largest_violated"
   ],
   "note": "Equals, CompareTo and Instance of Go values agree with those of their values (C121_equals_partial, C121_compare_partial, C121_instance_partial); false for pointers, Go Booleans and nil in CompareTo, slices and maps in Instance, the largest uint64"
  },
  {
   "property": "C122",
   "status": "partial",
   "theorems": [
    "Verif.Conc.StrHash.C122_interleaved",
    "Verif.Conc.StrHash.C122_racing_partial",
    "Verif.Conc.StrHash.C122_published",
    "Verif.Conc.StrHash.C122_reordered_violated"
   ],
   "note": "Proved for all interleavings (C122_interleaved) and, under the memory model of Go, for strings whose hash code was asked for before they are shared (C122_published); otherwise that model allows a wrong 0 (C122_reordered_violated), and nothing else (C122_racing_partial)"
  },
  {
   "property": "C123",
   "status": "partial",
   "theorems": [
    "Verif.Types.C123_only_partial",
    "Verif.Types.C123_scalar",
    "Verif.Types.C123_collection_partial",
    "Verif.Types.C123_empty_violated",
    "Verif.Types.C123_floats_violated",
    "Verif.Types.C123_not_violated",
    "Verif.Types.C123_one_violated",
    "Verif.Types.C123_tuple_violated",
    "Verif.Types.C123_sensitive_violated"
   ],
   "note": "Outright for values that are no collections and every type; for collections for the types and values of C123_collection_partial. Empty collections, []float, negations and exclusive alternatives of elements, alternatives of collections in tuples and sensitive values violate the claim, with witnesses."
  },
  {
   "property": "C124",
   "status": "partial",
   "theorems": [
    "Verif.Text.C124_primitive",
    "Verif.Text.C124_strings",
    "Verif.Text.C124_numbers_partial",
    "Verif.Text.C124_arrays",
    "Verif.Text.C124_maps",
    "Verif.Text.C124_struct",
    "Verif.Text.C124_combinations_partial",
    "Verif.Text.C124_negation",
    "Verif.Text.C124_positive_violated",
    "Verif.Text.C124_long_violated",
    "Verif.Text.C124_readme"
   ],
   "note": "Every row of the tables of docs/types.md, and the expressions of the README (C124_readme), for all values. 0.. includes 0 and string[20] is a minimum only: the documentation says otherwise (violated theorems)."
  },
  {
   "property": "C125",
   "status": "partial",
   "theorems": [
    "Verif.Text.C125_layout",
    "Verif.Text.C125_after",
    "Verif.Text.C125_spread",
    "Verif.Text.C125_printed_partial",
    "Verif.Text.C125_return_violated"
   ],
   "note": "Outright for all texts and layouts with blanks, tabs and line feeds (C125_layout, C125_after, C125_spread); carriage returns are refused (C125_return_violated). C125_printed_partial is for the types of C35."
  },
  {
   "property": "C126",
   "status": "partial",
   "theorems": [
    "Verif.Text.C126_declared_partial",
    "Verif.Text.C126_partial",
    "Verif.Text.C126_all_names_partial",
    "Verif.Text.C126_meaning_partial",
    "Verif.Text.C126_injective_partial",
    "Verif.Text.C126_no_names",
    "Verif.Text.C126_name",
    "Verif.Text.C126_angle",
    "Verif.Text.C126_key_violated",
    "Verif.Text.C126_word_violated",
    "Verif.Text.C126_blank_violated",
    "Verif.Text.C126_uses_names",
    "Verif.Text.C126_uses_names_lists"
   ],
   "note": "Proved for the types of C35, with any types at all as parts if these have names, and every alias map with NamesOk: names are identifiers, no words of the language, mean the same type in both directions, and the types of values have none. C126_declared_partial: for the alias map after any texts with declarations, if equal types are the same. What a name alone is read as is proved outright (C126_name, C126_angle), as is that named parts are printed as their names (C126_uses_names, C126_uses_names_lists). Violated without these conditions (C126_key_violated, C126_word_violated, C126_blank_violated)."
  },
  {
   "property": "C127",
   "status": "partial",
   "theorems": [
    "Verif.Types.C127_kinds",
    "Verif.Types.C127_lengths",
    "Verif.Types.C127_binaries",
    "Verif.Types.C127_float",
    "Verif.Types.C127_values",
    "Verif.Types.C127_anyOf",
    "Verif.Types.C127_oneOf",
    "Verif.Types.C127_allOf",
    "Verif.Types.C127_ranges",
    "Verif.Types.C127_within",
    "Verif.Types.C127_enumerations",
    "Verif.Types.C127_conjunction_violated",
    "Verif.Types.C127_float_violated",
    "Verif.Types.C127_struct_violated",
    "Verif.Types.C127_nothing_violated"
   ],
   "note": "Which types the types of all kinds, and of strings and binaries with limits, are assignable from is characterised outright (C127_kinds, C127_lengths, C127_binaries, C127_float), and how every type without parts treats combinations (C127_anyOf, C127_oneOf, C127_allOf), with the README's examples for all ranges, limits and enumerations, and that all values of such types are of the kind (C127_values). Partial because conjunctions with other types, unions of floats and types of structs are refused and a conjunction of nothing is accepted (violated theorems)."
  }
 ]
}