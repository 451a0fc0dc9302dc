{
 "claims": [
  {
   "property": "C01",
   "status": "proved",
   "theorems": [
    "Opy.c01_extract_format",
    "Opy.c01_roundtrip_iff"
   ],
   "note": "Exact description of what the token encoding does to a key list (glue) and the iff."
  },
  {
   "property": "C02",
   "status": "partial",
   "theorems": [
    "Opy.c02_lossless_refuted",
    "Opy.c02_lossless_partial"
   ],
   "note": "False as stated: refuted with ['concept:name','lifecycle:transition']; the exact set of surviving lists is C01."
  },
  {
   "property": "C03",
   "status": "proved",
   "theorems": [
    "Opy.c03_tokens_clean",
    "Opy.c03_second_trip"
   ],
   "note": ""
  },
  {
   "property": "C04",
   "status": "proved",
   "theorems": [
    "Opy.c04_roundtrip",
    "Opy.c04_instant",
    "Opy.c04_subminute_offset_lost"
   ],
   "note": ""
  },
  {
   "property": "C05",
   "status": "partial",
   "theorems": [
    "Opy.c05_never_raises_refuted",
    "Opy.c05_never_raises_partial",
    "Opy.c05_exact"
   ],
   "note": "False as stated (OverflowError for huge offsets); exactly when the text denotes an existing date whose zone is more than 999999999 days from UTC; proved that nothing else can be raised."
  },
  {
   "property": "C06",
   "status": "proved",
   "theorems": [
    "Opy.c06_result_good",
    "Opy.c06_stable"
   ],
   "note": ""
  },
  {
   "property": "C07",
   "status": "proved",
   "theorems": [
    "Opy.c07_roundtrip",
    "Opy.c07_injective",
    "Opy.c07_format",
    "Opy.c07_case"
   ],
   "note": ""
  },
  {
   "property": "C08",
   "status": "proved",
   "theorems": [
    "Opy.c08_zero_iff",
    "Opy.c08_antisymm",
    "Opy.c08_trans",
    "Opy.c08_text_order"
   ],
   "note": ""
  },
  {
   "property": "C09",
   "status": "proved",
   "theorems": [
    "Opy.c09_total",
    "Opy.c09_zero_iff",
    "Opy.c09_antisymm",
    "Opy.c09_trans",
    "Opy.c09_numbers",
    "Opy.c09_floats"
   ],
   "note": ""
  },
  {
   "property": "C10",
   "status": "partial",
   "theorems": [
    "Opy.c10_equivalence_refuted",
    "Opy.c10_equivalence_partial",
    "Opy.c10_list_equals_everything",
    "Opy.c10_refl_same",
    "Opy.c10_numbers",
    "Opy.c10_floats"
   ],
   "note": "False as stated: a list or container equals every attribute and is not symmetric; proved to be an equivalence on typed, comparable non-collection attributes."
  },
  {
   "property": "C11",
   "status": "proved",
   "theorems": [
    "Opy.c11_eq_hash",
    "Opy.c11_list_refuted"
   ],
   "note": "Equal attributes hash equally except when a collection is involved (refuted there)."
  },
  {
   "property": "C12",
   "status": "proved",
   "theorems": [
    "Opy.c12_naive_aware",
    "Opy.c12_other_key"
   ],
   "note": ""
  },
  {
   "property": "C13",
   "status": "proved",
   "theorems": [
    "Opy.c13_insert"
   ],
   "note": ""
  },
  {
   "property": "C14",
   "status": "proved",
   "theorems": [
    "Opy.c14_sorted"
   ],
   "note": ""
  },
  {
   "property": "C15",
   "status": "partial",
   "theorems": [
    "Opy.c15_refuted",
    "Opy.c15_order_kept_iff"
   ],
   "note": "False as stated when unstamped events lie in between; the iff says exactly when the stamped order survives."
  },
  {
   "property": "C16",
   "status": "proved",
   "theorems": [
    "Opy.c16_sorts"
   ],
   "note": ""
  },
  {
   "property": "C17",
   "status": "proved",
   "theorems": [
    "Opy.c17_zero_iff",
    "Opy.c17_equivalence",
    "Opy.c17_antisymm",
    "Opy.c17_trans",
    "Opy.c17_hash"
   ],
   "note": ""
  },
  {
   "property": "C18",
   "status": "partial",
   "theorems": [
    "Opy.c18_agree_same",
    "Opy.c18_same_iff",
    "Opy.c18_same_agree_partial",
    "Opy.c18_refuted"
   ],
   "note": "Joining with '&&' is ambiguous: refuted; proved for present values that do not contain '&', and exactly via the identity texts."
  },
  {
   "property": "C19",
   "status": "proved",
   "theorems": [
    "Opy.c19_partition",
    "Opy.c19_when"
   ],
   "note": ""
  },
  {
   "property": "C20",
   "status": "proved",
   "theorems": [
    "Opy.c20_indices"
   ],
   "note": ""
  },
  {
   "property": "C21",
   "status": "proved",
   "theorems": [
    "Opy.c21_order_irrelevant"
   ],
   "note": ""
  },
  {
   "property": "C22",
   "status": "proved",
   "theorems": [
    "Opy.c22_lookup",
    "Opy.c22_own_events"
   ],
   "note": ""
  },
  {
   "property": "C23",
   "status": "partial",
   "theorems": [
    "Opy.c23_keys",
    "Opy.c23_empty",
    "Opy.c23_finer_partial",
    "Opy.c23_coarse",
    "Opy.c23_refuted"
   ],
   "note": "Ambiguous joining again breaks the finer-than claim; proved for present values without '&'."
  },
  {
   "property": "C24",
   "status": "proved",
   "theorems": [
    "Opy.c24_bounds",
    "Opy.c24_order_irrelevant"
   ],
   "note": ""
  },
  {
   "property": "C25",
   "status": "proved",
   "theorems": [
    "Opy.c25_merge",
    "Opy.c25_within",
    "Opy.c25_registered_within"
   ],
   "note": ""
  },
  {
   "property": "C26",
   "status": "proved",
   "theorems": [
    "Opy.c26_counts",
    "Opy.c26_goes_through_iff"
   ],
   "note": ""
  },
  {
   "property": "C27",
   "status": "partial",
   "theorems": [
    "Opy.c27_refuted",
    "Opy.c27_always_empty"
   ],
   "note": "False as stated; proved that the queries by type and extension are always empty."
  },
  {
   "property": "C28",
   "status": "proved",
   "theorems": [
    "Opy.c28_counts"
   ],
   "note": ""
  },
  {
   "property": "C29",
   "status": "partial",
   "theorems": [
    "Opy.c29_refuted",
    "Opy.c29_exact",
    "Opy.c29_success_iff",
    "Opy.c29_sufficient"
   ],
   "note": "False as stated; exact condition for every typed log."
  },
  {
   "property": "C30",
   "status": "partial",
   "theorems": [
    "Opy.c30_refuted",
    "Opy.c30_fresh_partial",
    "Opy.c30_returns"
   ],
   "note": "False as stated; proved for histories without later modification, plus what exactly is returned."
  },
  {
   "property": "C31",
   "status": "proved",
   "theorems": [
    "Opy.c31_last_only"
   ],
   "note": ""
  },
  {
   "property": "C32",
   "status": "proved",
   "theorems": [
    "Opy.c32_clone_independent_structure",
    "Opy.c32_original_untouched",
    "Opy.Cloned.apart"
   ],
   "note": "events, traces and logs of any shape (also with shared events); any interleaved history of attribute updates, added and removed events/traces, new ids and new log fields made through either copy"
  },
  {
   "property": "C33",
   "status": "partial",
   "theorems": [
    "Opy.c33_clone_values_refuted"
   ],
   "note": "the code violates the property for every event and every typed attribute it has: the attribute objects are shared, so a value set through the clone shows in the original"
  },
  {
   "property": "C34",
   "status": "proved",
   "theorems": [
    "Opy.c34_event",
    "Opy.c34_trace",
    "Opy.c34_log",
    "Opy.c34_event_new_id",
    "Opy.relabel_attrs"
   ],
   "note": "the identifiers of the clone are the ones drawn during cloning, at pairwise different positions; that they differ from earlier ones rests on the identifier source not repeating (uuid4)"
  },
  {
   "property": "C35",
   "status": "partial",
   "theorems": [
    "Opy.c35_clone_attr_partial",
    "Opy.c35_nested_dropped_refuted",
    "Opy.c35_collection_refuted"
   ],
   "note": "key, value and extension are kept; nested attributes are always dropped and collections raise AttributeError"
  },
  {
   "property": "C36",
   "status": "partial",
   "theorems": [
    "Opy.c36_create_event_partial",
    "Opy.c36_create_event_refuted"
   ],
   "note": "kept exactly when the attribute map is non-empty; for None or an empty map the id is always replaced"
  },
  {
   "property": "C37",
   "status": "partial",
   "theorems": [
    "Opy.c37_shares_map_partial",
    "Opy.c37_empty_map_refuted"
   ],
   "note": "shared for every non-empty map over every history; for a map that is empty at construction a later addition is not visible"
  },
  {
   "property": "C38",
   "status": "proved",
   "theorems": [
    "Opy.c38_roundtrip",
    "Opy.c39_unique"
   ],
   "note": "for every behaviour of XML attribute text that satisfies Channel (printable ASCII survives, what comes back survives again) and every float type whose text is printable; event ids are not written, so they are not compared"
  },
  {
   "property": "C39",
   "status": "proved",
   "theorems": [
    "Opy.c39_normal_form",
    "Opy.c39_unique"
   ],
   "note": "same assumptions as C38; the loaded objects are fresh and older objects are untouched"
  },
  {
   "property": "C40",
   "status": "proved",
   "theorems": [
    "Opy.c40_second_trip"
   ],
   "note": "same assumptions as C38, and the prefix lookup of the extension manager is lawful"
  },
  {
   "property": "C41",
   "status": "partial",
   "theorems": [
    "Opy.c41_globals_partial",
    "Opy.c41_nested_globals_refuted"
   ],
   "note": "holds exactly for global attributes without nested attributes"
  },
  {
   "property": "C42",
   "status": "proved",
   "theorems": [
    "Opy.c42_order_and_number",
    "Opy.c42_count"
   ],
   "note": "for the standard factory and any extension manager; order is expressed by creation order, which the handler follows at start tags"
  },
  {
   "property": "C43",
   "status": "proved",
   "theorems": [
    "Opy.c43_unknown_ignored",
    "Opy.c43_insertion",
    "Opy.c43_case"
   ],
   "note": "for every factory and extension manager"
  },
  {
   "property": "C44",
   "status": "partial",
   "theorems": [
    "Opy.c44_bad_date_refuted",
    "Opy.c153_only_dates"
   ],
   "note": "the code violates the property: every document containing an unreadable date makes loading raise"
  },
  {
   "property": "C45",
   "status": "partial",
   "theorems": [
    "Opy.c45_factory_partial",
    "Opy.c45_factory_ignored",
    "Opy.c45_factory_refuted"
   ],
   "note": "holds only when the given factory is the registry's; otherwise the given factory has no influence"
  },
  {
   "property": "C46",
   "status": "proved",
   "theorems": [
    "Opy.c46_features",
    "Opy.c46_after_trip"
   ],
   "note": ""
  },
  {
   "property": "C47",
   "status": "proved",
   "theorems": [
    "Opy.c47_roundtrip",
    "Opy.c47_exact",
    "Opy.c47_serializes"
   ],
   "note": "c47_exact gives every attribute that comes back, for every log the serializer accepts; c47_serializes gives logs it accepts"
  },
  {
   "property": "C48",
   "status": "partial",
   "theorems": [
    "Opy.c48_refuted",
    "Opy.c48_lost"
   ],
   "note": "violated: for every log, no event comes back with a timestamp or a resource"
  },
  {
   "property": "C49",
   "status": "proved",
   "theorems": [
    "Opy.c49_kept"
   ],
   "note": "for documents in which processes, instances and entries nest in the usual way and which load without an error"
  },
  {
   "property": "C50",
   "status": "proved",
   "theorems": [
    "Opy.c50_chunking"
   ],
   "note": ""
  },
  {
   "property": "C51",
   "status": "partial",
   "theorems": [
    "Opy.c51_refuted",
    "Opy.c51_entry_partial",
    "Opy.c51_trace_partial",
    "Opy.c51_misplaced",
    "Opy.c51_lost",
    "Opy.c117_document"
   ],
   "note": "violated; holds exactly for entries and for traces that already have events"
  },
  {
   "property": "C52",
   "status": "proved",
   "theorems": [
    "Opy.c52_can_parse"
   ],
   "note": ""
  },
  {
   "property": "C53",
   "status": "partial",
   "theorems": [
    "Opy.c53_ignoring_case_refuted",
    "Opy.c53_partial"
   ],
   "note": "violated: the comparison is case sensitive; a name without lower-case letters is never accepted, and only the letters before the ending may vary in case"
  },
  {
   "property": "C54",
   "status": "proved",
   "theorems": [
    "Opy.c54_one_parser",
    "Opy.c54_universal"
   ],
   "note": ""
  },
  {
   "property": "C55",
   "status": "partial",
   "theorems": [
    "Opy.c55_suffices_partial",
    "Opy.c55_xez_refuted"
   ],
   "note": "violated for the suffix xez, for every stem; holds for all others"
  },
  {
   "property": "C56",
   "status": "proved",
   "theorems": [
    "Opy.c56_registry"
   ],
   "note": ""
  },
  {
   "property": "C57",
   "status": "proved",
   "theorems": [
    "Opy.c57_singletons"
   ],
   "note": "objects count as true (no shipped singleton class defines __bool__ or __len__) and no constructor instantiates its own class"
  },
  {
   "property": "C58",
   "status": "proved",
   "theorems": [
    "Opy.c58_lookups",
    "Opy.c58_standard",
    "Opy.c58_sound",
    "Opy.c58_index",
    "Opy.c58_unknown",
    "Opy.c58_again",
    "Opy.c58_lawful"
   ],
   "note": "for every history; c58_lookups and c58_index assume that extensions sharing a URI, name or prefix are equal (true of the standard ones: c58_standard)"
  },
  {
   "property": "C59",
   "status": "partial",
   "theorems": [
    "Opy.c59_refuted",
    "Opy.c59_reregister_partial"
   ],
   "note": "violated: only get_by_uri sees the new extension; the exact effect is proved for every history"
  },
  {
   "property": "C60",
   "status": "proved",
   "theorems": [
    "Opy.c60_assign",
    "Opy.c60_blank",
    "Opy.c60_missing"
   ],
   "note": ""
  },
  {
   "property": "C61",
   "status": "partial",
   "theorems": [
    "Opy.c61_refuted",
    "Opy.c61_assign_partial",
    "Opy.c61_blank"
   ],
   "note": "violated for every event: the instance is stored under concept:name"
  },
  {
   "property": "C62",
   "status": "proved",
   "theorems": [
    "Opy.c62_assign",
    "Opy.c62_blank",
    "Opy.c62_commute"
   ],
   "note": ""
  },
  {
   "property": "C63",
   "status": "proved",
   "theorems": [
    "Opy.c63_assign",
    "Opy.c63_blank",
    "Opy.c63_decode",
    "Opy.c63_standard",
    "Opy.c63_model"
   ],
   "note": "lower() is that of all of Unicode (version 14)"
  },
  {
   "property": "C64",
   "status": "partial",
   "theorems": [
    "Opy.c64_positive",
    "Opy.c64_other",
    "Opy.c64_int",
    "Opy.c64_driver",
    "Opy.c64_refuted",
    "Opy.c64_type_text"
   ],
   "note": "holds for total, amount and driver; violated for currency and type, for every element and value"
  },
  {
   "property": "C65",
   "status": "proved",
   "theorems": [
    "Opy.c65_level",
    "Opy.c65_length",
    "Opy.c65_int",
    "Opy.c65_remove",
    "Opy.c65_parent"
   ],
   "note": ""
  },
  {
   "property": "C66",
   "status": "partial",
   "theorems": [
    "Opy.c66_refuted",
    "Opy.c66_result_partial",
    "Opy.c66_empty",
    "Opy.c66_uris_partial",
    "Opy.c66_uris_refuted"
   ],
   "note": "violated for every non-empty list; what is returned instead is proved"
  },
  {
   "property": "C67",
   "status": "partial",
   "theorems": [
    "Opy.c67_refuted",
    "Opy.c67_result_partial",
    "Opy.c67_values"
   ],
   "note": "violated for every element with a value at some depth; the exact result is proved"
  },
  {
   "property": "C68",
   "status": "partial",
   "theorems": [
    "Opy.c68_refuted",
    "Opy.c68_sound_partial"
   ],
   "note": "violated: the result is empty for every element"
  },
  {
   "property": "C69",
   "status": "proved",
   "theorems": [
    "Opy.c69_no_loss",
    "Opy.c69_injective"
   ],
   "note": "for every int, also negative"
  },
  {
   "property": "C70",
   "status": "partial",
   "theorems": [
    "Opy.c70_exact_partial",
    "Opy.c70_negative_refuted",
    "Opy.c70_running"
   ],
   "note": "violated: after stop() the result is negative for every realistic clock; a running timer is right; clock readings are exact rationals"
  },
  {
   "property": "C71",
   "status": "proved",
   "theorems": [
    "Opy.c71_maps"
   ],
   "note": ""
  },
  {
   "property": "C72",
   "status": "proved",
   "theorems": [
    "Opy.c72_event_classes",
    "Opy.c72_getters"
   ],
   "note": ""
  },
  {
   "property": "C73",
   "status": "proved",
   "theorems": [
    "Opy.c73_no_bounds"
   ],
   "note": ""
  },
  {
   "property": "C74",
   "status": "partial",
   "theorems": [
    "Opy.c74_support_folder_refuted",
    "Opy.c74_no_profile_refuted",
    "Opy.c74_first_call_partial",
    "Opy.c74_where_partial"
   ],
   "note": "violated: the second call always raises FileExistsError; without USERPROFILE every call raises TypeError"
  },
  {
   "property": "C75",
   "status": "partial",
   "theorems": [
    "Opy.c75_parts_partial",
    "Opy.c75_normalised_refuted"
   ],
   "note": "violated exactly at the boundary values"
  },
  {
   "property": "C76",
   "status": "partial",
   "theorems": [
    "Opy.c76_refuted",
    "Opy.c76_time_partial",
    "Opy.c76_absent"
   ],
   "note": "violated by every date with microseconds or a zone; holds for exactly the others"
  },
  {
   "property": "C77",
   "status": "proved",
   "theorems": [
    "Opy.c77_amounts",
    "Opy.c77_frame",
    "Opy.c77_driver",
    "Opy.c77_types_refuted"
   ],
   "note": "for amounts; types always store the class object type (C64)"
  },
  {
   "property": "C78",
   "status": "partial",
   "theorems": [
    "Opy.c78_refuted",
    "Opy.c78_set_partial"
   ],
   "note": "violated exactly by texts with a character that is not its own lower case"
  },
  {
   "property": "C79",
   "status": "proved",
   "theorems": [
    "Opy.c79_identity"
   ],
   "note": ""
  },
  {
   "property": "C80",
   "status": "partial",
   "theorems": [
    "Opy.c80_refuted",
    "Opy.c80_leaks",
    "Opy.c117_document"
   ],
   "note": "proved for documents whose data stand behind the first trace or entry (C117); violated by every data attribute that a process states before its first trace, if the file has a Source element"
  },
  {
   "property": "C81",
   "status": "partial",
   "theorems": [
    "Opy.c81_refuted",
    "Opy.c81_leaks",
    "Opy.c81_end_partial",
    "Opy.c117_document"
   ],
   "note": "violated by every text before a start tag; proved: nothing before an end tag counts for what follows, and documents without text between elements are read right (C117)"
  },
  {
   "property": "C82",
   "status": "proved",
   "theorems": [
    "Opy.c82_chronological",
    "Opy.c82_zones",
    "Opy.c82_next_day"
   ],
   "note": ""
  },
  {
   "property": "C83",
   "status": "partial",
   "theorems": [
    "Opy.c83_all_log",
    "Opy.c83_refuted"
   ],
   "note": "violated: whatever the document, all attributes land in the log attributes and the other three sets stay empty"
  },
  {
   "property": "C84",
   "status": "proved",
   "theorems": [
    "Opy.c84_defined"
   ],
   "note": ""
  },
  {
   "property": "C85",
   "status": "partial",
   "theorems": [
    "Opy.c85_first_partial",
    "Opy.c85_stale",
    "Opy.c85_refuted"
   ],
   "note": "violated: the first answer is right and is returned for ever"
  },
  {
   "property": "C86",
   "status": "proved",
   "theorems": [
    "Opy.c86_registers",
    "Opy.c86_translated"
   ],
   "note": ""
  },
  {
   "property": "C87",
   "status": "partial",
   "theorems": [
    "Opy.c87_refuted",
    "Opy.c87_answer_partial"
   ],
   "note": "violated: offline, every document with a group of definitions raises AttributeError; if the URI answers, the answer does not matter"
  },
  {
   "property": "C88",
   "status": "partial",
   "theorems": [
    "Opy.c88_never_stored",
    "Opy.c88_refuted",
    "Opy.c88_slash",
    "Opy.c88_no_slash",
    "Opy.c88_exact"
   ],
   "note": "violated: no downloaded byte is ever stored, and a successful download raises TypeError; paths are not normalised in the model"
  },
  {
   "property": "C89",
   "status": "partial",
   "theorems": [
    "Opy.c89_never_loads",
    "Opy.c89_refuted",
    "Opy.c89_loop_partial"
   ],
   "note": "violated: nothing is ever loaded; with an existing support folder the call raises FileExistsError"
  },
  {
   "property": "C90",
   "status": "proved",
   "theorems": [
    "Opy.c90_relations",
    "Opy.c90_partition",
    "Opy.c90_order"
   ],
   "note": "activities of the log are hashable values; sets are enumerated in an arbitrary order"
  },
  {
   "property": "C91",
   "status": "proved",
   "theorems": [
    "Opy.c91_pairs",
    "Opy.c91_each_once"
   ],
   "note": ""
  },
  {
   "property": "C92",
   "status": "proved",
   "theorems": [
    "Opy.c92_places",
    "Opy.c92_covered"
   ],
   "note": ""
  },
  {
   "property": "C93",
   "status": "proved",
   "theorems": [
    "Opy.c93_places",
    "Opy.c93_text"
   ],
   "note": "activities are strings"
  },
  {
   "property": "C94",
   "status": "proved",
   "theorems": [
    "Opy.c94_events",
    "Opy.c94_self_loop"
   ],
   "note": "activities are strings"
  },
  {
   "property": "C95",
   "status": "proved",
   "theorems": [
    "Opy.c95_compress",
    "Opy.c95_variants"
   ],
   "note": ""
  },
  {
   "property": "C96",
   "status": "partial",
   "theorems": [
    "Opy.c96_refuted",
    "Opy.c96_last_lost",
    "Opy.c96_exact_partial",
    "Opy.c96_first_partial"
   ],
   "note": "violated by every file: the rows are cut before every row whose case is not that of the first row, and the last piece is lost; proved: exactly this"
  },
  {
   "property": "C97",
   "status": "partial",
   "theorems": [
    "Opy.c97_refuted",
    "Opy.c97_cells_partial"
   ],
   "note": "violated for text in the last column, which keeps the line end; proved: all other text columns and all number columns are right. time columns: C132 and C133"
  },
  {
   "property": "C98",
   "status": "partial",
   "theorems": [
    "Opy.c98_refuted",
    "Opy.c98_nested_refuted",
    "Opy.c98_exact_partial",
    "Opy.c98_anonymous_iff"
   ],
   "note": "violated for attributes of the log itself and for nested attributes; proved: exactly the attributes of traces, events and the global attributes are hidden, and the result is anonymous iff the rest already was"
  },
  {
   "property": "C99",
   "status": "proved",
   "theorems": [
    "Opy.c99_counts"
   ],
   "note": ""
  },
  {
   "property": "C100",
   "status": "proved",
   "theorems": [
    "Opy.c100_vectors",
    "Opy.c100_clusters",
    "Opy.c100_partition",
    "Opy.c100_raises"
   ],
   "note": "the fitted clustering is an arbitrary function"
  },
  {
   "property": "C101",
   "status": "partial",
   "theorems": [
    "Opy.c101_refuted",
    "Opy.c101_exact_partial",
    "Opy.c101_keeps_iff"
   ],
   "note": "violated: classifiers and global attributes are always lost; proved: attributes and extensions are kept, and the claim holds iff the log has no classifiers and global attributes"
  },
  {
   "property": "C102",
   "status": "partial",
   "theorems": [
    "Opy.c102_attributes_refuted",
    "Opy.c102_attributes_partial",
    "Opy.c102_xids",
    "Opy.c102_classes",
    "Opy.c102_classifiers"
   ],
   "note": "violated for attributes of different classes (1 and 1.0 with the same key); proved for identifiers, event classes, classifiers, and for attributes of one class with comparable values"
  },
  {
   "property": "C103",
   "status": "proved",
   "theorems": [
    "Opy.c103_events",
    "Opy.c103_traces",
    "Opy.c103_logs"
   ],
   "note": ""
  },
  {
   "property": "C104",
   "status": "partial",
   "theorems": [
    "Opy.c104_event_refuted",
    "Opy.c104_extended_refuted",
    "Opy.c104_trace_iff",
    "Opy.c104_log_iff",
    "Opy.c104_content_partial"
   ],
   "note": "violated whenever there are events; proved: a clone is equal exactly if the original has no events, and has the same attributes with new identifiers"
  },
  {
   "property": "C105",
   "status": "proved",
   "theorems": [
    "Opy.c105_text"
   ],
   "note": ""
  },
  {
   "property": "C106",
   "status": "partial",
   "theorems": [
    "Opy.c106_refuted",
    "Opy.c106_prototype_partial",
    "Opy.c106_statistics",
    "Opy.c106_type_names"
   ],
   "note": "violated for every timestamp, list and container (AttributeError); proved for all others, nothing nested is kept"
  },
  {
   "property": "C107",
   "status": "partial",
   "theorems": [
    "Opy.c107_refuted",
    "Opy.c107_windows_refuted",
    "Opy.c107_millis_partial",
    "Opy.c107_constructor_partial"
   ],
   "note": "violated for every n that is not a full second, and on Windows before 2 January 1970; proved: exactly the full second is returned"
  },
  {
   "property": "C108",
   "status": "proved",
   "theorems": [
    "Opy.c108_delivery"
   ],
   "note": ""
  },
  {
   "property": "C109",
   "status": "partial",
   "theorems": [
    "Opy.c109_refuted",
    "Opy.c109_shape",
    "Opy.c109_number"
   ],
   "note": "violated for the number of attributes, which is smaller exactly if an option is drawn twice; the rest is proved"
  },
  {
   "property": "C110",
   "status": "proved",
   "theorems": [
    "Opy.c110_file",
    "Opy.c110_canonical",
    "Opy.c110_unique",
    "Opy.isXmlChar_iff"
   ],
   "note": "on the characters of the file, with the XML writers and the reader modelled"
  },
  {
   "property": "C111",
   "status": "partial",
   "theorems": [
    "Opy.c111_partial",
    "Opy.c111_refuted"
   ],
   "note": "violated: a control character (other than tab and line ends), U+FFFE or U+FFFF anywhere makes saving fail; proved: saving succeeds exactly if there is none"
  },
  {
   "property": "C112",
   "status": "partial",
   "theorems": [
    "Opy.c112_partial",
    "Opy.c112_refuted",
    "Opy.c112_modern"
   ],
   "note": "violated before Python 3.13, where each becomes a space (and a CR LF one or two); proved from 3.13 on, and exactly which values survive"
  },
  {
   "property": "C113",
   "status": "proved",
   "theorems": [
    "Opy.c113_file",
    "Opy.c113_names",
    "Opy.c113_illegal",
    "Opy.isXmlChar_iff"
   ],
   "note": "on the characters of the file"
  },
  {
   "property": "C114",
   "status": "proved",
   "theorems": [
    "Opy.c114_xes",
    "Opy.c114_xes_newline",
    "Opy.c114_mxml",
    "Opy.c114_mxml_newline",
    "Opy.c114_ends"
   ],
   "note": ""
  },
  {
   "property": "C115",
   "status": "proved",
   "theorems": [
    "Opy.c115_document",
    "Opy.c115_text",
    "Opy.c115_unique",
    "Opy.c115_bad_value"
   ],
   "note": "the meaning of a document is a relation given apart from the handler; dates see C44"
  },
  {
   "property": "C116",
   "status": "partial",
   "theorems": [
    "Opy.c116_refuted",
    "Opy.c116_partial"
   ],
   "note": "violated: they become attributes of the log (or of whatever is open); proved: such an element is loaded as if its content stood in its place"
  },
  {
   "property": "C117",
   "status": "proved",
   "theorems": [
    "Opy.c117_document",
    "Opy.c117_text",
    "Opy.c117_unique"
   ],
   "note": "the meaning of a document is a relation given apart from the handler"
  },
  {
   "property": "C118",
   "status": "proved",
   "theorems": [
    "Opy.c118_compressed",
    "Opy.c118_plain",
    "Opy.c118_encoding",
    "Opy.c118_refused",
    "Opy.c118_mxml",
    "Opy.c118_mxml_encoding",
    "Opy.c118_mxml_refused"
   ],
   "note": "gzip and the encodings other than UTF-8, latin-1 and ASCII are parameters with the law that decoding undoes encoding"
  },
  {
   "property": "C119",
   "status": "proved",
   "theorems": [
    "Opy.c119_xes",
    "Opy.c119_mxml"
   ],
   "note": "UTF-8"
  },
  {
   "property": "C120",
   "status": "partial",
   "theorems": [
    "Opy.c120_refuted",
    "Opy.c120_partial"
   ],
   "note": "violated: a text stream is read in the encoding of the platform whatever the document declares, so a UTF-8 document is read wrongly and without an error where that is latin-1; it holds for UTF-8 platforms and for ASCII documents"
  },
  {
   "property": "C121",
   "status": "proved",
   "theorems": [
    "Opy.c121_xes",
    "Opy.c121_mxml",
    "Opy.c121_cut"
   ],
   "note": "UTF-8 for plain files; gzip is a parameter with the law that decompressing undoes compressing"
  },
  {
   "property": "C122",
   "status": "partial",
   "theorems": [
    "Opy.c122_xes_as_mxml_refuted",
    "Opy.c122_mxml_as_xes_refuted",
    "Opy.c122_universal_refuted",
    "Opy.c122_no_mxml",
    "Opy.c122_no_xes"
   ],
   "note": "violated: every XES document the library saves is loaded by the MXML parser as an empty list and every MXML document by the XES parser as [None], without an error; proved exactly for all well-formed documents without any tag of the format"
  },
  {
   "property": "C123",
   "status": "partial",
   "theorems": [
    "Opy.c123_reads_partial",
    "Opy.c123_refuted",
    "Opy.c123_midnight_refuted"
   ],
   "note": "violated for fractions of more than six digits (as other tools write them) and for 24:00:00, which xs:dateTime allows: None is returned, for every such fraction; proved for all others. Years of four digits"
  },
  {
   "property": "C124",
   "status": "proved",
   "theorems": [
    "Opy.c124_exact",
    "Opy.c124_unique",
    "Opy.c124_none"
   ],
   "note": "digits of all scripts, where strptime and int() allow them; numbers of the zone are those of IntText (signs, white space and underscores as in int())"
  },
  {
   "property": "C125",
   "status": "partial",
   "theorems": [
    "Opy.c125_exact",
    "Opy.c125_refuted",
    "Opy.c125_stable_partial",
    "Opy.c125_sound"
   ],
   "note": "violated: the hash of a trace is that of a temporary super object, so it depends on the memory allocator; if it has changed, None is returned for every log and trace. Proved: what is returned, exactly; it is right if the hash stays the same and no later trace has the same events"
  },
  {
   "property": "C126",
   "status": "partial",
   "theorems": [
    "Opy.c126_other_partial",
    "Opy.c126_refuted",
    "Opy.c126_last_partial",
    "Opy.c126_order_partial",
    "Opy.c126_attributes"
   ],
   "note": "violated by set_instance, which changes the name, for every event and text that is not blank; proved for all other pairs of setters and getters"
  },
  {
   "property": "C127",
   "status": "partial",
   "theorems": [
    "Opy.c127_refuted",
    "Opy.c127_types_refuted",
    "Opy.c127_empty_partial"
   ],
   "note": "violated by every dict with an entry: amounts and drivers raise TypeError (a list as key of a dict), and a type is stored, as the class object, at a path of the characters of the key. Only the empty dict is right"
  },
  {
   "property": "C128",
   "status": "proved",
   "theorems": [
    "Opy.c128_again",
    "Opy.c128_example",
    "Opy.c128_adopt"
   ],
   "note": "the prefix has no colon and neither prefix nor URI was registered before; what reading means is DocSays of C115"
  },
  {
   "property": "C129",
   "status": "partial",
   "theorems": [
    "Opy.c129_reads",
    "Opy.c129_local",
    "Opy.c129_refuted"
   ],
   "note": "all seventeen extractors read the prescribed key; violated by the answers of extract_parent_id and extract_length for an event without the attribute"
  },
  {
   "property": "C130",
   "status": "proved",
   "theorems": [
    "Opy.c130_exact",
    "Opy.c130_disjoint",
    "Opy.c130_cached"
   ],
   "note": "sys.platform is an arbitrary text, which may even change between calls"
  },
  {
   "property": "C131",
   "status": "partial",
   "theorems": [
    "Opy.c131_exact",
    "Opy.c131_in_range",
    "Opy.c131_digits_partial",
    "Opy.c131_refuted"
   ],
   "note": "violated: 0x, signs, white space, underscores and digits of other scripts count as digits; proved: exactly which texts, and the claim for texts of hexadecimal digits and hyphens"
  },
  {
   "property": "C132",
   "status": "proved",
   "theorems": [
    "Opy.c132_file",
    "Opy.strptime_cell",
    "Opy.columnType_time"
   ],
   "note": "the whole script up to the saving, from the text of the file; cells without semicolon and line end; the year is written with four digits, the other numbers with one or two; the columns have different keys. How the rows are cut into traces is C96, the line end of texts in the last column C97"
  },
  {
   "property": "C133",
   "status": "partial",
   "theorems": [
    "Opy.c133_refuted",
    "Opy.c133_cell"
   ],
   "note": "violated by every file whose last column has a time pattern that does not end in white space: strptime raises ValueError for every text with a line end; proved: exactly this"
  },
  {
   "property": "C134",
   "status": "proved",
   "theorems": [
    "Opy.c134_reads",
    "Opy.c134_text",
    "Opy.c134_unique",
    "Opy.c134_tree",
    "Opy.c134_xes_layout",
    "Opy.c134_mxml_layout",
    "Opy.c134_xes",
    "Opy.c134_mxml"
   ],
   "note": "grammar of documents without document type, names in ASCII; the grammar excludes `]]>` in text as XML does"
  },
  {
   "property": "C135",
   "status": "proved",
   "theorems": [
    "Opy.c135_tree",
    "Opy.c135_xes",
    "Opy.c135_mxml"
   ],
   "note": ""
  },
  {
   "property": "C136",
   "status": "partial",
   "theorems": [
    "Opy.c136_refuted",
    "Opy.c136_states_partial"
   ],
   "note": "False as stated: the text has a blank where parse_date_time requires a T, so no timestamp written is read (for all dates); proved that the text states the time in full, with fraction and offset."
  },
  {
   "property": "C137",
   "status": "proved",
   "theorems": [
    "Opy.c137_raises",
    "Opy.c137_classes",
    "Opy.c137_indices",
    "Opy.c137_one_index",
    "Opy.c137_stable",
    "Opy.c137_harmonized"
   ],
   "note": ""
  },
  {
   "property": "C138",
   "status": "partial",
   "theorems": [
    "Opy.c138_refuted",
    "Opy.c138_exact"
   ],
   "note": "False as stated: __eq__ compares the classifiers only (for all sets of classes); proved: exactly this."
  },
  {
   "property": "C139",
   "status": "proved",
   "theorems": [
    "Opy.c139_document",
    "Opy.c139_file",
    "Opy.c139_settled",
    "Opy.c139_same",
    "Opy.c139_manager"
   ],
   "note": "The differences listed in the statement are part of it (Content.again)."
  },
  {
   "property": "C140",
   "status": "proved",
   "theorems": [
    "Opy.c140_events",
    "Opy.c140_file",
    "Opy.c140_manager"
   ],
   "note": "The differences listed in the statement are part of it (xesOfMxml)."
  },
  {
   "property": "C141",
   "status": "proved",
   "theorems": [
    "Opy.c141_determined",
    "Opy.c141_call",
    "Opy.c141_history",
    "Opy.c141_sharing",
    "Opy.c141_clone"
   ],
   "note": "The attributes the extensions keep are assumed to be where the registry put them (ProtosOk), which every call preserves."
  },
  {
   "property": "C142",
   "status": "partial",
   "theorems": [
    "Opy.c142_path_partial",
    "Opy.c142_ok",
    "Opy.c142_error",
    "Opy.c142_values_partial",
    "Opy.c142_values_ok",
    "Opy.c142_values_error",
    "Opy.c142_sharing",
    "Opy.c142_clone",
    "Opy.c142_any",
    "Opy.c142_values_any",
    "Opy.c142_independent_refuted"
   ],
   "note": "False for clones: a path whose first key exists in the original changes both (c142_clone says exactly when).  c142_path_partial and c142_values_partial describe the attribute trees of elements below which no map object is used twice (Unshared).  c142_any (one path) and c142_values_any (several) are for any well formed objects, also shared and cyclic ones, and say which objects change."
  },
  {
   "property": "C143",
   "status": "proved",
   "theorems": [
    "Opy.c143_identities",
    "Opy.c143_classes",
    "Opy.c143_bounds",
    "Opy.c143_info",
    "Opy.c143_prototypes",
    "Opy.c143_same_prototypes",
    "Opy.c143_tab_refuted",
    "Opy.c143_naive_refuted",
    "Opy.c143_foreign_key_refuted"
   ],
   "note": "The conditions are needed: the refutations show two classes that become one."
  },
  {
   "property": "C144",
   "status": "proved",
   "theorems": [
    "Opy.c144_continuous",
    "Opy.c144_model",
    "Opy.c144_cost"
   ],
   "note": ""
  },
  {
   "property": "C145",
   "status": "proved",
   "theorems": [
    "Opy.c145_definition",
    "Opy.c145_alias",
    "Opy.c145_row"
   ],
   "note": ""
  },
  {
   "property": "C146",
   "status": "proved",
   "theorems": [
    "Opy.c146_xes",
    "Opy.c146_mxml"
   ],
   "note": ""
  },
  {
   "property": "C147",
   "status": "proved",
   "theorems": [
    "Opy.c147_new",
    "Opy.c147_old",
    "Opy.c147_sound",
    "Opy.c147_two"
   ],
   "note": "Covers the XES parser with the standard factory; the elements, maps and attributes are objects of the heap, while extensions, values and classifiers are values of the model."
  },
  {
   "property": "C148",
   "status": "proved",
   "theorems": [
    "Opy.c148_variants",
    "Opy.c148_accepts",
    "Opy.c148_compressed",
    "Opy.c148_loaded"
   ],
   "note": ""
  },
  {
   "property": "C149",
   "status": "partial",
   "theorems": [
    "Opy.c149_exact",
    "Opy.c149_ends",
    "Opy.c149_refuted",
    "Opy.c149_more_refuted"
   ],
   "note": "True for logs whose traces have no activity twice and none in common (c149_exact); the refutations show a trace that is not accepted and an accepted sequence that is not a trace. C161 says what holds for the logs of structured processes."
  },
  {
   "property": "C150",
   "status": "proved",
   "theorems": [
    "Opy.c150_file"
   ],
   "note": "Covers headers with time columns made of dd, MM, yyyy, HH, mm, the columns Activity and Resource, and columns of integers; column names that become keys have no colon. The traces are those of C96, so the last piece of the file is missing."
  },
  {
   "property": "C151",
   "status": "partial",
   "theorems": [
    "Opy.c151_texts",
    "Opy.c151_refuted"
   ],
   "note": "True when the attributes named Resource or org:resource are texts; for other types the script fails, or writes a file that cannot be loaded, or one that says false."
  },
  {
   "property": "C152",
   "status": "proved",
   "theorems": [
    "Opy.c152_compress",
    "Opy.c152_cluster"
   ],
   "note": "For files that say a log in the sense of C124/C134 (DocSays); before Python 3.13, texts without tabs and line ends."
  },
  {
   "property": "C153",
   "status": "proved",
   "theorems": [
    "Opy.c153_loaded",
    "Opy.c153_refused",
    "Opy.c153_exact",
    "Opy.c153_text",
    "Opy.c153_says",
    "Opy.c153_dates",
    "Opy.c153_only_dates"
   ],
   "note": "Which dates cannot be read is C124; documents with elements in other places are C43, C51, C116 and C135."
  },
  {
   "property": "C154",
   "status": "proved",
   "theorems": [
    "Opy.c154_document",
    "Opy.c154_text",
    "Opy.c154_all",
    "Opy.c154_exact"
   ],
   "note": "The outcome is a relation on the elements in document order (MEnds); c154_exact: loaded or refused exactly as it says; c154_all: it covers every document with the usual nesting. Within a document that is not nested in this way nothing is claimed."
  },
  {
   "property": "C155",
   "status": "proved",
   "theorems": [
    "Opy.c155_exact",
    "Opy.c155_written",
    "Opy.c155_refused",
    "Opy.c155_again"
   ],
   "note": "Texts that are illegal in XML are C113/C140. The file that c155_again refuses: a data Attribute named semantic:modelReference with a modelReference (AttributeError)."
  },
  {
   "property": "C156",
   "status": "proved",
   "theorems": [
    "Opy.c156_read",
    "Opy.c156_refused",
    "Opy.c156_exact",
    "Opy.c156_text",
    "Opy.c156_malformed",
    "Opy.c156_file",
    "Opy.c156_undecodable",
    "Opy.c156_folder",
    "Opy.c156_web_refused",
    "Opy.c156_web"
   ],
   "note": "Encodings other than UTF-8 at addresses: C182. Names that were registered before an exception: C180."
  },
  {
   "property": "C157",
   "status": "partial",
   "theorems": [
    "Opy.c157_text",
    "Opy.c157_file",
    "Opy.c157_saved",
    "Opy.c157_refuted"
   ],
   "note": "True if no activity has a double quote in its name (and, for files where line ends are CR LF, no carriage return); with quotes, the refutation shows a log with one activity and a log with two whose nets have the same text."
  },
  {
   "property": "C158",
   "status": "proved",
   "theorems": [
    "Opy.c158_model",
    "Opy.c158_transition",
    "Opy.c158_references",
    "Opy.c158_uris",
    "Opy.pieces_unique"
   ],
   "note": "pieces_unique: the text has only one list of pieces, so the answer is determined. urlparse is an arbitrary function that may raise."
  },
  {
   "property": "C159",
   "status": "proved",
   "theorems": [
    "Opy.c159_reachable",
    "Opy.c159_raises",
    "Opy.c159_returns",
    "Opy.c159_mxml",
    "Opy.c159_clones"
   ],
   "note": "The methods of list on traces and logs are one call that gives the list behind it; what they raise is not described. set_value is excluded on the attributes that the extensions keep for cloning. Timestamp attributes are made and cloned with datetimes only. When loading raises is not described here (see C153), and a refused load is modelled as leaving no objects. (MXML: C154.)"
  },
  {
   "property": "C160",
   "status": "partial",
   "theorems": [
    "Opy.c160_exact",
    "Opy.c160_unchanged_partial",
    "Opy.c160_renamed_refuted",
    "Opy.c160_lost",
    "Opy.c160_back",
    "Opy.c160_cached",
    "Opy.c160_cached_iff",
    "Opy.c160_steps",
    "Opy.c160_summary"
   ],
   "note": "Violated: the dict of the summary is keyed by the classifier objects, whose hash is made of name and keys, so after set_name (with a name of another hash) the classes are found neither with the renamed classifier nor with one like it was, while the log still gives out the summary for it. STANDARD_CLASSIFIER is one object for all logs. Proved: exactly what is found, for all changes; it holds while the classifiers are unchanged and again when they are what they were."
  },
  {
   "property": "C161",
   "status": "proved",
   "theorems": [
    "Opy.c161_exact",
    "Opy.c161_finds",
    "Opy.c161_plain",
    "Opy.c161_same",
    "Opy.c161_all_runs",
    "Opy.c161_plain_refuted"
   ],
   "note": "Processes without loops. c161_plain says that the condition on the first and last activities is exactly what is needed for the net to accept the traces of the log; c161_plain_refuted shows a log where it does not hold."
  },
  {
   "property": "C162",
   "status": "partial",
   "theorems": [
    "Opy.c162_names",
    "Opy.c162_standard",
    "Opy.c162_same_partial",
    "Opy.c162_both_partial",
    "Opy.c162_one_class",
    "Opy.c162_no_times",
    "Opy.c162_resource_refuted",
    "Opy.c162_name_refuted"
   ],
   "note": "The classes by name are the names without white space around them, so they are the same exactly when the names are such; a classifier that asks for anything but name, transition or model reference finds one single class, and all time bounds are gone, as timestamps, resources and other attributes do not come back (C48)."
  },
  {
   "property": "C163",
   "status": "proved",
   "theorems": [
    "Opy.c163_names",
    "Opy.c163_mapping",
    "Opy.c163_text"
   ],
   "note": "mapping names are strings"
  },
  {
   "property": "C164",
   "status": "partial",
   "theorems": [
    "Opy.c164_kept",
    "Opy.c164_set",
    "Opy.c164_give",
    "Opy.c164_new",
    "Opy.c164_own",
    "Opy.c164_values",
    "Opy.c164_in_set",
    "Opy.c164_found",
    "Opy.c164_lost",
    "Opy.c164_shared_refuted"
   ],
   "note": "Violated when the program gives one XID object to two holders (XEvent(identity=...), set_id, set_value, assign_id): set_uuid then changes both. Proved: exactly who changes, that the library itself never shares an XID, and that without set_uuid identifiers act as values, which is how the rest of the model treats them."
  },
  {
   "property": "C165",
   "status": "proved",
   "theorems": [
    "Opy.c165_raises",
    "Opy.c165_step",
    "Opy.c165_keys",
    "Opy.c165_first",
    "Opy.c165_total",
    "Opy.c165_relative"
   ],
   "note": ""
  },
  {
   "property": "C166",
   "status": "proved",
   "theorems": [
    "Opy.c166_text",
    "Opy.c166_unique",
    "Opy.c166_same",
    "Opy.c166_stamp"
   ],
   "note": ""
  },
  {
   "property": "C167",
   "status": "partial",
   "theorems": [
    "Opy.c167_misplaced_refuted",
    "Opy.c167_last",
    "Opy.c167_partial",
    "Opy.c167_places",
    "Opy.c167_stored",
    "Opy.c167_derived"
   ],
   "note": "violated by assigned instances and currencies: read as the name before saving, as instance or currency after loading; exact answer for every saved log (the last attribute with that key of its own), the claim itself where attributes are stored under their own keys, and from the setters to the getters"
  },
  {
   "property": "C168",
   "status": "partial",
   "theorems": [
    "Opy.c168_refuted",
    "Opy.c168_partial",
    "Opy.c168_made",
    "Opy.c168_exact",
    "Opy.c168_clone"
   ],
   "note": "violated by events within events and traces within traces, which leave None in the trace or log; exactly these documents do"
  },
  {
   "property": "C169",
   "status": "proved",
   "theorems": [
    "Opy.c169_tree",
    "Opy.c169_unique",
    "Opy.c169_exact",
    "Opy.c169_loop",
    "Opy.c169_recursion",
    "Opy.c169_none",
    "Opy.c169_program",
    "Opy.c169_loaded"
   ],
   "note": ""
  },
  {
   "property": "C170",
   "status": "proved",
   "theorems": [
    "Opy.c170_objects",
    "Opy.c170_refused",
    "Opy.c170_unmodelled"
   ],
   "note": ""
  },
  {
   "property": "C171",
   "status": "partial",
   "theorems": [
    "Opy.c171_refuted",
    "Opy.c171_common_partial"
   ],
   "note": "violated by the attribute for the source, one object in all logs of a file; everything else is shown to be new and not shared"
  },
  {
   "property": "C172",
   "status": "partial",
   "theorems": [
    "Opy.c172_refuted",
    "Opy.c172_partial",
    "Opy.c172_exact",
    "Opy.c172_nested",
    "Opy.c172_useless"
   ],
   "note": "violated by entries within entries; the files that give None are described exactly"
  },
  {
   "property": "C173",
   "status": "proved",
   "theorems": [
    "Opy.c173_tree",
    "Opy.c173_shows",
    "Opy.c173_loop",
    "Opy.c173_none",
    "Opy.c173_program",
    "Opy.c173_loaded"
   ],
   "note": ""
  },
  {
   "property": "C174",
   "status": "proved",
   "theorems": [
    "Opy.c174_tree",
    "Opy.c174_glance",
    "Opy.c174_shows",
    "Opy.c174_loop",
    "Opy.c174_none",
    "Opy.c174_program"
   ],
   "note": ""
  },
  {
   "property": "C175",
   "status": "proved",
   "theorems": [
    "Opy.c175_extensions",
    "Opy.c175_values",
    "Opy.c175_raises",
    "Opy.c175_top",
    "Opy.c175_text",
    "Opy.c175_program"
   ],
   "note": "get_extensions, extract_nested_values and extract_values (with the three cost classes) and str() of attributes on objects that may be shared or lie within themselves. Exact conditions under which each of them returns, what it returns, and what it raises otherwise. That get_extensions and extract_nested_values never return anything but an empty result is C67 and C68 (violations of their documentation); here it is shown to hold for objects too."
  },
  {
   "property": "C176",
   "status": "proved",
   "theorems": [
    "Opy.c176_once",
    "Opy.c176_member",
    "Opy.c176_change"
   ],
   "note": "Places are keys of attribute maps and positions in lists of traces, events and globals; membership in a list or container is a second reference to an attribute by design (XesXmlParser.py:230-235) and counted separately. In the model every None that an ill-nested document puts into a list is an object of its own, so for None the theorems say nothing about Python."
  },
  {
   "property": "C177",
   "status": "proved",
   "theorems": [
    "Opy.c177_copy",
    "Opy.c177_canonical",
    "Opy.c177_apart",
    "Opy.c177_loop",
    "Opy.c177_program",
    "Opy.c177_again"
   ],
   "note": "The content of the copy is the normal form of C39 (what a file keeps); c177_canonical gives equal content for logs in that form. Values must have the types of their classes and texts must be legal in XML (C111 says what happens otherwise)."
  },
  {
   "property": "C178",
   "status": "proved",
   "theorems": [
    "Opy.c178_free",
    "Opy.c178_only_others",
    "Opy.c178_ends",
    "Opy.c178_swap",
    "Opy.c178_self",
    "Opy.c178_exact"
   ],
   "note": "Acceptance as in C149: from one token in the start place to one token in the end place and none elsewhere. An empty trace makes the script fail (C94), so the theorems assume that it returned a net."
  },
  {
   "property": "C179",
   "status": "proved",
   "theorems": [
    "Opy.c179_save",
    "Opy.c179_save_long",
    "Opy.c179_load",
    "Opy.c179_load_long",
    "Opy.c179_load_exact",
    "Opy.c179_date",
    "Opy.c179_file"
   ],
   "note": "The limit is a parameter; the other theorems about saving and loading are those for no limit (0) and by c179_save and c179_load hold for smaller integers under any limit. Saving as MXML writes attributes of one key only and is not repeated with the limit; nor are class identities (str of an attribute)."
  },
  {
   "property": "C180",
   "status": "partial",
   "theorems": [
    "Opy.c180_outcome",
    "Opy.c180_all",
    "Opy.c180_kept",
    "Opy.c180_retry",
    "Opy.c180_standard",
    "Opy.c180_refuted",
    "Opy.c180_stale"
   ],
   "note": "c180_refuted: an alias read before the fault stays registered. c180_kept and c180_all say exactly what is registered, c180_retry that a second attempt makes up for it, c180_stale that it does not if the alias was removed. Texts that are not XML at all are not covered (the reader may call the handler before it finds the error)."
  },
  {
   "property": "C181",
   "status": "proved",
   "theorems": [
    "Opy.c181_once",
    "Opy.c181_apart",
    "Opy.c181_new",
    "Opy.c181_change"
   ],
   "note": "Places as in C176. In the model every None that an ill-nested file puts into a trace is an object of its own, so for None the theorems say nothing about Python. That the logs do share their source is C171."
  },
  {
   "property": "C182",
   "status": "partial",
   "theorems": [
    "Opy.c182_reads",
    "Opy.c182_mark",
    "Opy.c182_compressed",
    "Opy.c182_web",
    "Opy.c182_mismatch",
    "Opy.c182_mismatch16",
    "Opy.c182_undecodable",
    "Opy.declared_says",
    "Opy.c182_partial",
    "Opy.c182_refuted"
   ],
   "note": "violated by plain files, which are read in the encoding of the platform whatever they declare (c182_refuted; c182_partial: right if the two agree); proved for compressed files and addresses"
  },
  {
   "property": "C183",
   "status": "proved",
   "theorems": [
    "Opy.c183_only",
    "Opy.c183_decl",
    "Opy.c183_refused",
    "Opy.c183_plain"
   ],
   "note": "the grammar of c183_only leaves out what the model does not check (characters of names above ASCII, `]]>` in texts, targets of processing instructions); where expat is stricter the text is refused all the more"
  },
  {
   "property": "C184",
   "status": "proved",
   "theorems": [
    "Opy.c184_dates",
    "Opy.c184_frame",
    "Opy.c184_set",
    "Opy.c184_read",
    "Opy.c184_new",
    "Opy.c184_clone",
    "Opy.c184_clone_same",
    "Opy.c184_missing",
    "Opy.c184_attr",
    "Opy.c184_clone_refuted"
   ],
   "note": "a clone does not always equal its original (c184_clone_refuted); the claim says exactly when"
  },
  {
   "property": "C185",
   "status": "proved",
   "theorems": [
    "Opy.c185_times",
    "Opy.c185_sorted",
    "Opy.c185_zones",
    "Opy.c185_insert",
    "Opy.c185_place",
    "Opy.c185_place_refuted"
   ],
   "note": "the condition on the place is needed (c185_place_refuted)"
  },
  {
   "property": "C186",
   "status": "proved",
   "theorems": [
    "Opy.c186_skeleton",
    "Opy.c186_clone",
    "Opy.c186_order",
    "Opy.c186_results",
    "Opy.c186_program",
    "Opy.c186_later",
    "Opy.c186_file_refuted",
    "Opy.c186_values_refuted"
   ],
   "note": "that the files can differ in the order of the extensions (c186_file_refuted) is part of the statement; that values set through the clone are in the file of the log (c186_values_refuted) is the sharing of C33"
  },
  {
   "property": "C187",
   "status": "proved",
   "theorems": [
    "Opy.c187_summaries",
    "Opy.c187_classes",
    "Opy.c187_summary_classes",
    "Opy.c187_nested",
    "Opy.c187_when",
    "Opy.c187_clusters",
    "Opy.c187_when_refuted"
   ],
   "note": "c187_when_refuted shows that the condition on the types of a key is needed"
  },
  {
   "property": "C188",
   "status": "proved",
   "theorems": [
    "Opy.c188_file",
    "Opy.c188_loaded",
    "Opy.c188_others",
    "Opy.c188_manager",
    "Opy.c188_order_refuted"
   ],
   "note": "c188_order_refuted shows that the condition on the manager is needed for the extensions to be the same objects"
  }
 ]
}