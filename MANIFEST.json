{
 "claims": [
  {
   "property": "C01",
   "status": "proved",
   "theorems": [
    "Toron.Partitions.C01_structure_is_exactly_the_unions",
    "Toron.Partitions.C01_structure_nodup",
    "Toron.Partitions.C01_structure_starts_with_empty",
    "Toron.Partitions.C01_structure_closed_under_union"
   ],
   "note": ""
  },
  {
   "property": "C02",
   "status": "proved",
   "theorems": [
    "Toron.Partitions.C02_minimal_generates_same",
    "Toron.Partitions.C02_minimal_subset",
    "Toron.Partitions.C02_minimal_irredundant",
    "Toron.Partitions.C02_minimal_nodup",
    "Toron.Partitions.C02_minimal_is_least",
    "Toron.Partitions.C02_minimal_card"
   ],
   "note": ""
  },
  {
   "property": "C03",
   "status": "partial",
   "theorems": [
    "Toron.Space.C03_kept_partial",
    "Toron.Space.C03_added",
    "Toron.Space.C03_whole",
    "Toron.Space.C03_repeat",
    "Toron.Space.C03_single_partial",
    "Toron.Space.C03_violated"
   ],
   "note": "Validity of the new sets, of the whole space and idempotence: for all states. That old combinations stay valid: for histories in which no column is renamed after columns were dropped; false otherwise (C03_violated)."
  },
  {
   "property": "C04",
   "status": "partial",
   "theorems": [
    "Toron.Selectors.C04_greatest_unique",
    "Toron.Selectors.C04_key_order_irrelevant",
    "Toron.Selectors.C04_selector_order_irrelevant",
    "Toron.Selectors.C04_getMatchingKey_partial",
    "Toron.Selectors.C04_order_violated"
   ],
   "note": "get_greatest_unique_specificity: proved in full. GetMatchingKey: proved for selectors without repeated parts in a compound; order dependence otherwise is a defect (C04_order_violated)."
  },
  {
   "property": "C05",
   "status": "partial",
   "theorems": [
    "Toron.Selectors.C05_simple_matches_iff",
    "Toron.Selectors.C05_matching_is_total",
    "Toron.Selectors.C05_is_matches_iff",
    "Toron.Selectors.C05_where_matches_iff",
    "Toron.Selectors.C05_not_matches_iff",
    "Toron.Selectors.C05_compound_matches_iff",
    "Toron.Selectors.C05_simple_specificity",
    "Toron.Selectors.C05_compound_specificity",
    "Toron.Selectors.C05_is_specificity",
    "Toron.Selectors.C05_not_specificity",
    "Toron.Selectors.C05_where_specificity",
    "Toron.Selectors.C05_constructor_accepts_iff",
    "Toron.Selectors.C05_constructors_wellformed_partial",
    "Toron.Selectors.C05_nested_is_violated"
   ],
   "note": "Proved for all well-formed selector trees. :is() around a single :is() makes an object that contains itself (C05_nested_is_violated). str.upper is a parameter; the grammar of texts is in C62."
  },
  {
   "property": "C06",
   "status": "partial",
   "theorems": [
    "Toron.Selectors.C06_equal_selectors_match_same_partial",
    "Toron.Selectors.C06_equal_ascii_selectors_match_same",
    "Toron.Selectors.C06_equal_selectors_same_specificity_partial",
    "Toron.Selectors.C06_equality_symm_trans",
    "Toron.Selectors.C06_specificity_violated",
    "Toron.Selectors.C06_unicode_violated"
   ],
   "note": "False of the code in two ways (repeated parts in a compound; case folding outside ASCII); proved otherwise."
  },
  {
   "property": "C07",
   "status": "proved",
   "theorems": [
    "Toron.BitFlags.C07_decode_encode",
    "Toron.BitFlags.C07_encode_decode",
    "Toron.BitFlags.C07_bytes_roundtrip",
    "Toron.BitFlags.C07_ofBytes_bits",
    "Toron.BitFlags.C07_eq_iff_same_bits",
    "Toron.BitFlags.C07_eqBits_iff_same_bits",
    "Toron.BitFlags.C07_no_trailing_zero_byte",
    "Toron.BitFlags.C07_len",
    "Toron.BitFlags.C07_len_minimal",
    "Toron.BitFlags.C07_getItem",
    "Toron.BitFlags.C07_getSlice"
   ],
   "note": ""
  },
  {
   "property": "C08",
   "status": "proved",
   "theorems": [
    "Toron.BitFlags.C08_or_is_union",
    "Toron.BitFlags.C08_or_eq_left_iff_subset",
    "Toron.BitFlags.C08_or_comm",
    "Toron.BitFlags.C08_or_assoc",
    "Toron.BitFlags.C08_or_self"
   ],
   "note": ""
  },
  {
   "property": "C09",
   "status": "proved",
   "theorems": [
    "Toron.C09_accepts_iff",
    "Toron.C09_fingerprint_determines_ids"
   ],
   "note": ""
  },
  {
   "property": "C10",
   "status": "proved",
   "theorems": [
    "Toron.C10_splitmix64_bijective",
    "Toron.C10_no_ties"
   ],
   "note": ""
  },
  {
   "property": "C11",
   "status": "partial",
   "theorems": [
    "Toron.C11_quantize_preserves_total_partial",
    "Toron.C11_mixed_signs_violated",
    "Toron.C11_mixed_signs_error"
   ],
   "note": "Proved for items of one sign. False of the code for mixed signs: C11_mixed_signs_violated."
  },
  {
   "property": "C12",
   "status": "proved",
   "theorems": [
    "Toron.C12_quantize_order_independent"
   ],
   "note": ""
  },
  {
   "property": "C13",
   "status": "proved",
   "theorems": [
    "Toron.C13_split_conserves",
    "Toron.C13_missing_weight_is_error",
    "Toron.C13_no_records_is_error",
    "Toron.C13_split_proportional",
    "Toron.C13_split_even",
    "Toron.C13_undefined_gets_nothing",
    "Toron.C13_split_nonneg"
   ],
   "note": ""
  },
  {
   "property": "C14",
   "status": "proved",
   "theorems": [
    "Toron.Space.C14_read",
    "Toron.Space.C14_totals",
    "Toron.Space.C14_succeeds"
   ],
   "note": ""
  },
  {
   "property": "C15",
   "status": "partial",
   "theorems": [
    "Toron.Space.C15_proportions_partial",
    "Toron.Space.C15_proportions_violated",
    "Toron.Space.C15_negative_violated"
   ],
   "note": "Violated after a link is dropped in a reopened dataspace (its mappings stay behind and are taken over by a new link) and for source records with negative ids; proved for all other histories."
  },
  {
   "property": "C16",
   "status": "proved",
   "theorems": [
    "Toron.Space.C16_merge_weights",
    "Toron.Space.C16_merge_mappings",
    "Toron.Space.C16_update_index"
   ],
   "note": ""
  },
  {
   "property": "C17",
   "status": "partial",
   "theorems": [
    "Toron.Space.C17_split",
    "Toron.Space.C17_conserves",
    "Toron.Space.C17_succeeds",
    "Toron.Space.C17_end_to_end",
    "Toron.Space.C17_stale_violated"
   ],
   "note": "Proved for targets without dangling mappings (no drop of a link after reopening) and without hand-set fingerprints, and readers whose rows are about records the source has now. A reader older than a deletion in the source loses quantities if the link was re-made since (C17_stale_violated)."
  },
  {
   "property": "C18",
   "status": "partial",
   "theorems": [
    "Toron.Space.C18_conserves_partial",
    "Toron.Space.C18_split",
    "Toron.Space.C18_undefined_violated",
    "Toron.Space.C18_stale_violated"
   ],
   "note": "Proved for quantities at defined records when the complete links with selectors were made for the present source records. False for quantities at the undefined record (C18_undefined_violated) and when a link with selectors is out of date (C18_stale_violated). _translate is modelled without quantization, as the code has none there."
  },
  {
   "property": "C19",
   "status": "proved",
   "theorems": [
    "Toron.Space.C19_current",
    "Toron.Space.C19_choice",
    "Toron.Space.C19_refused"
   ],
   "note": "The fingerprint is modelled as the sequence of ids that is hashed, so collisions of SHA-256 are left out."
  },
  {
   "property": "C20",
   "status": "partial",
   "theorems": [
    "Toron.Space.C20_links_by_ref",
    "Toron.Space.C20_links_by_ref_fails",
    "Toron.Space.C20_get_link",
    "Toron.Space.C20_find_by_unique_id",
    "Toron.Space.C20_find_ambiguous_violated"
   ],
   "note": "The lookup by reference and name is proved unambiguous. The lookup made when data are translated may find links of several dataspaces (C20_find_ambiguous_violated)."
  },
  {
   "property": "C21",
   "status": "proved",
   "theorems": [
    "Toron.Space.C21_ids_distinct",
    "Toron.Space.C21_undefined_permanent",
    "Toron.Space.C21_undefined_unique",
    "Toron.Space.C21_ids_never_reused"
   ],
   "note": ""
  },
  {
   "property": "C22",
   "status": "proved",
   "theorems": [
    "Toron.Space.C22_labels_unique",
    "Toron.Space.C22_labels_nonempty"
   ],
   "note": ""
  },
  {
   "property": "C23",
   "status": "proved",
   "theorems": [
    "Toron.Space.C23_fingerprint_current"
   ],
   "note": ""
  },
  {
   "property": "C24",
   "status": "partial",
   "theorems": [
    "Toron.Space.C24_chosen_records",
    "Toron.Space.C24_no_dangling",
    "Toron.Space.C24_ambiguous",
    "Toron.Space.C24_other_links_partial",
    "Toron.Space.C24_other_links_violated",
    "Toron.Space.C24_succeeds",
    "Toron.Space.C24_mappings"
   ],
   "note": "Violated: proportions of other links from the same source record are recomputed too. Everything else is proved for all reachable states."
  },
  {
   "property": "C25",
   "status": "partial",
   "theorems": [
    "Toron.Space.C25_disappear_partial",
    "Toron.Space.C25_noop_rejected_violated",
    "Toron.Space.C25_noop_merge_violated"
   ],
   "note": "Violated: an update to the labels a record already has is refused, and with merging it removes the record. Proved for rows that change labels."
  },
  {
   "property": "C26",
   "status": "partial",
   "theorems": [
    "Toron.Space.C26_all_or_nothing_partial",
    "Toron.Space.C26_reify_violated"
   ],
   "note": "Violated by reify_mappings only; proved for every other operation in every reachable state."
  },
  {
   "property": "C27",
   "status": "partial",
   "theorems": [
    "Toron.Space.C27_drop_link_partial",
    "Toron.Space.C27_new_link_empty_partial",
    "Toron.Space.C27_drop_link_violated",
    "Toron.Space.C27_drop_weight_group_partial",
    "Toron.Space.C27_drop_weight_group_violated",
    "Toron.Space.C27_no_orphans_partial"
   ],
   "note": "Violated in dataspaces reopened from a file, where foreign keys are off; proved for all other histories."
  },
  {
   "property": "C28",
   "status": "partial",
   "theorems": [
    "Toron.Space.C28_weights_well_formed",
    "Toron.Space.C28_references_partial",
    "Toron.Space.C28_references_violated"
   ],
   "note": "Violated in dataspaces reopened from a file, where foreign keys are off (references only); the rest is proved for all reachable states."
  },
  {
   "property": "C29",
   "status": "proved",
   "theorems": [
    "Toron.Space.C29_group_complete"
   ],
   "note": ""
  },
  {
   "property": "C30",
   "status": "proved",
   "theorems": [
    "Toron.Space.C30_link_complete"
   ],
   "note": ""
  },
  {
   "property": "C31",
   "status": "proved",
   "theorems": [
    "Toron.Space.C31_names_unique",
    "Toron.Space.C31_one_default",
    "Toron.Space.C31_add_default",
    "Toron.Space.C31_edit_default"
   ],
   "note": ""
  },
  {
   "property": "C32",
   "status": "proved",
   "theorems": [
    "Toron.Space.C32_weights",
    "Toron.Space.C32_weights_new_group",
    "Toron.Space.C32_weights_unknown",
    "Toron.Space.C32_quantities",
    "Toron.Space.C32_quantities_table",
    "Toron.Space.C32_anchored"
   ],
   "note": "insert_weights and insert_quantities2, for any sequence of rows. Quantities: for dataspaces in which no registered attribute has an empty name and every quantity has its location and attribute group (C32_anchored). A policy name that is none of the four is an error (C32_weights_unknown)."
  },
  {
   "property": "C33",
   "status": "proved",
   "theorems": [
    "Toron.Space.C33_quantities_unique",
    "Toron.Space.C33_sum"
   ],
   "note": "The totals are for dataspaces in which no registered attribute has an empty name and every quantity has its location and attribute group (true while foreign keys are enforced, C32_anchored)."
  },
  {
   "property": "C34",
   "status": "partial",
   "theorems": [
    "Toron.Space.C34_list_without_index_partial",
    "Toron.Space.C34_list_unmatched_partial",
    "Toron.Space.C34_list_succeeds",
    "Toron.Space.C34_delete_without_index_partial",
    "Toron.Space.C34_delete_unmatched_partial",
    "Toron.Space.C34_then_readable",
    "Toron.Space.C34_violated_undefined",
    "Toron.Space.C34_violated_reopened",
    "Toron.Space.C34_list_no_header",
    "Toron.Space.C34_violated_header"
   ],
   "note": "Proved for reachable dataspaces with foreign keys on. Three ways in which the code differs: a location that matches only the undefined record is listed as unmatched (C34_violated_undefined), deletions after reopening leave quantities behind (C34_violated_reopened), header=False raises (C34_violated_header)."
  },
  {
   "property": "C35",
   "status": "proved",
   "theorems": [
    "Toron.Space.C35_names_disjoint"
   ],
   "note": ""
  },
  {
   "property": "C36",
   "status": "proved",
   "theorems": [
    "Toron.Space.C36_moved",
    "Toron.Space.C36_unknown",
    "Toron.Space.C36_perm",
    "Toron.Space.C36_change_attribute_order",
    "Toron.Space.C36_change_label_order"
   ],
   "note": ""
  },
  {
   "property": "C37",
   "status": "partial",
   "theorems": [
    "Toron.Space.C37_display_order_partial",
    "Toron.Space.C37_violated"
   ],
   "note": "Proved for histories without renaming or dropping columns after the display order was changed; false otherwise (C37_violated)."
  },
  {
   "property": "C38",
   "status": "partial",
   "theorems": [
    "Toron.Space.C38_defs_are_columns_partial",
    "Toron.Space.C38_defs_generate_whole_partial",
    "Toron.Space.C38_rename_partial",
    "Toron.Space.C38_violated"
   ],
   "note": "Proved for histories without dropped columns; dropping leaves stale definitions (C38_violated)."
  },
  {
   "property": "C39",
   "status": "proved",
   "theorems": [
    "Toron.Mapper.C39_shares"
   ],
   "note": ""
  },
  {
   "property": "C40",
   "status": "proved",
   "theorems": [
    "Toron.Mapper.C40_pairs",
    "Toron.Mapper.C40_conserves",
    "Toron.Mapper.C40_symmetric"
   ],
   "note": ""
  },
  {
   "property": "C41",
   "status": "partial",
   "theorems": [
    "Toron.Space.C41_elements",
    "Toron.Space.C41_all_listed",
    "Toron.Space.C41_flag_violated"
   ],
   "note": "Proved for links whose completeness flag and fingerprint were not set by hand (C41_flag_violated otherwise)."
  },
  {
   "property": "C42",
   "status": "partial",
   "theorems": [
    "Toron.Space.C42_stats",
    "Toron.Space.C42_sums",
    "Toron.Space.C42_dangling_violated"
   ],
   "note": "Proved while foreign keys are enforced and no fingerprint was set by hand; otherwise C42_dangling_violated."
  },
  {
   "property": "C43",
   "status": "partial",
   "theorems": [
    "Toron.Space.C43_output",
    "Toron.Space.C43_output_succeeds",
    "Toron.Space.C43_pivot",
    "Toron.Space.C43_pivot_mean",
    "Toron.Space.C43_pivot_total",
    "Toron.Space.C43_header",
    "Toron.Space.C43_header_violated"
   ],
   "note": "Output and pivots: proved in full. Pivoted headers are distinct among themselves but can equal a label column (C43_header_violated)."
  },
  {
   "property": "C44",
   "status": "partial",
   "theorems": [
    "Toron.Save.C44_old_or_new",
    "Toron.Save.C44_saved",
    "Toron.Save.C44_no_temporary_file",
    "Toron.Save.C44_refused",
    "Toron.Save.C44_histories",
    "Toron.Save.C44_durable",
    "Toron.Save.C44_violated_without_fsync",
    "Toron.Save.C44_violated_interrupted",
    "Toron.Save.C44_late_error_is_masked"
   ],
   "note": "Proved for every stop point of a save, and for all histories of saves with fsync, errors, interruptions and power failures. False for power failures when fsync=False (C44_violated_without_fsync) and, for the temporary file, when the save is interrupted by something that is not an Exception, such as KeyboardInterrupt (C44_violated_interrupted)."
  },
  {
   "property": "C45",
   "status": "proved",
   "theorems": [
    "Toron.Migrate.C45_totals",
    "Toron.Migrate.C45_mappings",
    "Toron.Migrate.C45_tables",
    "Toron.Migrate.C45_attributes",
    "Toron.Migrate.C45_domain",
    "Toron.Migrate.C45_v030",
    "Toron.Migrate.C45_failed",
    "Toron.Migrate.C45_crash",
    "Toron.Migrate.C45_readonly",
    "Toron.Migrate.C45_twice",
    "Toron.Migrate.C45_succeeds",
    "Toron.Migrate.C45_text_values_are_lost",
    "Toron.Migrate.C45_domains_may_coincide"
   ],
   "note": "Any file of schema 0.2.0, 0.3.0 or an unknown version, statement by statement, with every crash point. A text in an old value column silently becomes the number SQLite's SUM makes of it (C45_text_values_are_lost), different old domains can become equal (C45_domains_may_coincide), and files with dangling references cannot be migrated (the call fails and the file stays as it was)."
  },
  {
   "property": "C46",
   "status": "partial",
   "theorems": [
    "Toron.IndexCode.C46_round_trip",
    "Toron.IndexCode.C46_accepts_iff",
    "Toron.IndexCode.C46_changed_id_partial",
    "Toron.IndexCode.C46_foreign_partial",
    "Toron.IndexCode.C46_foreign_iff",
    "Toron.IndexCode.C46_violated_changed_id",
    "Toron.IndexCode.C46_violated_foreign",
    "Toron.IndexCode.C46_violated_test"
   ],
   "note": "Round trip, the set of accepted texts and their uniqueness: for all ids. Detection of changes: for a change within 32 bits of the packed id and for uids that differ in one 32-bit window (a burst); false in general, since a CRC collides (C46_violated_changed_id, C46_violated_foreign); the codes of another dataset are all accepted exactly if the checksums of the unique ids agree (C46_foreign_iff); is_index_code raises instead of returning False for numbers beyond 64 bits (C46_violated_test)."
  },
  {
   "property": "C47",
   "status": "partial",
   "theorems": [
    "Toron.Tabular.C47_narrow",
    "Toron.Tabular.C47_narrow_succeeds",
    "Toron.Tabular.C47_narrow_total",
    "Toron.Tabular.C47_narrow_lossless",
    "Toron.Tabular.C47_long_partial",
    "Toron.Tabular.C47_long_total_partial",
    "Toron.Tabular.C47_long_seq_partial",
    "Toron.Tabular.C47_violated_collision",
    "Toron.Tabular.C47_violated_empty",
    "Toron.Tabular.C47_violated_keys"
   ],
   "note": "wide_to_narrow: in full. wide_to_long: for rows with the keys of the first row and new column names that are not in use; the code checks neither (C47_violated_collision, C47_violated_keys) and fails on a table without rows (C47_violated_empty)."
  },
  {
   "property": "C48",
   "status": "proved",
   "theorems": [
    "Toron.C48_same",
    "Toron.C48_value",
    "Toron.C48_nonneg",
    "Toron.C48_le_log",
    "Toron.C48_maximal_iff",
    "Toron.C48_zero_iff",
    "Toron.C48_coarser_le",
    "Toron.C48_compare",
    "Toron.Space.C48_more_columns"
   ],
   "note": ""
  },
  {
   "property": "C49",
   "status": "partial",
   "theorems": [
    "Toron.Space.C49_current_partial",
    "Toron.Space.C49_violated_replace",
    "Toron.Space.C49_violated_drop"
   ],
   "note": "Violated by dropping columns and by replacing labels while inserting; proved for histories without these."
  },
  {
   "property": "C50",
   "status": "proved",
   "theorems": [
    "Toron.Text.C50_accepts_iff",
    "Toron.Text.C50_reads_back",
    "Toron.Text.C50_injective",
    "Toron.Text.C50_columns"
   ],
   "note": ""
  },
  {
   "property": "C51",
   "status": "partial",
   "theorems": [
    "Toron.Text.C51_only_open",
    "Toron.Text.C51_fields_partial",
    "Toron.Text.C51_up_to_eight_partial",
    "Toron.Text.C51_text",
    "Toron.Text.C51_violated_ninth",
    "Toron.Text.C51_violated_empty"
   ],
   "note": "What is listed is given exactly for all inputs (C51_only_open); it is the full listing as long as the level has a bit for every column (always with up to eight columns and a non-empty level). Columns past the last non-zero byte are dropped (C51_violated_ninth, C51_violated_empty)."
  },
  {
   "property": "C52",
   "status": "proved",
   "theorems": [
    "Toron.Tabular.C52_accepts_iff",
    "Toron.Tabular.C52_refuses"
   ],
   "note": ""
  },
  {
   "property": "C53",
   "status": "partial",
   "theorems": [
    "Toron.Space.C53_valid_partial",
    "Toron.Space.C53_valid_dropped_partial",
    "Toron.Space.C53_once",
    "Toron.Space.C53_violated"
   ],
   "note": "Proved for histories without dropped columns, and in a modified form for histories that do not rename after dropping; false in general (C53_violated)."
  },
  {
   "property": "C54",
   "status": "partial",
   "theorems": [
    "Toron.Space.C54_group_unique",
    "Toron.Space.C54_group_exists",
    "Toron.Space.C54_split_or_one",
    "Toron.Space.C54_split_partial",
    "Toron.Space.C54_violated_dash",
    "Toron.Space.C54_violated_stale"
   ],
   "note": "For all histories: each share is split as stated, or its whole quantity went to one matching record because its combination has the greatest stored granularity (C54_split_or_one). In full for histories in which stored granularities are current, without the label '-' on defined records. False otherwise: C54_violated_stale, C54_violated_dash."
  },
  {
   "property": "C55",
   "status": "partial",
   "theorems": [
    "Toron.Space.C55_index",
    "Toron.Space.C55_weights",
    "Toron.Space.C55_mappings_partial",
    "Toron.Space.C55_quantities",
    "Toron.Space.C55_quantities_all",
    "Toron.Space.C55_quantities2_partial",
    "Toron.Space.C55_violated_unknown_column",
    "Toron.Space.C55_violated_mappings_never",
    "Toron.Space.C55_violated_mappings",
    "Toron.Space.C55_violated_quantities2"
   ],
   "note": "Index, weights and quantities: in full for criteria on existing columns. Mappings to the undefined record are never listed (C55_violated_mappings), the newer quantity listing hides unregistered attributes (C55_violated_quantities2), and a criterion on an unknown column is read as a text literal (C55_violated_unknown_column)."
  },
  {
   "property": "C56",
   "status": "proved",
   "theorems": [
    "Toron.Space.C56_fingerprint"
   ],
   "note": ""
  },
  {
   "property": "C57",
   "status": "proved",
   "theorems": [
    "Toron.Space.C57_weights"
   ],
   "note": ""
  },
  {
   "property": "C58",
   "status": "proved",
   "theorems": [
    "Toron.Mapper.C58_sound",
    "Toron.Mapper.C58_limit",
    "Toron.Mapper.C58_single",
    "Toron.Mapper.C58_overlapping",
    "Toron.Mapper.C58_exclusive",
    "Toron.Mapper.C58_order"
   ],
   "note": ""
  },
  {
   "property": "C59",
   "status": "partial",
   "theorems": [
    "Toron.Mapper.C59_inserted",
    "Toron.Mapper.C59_loaded_partial",
    "Toron.Mapper.C59_fullyMatched",
    "Toron.Mapper.C59_blank_violated"
   ],
   "note": "Proved except for rows without any label on the target's side: these are matched (and count as fully matched) but silently not stored (C59_blank_violated)."
  },
  {
   "property": "C60",
   "status": "proved",
   "theorems": [
    "Toron.Space.C60_delete",
    "Toron.Space.C60_reify"
   ],
   "note": ""
  },
  {
   "property": "C61",
   "status": "partial",
   "theorems": [
    "Toron.Space.C61_data",
    "Toron.Space.C61_valid_partial",
    "Toron.Space.C61_quantities_partial",
    "Toron.Space.C61_mappings_partial",
    "Toron.Space.C61_whole",
    "Toron.Space.C61_succeeds_partial",
    "Toron.Space.C61_violated"
   ],
   "note": "Proved for histories in which no column was dropped (C61_data for all). After a column has been dropped no column can be added at all: the call fails with an integrity or runtime error (C61_violated)."
  },
  {
   "property": "C62",
   "status": "partial",
   "theorems": [
    "Toron.Selectors.C62_read_iff",
    "Toron.Selectors.C62_unambiguous",
    "Toron.Selectors.C62_leading_blanks",
    "Toron.Selectors.C62_roundtrip",
    "Toron.Selectors.C62_text_injective",
    "Toron.Selectors.C62_value_roundtrip_iff",
    "Toron.Selectors.C62_reprint_partial",
    "Toron.Selectors.C62_violated_reprint",
    "Toron.Selectors.C62_violated_unquoted",
    "Toron.Selectors.C62_violated_nested_compound"
   ],
   "note": "Reading: accepted texts are exactly those of the grammar, for all texts, with a unique reading. Writing: exact condition for values. Violated for single-quoted values with a backslash before a double quote, for compounds inside containers, and for unquoted values, which the grammar allows and the transformer loses."
  },
  {
   "property": "C63",
   "status": "partial",
   "theorems": [
    "Toron.MappingCsv.C63_rows_partial",
    "Toron.MappingCsv.C63_plain",
    "Toron.MappingCsv.C63_violated_name",
    "Toron.MappingCsv.C63_violated_order"
   ],
   "note": "For all tables without assumptions: if a table is read, every line says what its row says (C63_rows_partial; that reading succeeds is proved for tables without codes, C63_plain, and for written tables, C64). Violated if a label column has the name of the link (the label is taken for the value), and whether a table with labels like index codes can be read depends on the order of rows. parse_edge_shorthand is a parameter."
  },
  {
   "property": "C64",
   "status": "partial",
   "theorems": [
    "Toron.MappingCsv.C64_pairs",
    "Toron.MappingCsv.C64_same",
    "Toron.MappingCsv.C64_loaded",
    "Toron.MappingCsv.C64_violated_level",
    "Toron.MappingCsv.C64_violated_self",
    "Toron.MappingCsv.C64_violated_name",
    "Toron.MappingCsv.C64_violated_limit"
   ],
   "note": "For all reachable states before and after, under conditions on the header and cells that make the columns distinguishable. Violated for ambiguous levels (lost), mappings of a dataset onto itself, links named like a label column, and limits as large as the number of records (unmapped records get mappings of value zero)."
  },
  {
   "property": "C65",
   "status": "proved",
   "theorems": [
    "Toron.Space.C65_records",
    "Toron.Space.C65_added",
    "Toron.Space.C65_abort",
    "Toron.Space.C65_weights_final",
    "Toron.Space.C65_accepts",
    "Toron.Space.C65_in_turn",
    "Toron.Space.C65_weights"
   ],
   "note": "C65_weights and C65_in_turn cover every load, row by row; C65_weights_final is a simpler form for loads that do not mix ids and new labels."
  },
  {
   "property": "C66",
   "status": "partial",
   "theorems": [
    "Toron.IndexCsv.C66_violated",
    "Toron.IndexCsv.C66_unchanged",
    "Toron.IndexCsv.C66_restored",
    "Toron.IndexCsv.C66_copied",
    "Toron.IndexCsv.C66_violated_swapped",
    "Toron.IndexCsv.C66_header",
    "Toron.IndexCsv.C66_codes"
   ],
   "note": "Violated for the whole output as soon as there is a weight group: it contains the undefined record with weight 0, which is refused. Without that row: proved for all reachable states, under conditions that make the columns distinguishable. Violated also when records exchanged labels in between."
  },
  {
   "property": "C67",
   "status": "partial",
   "theorems": [
    "Toron.QuantCsv.C67_written",
    "Toron.QuantCsv.C67_loaded_partial",
    "Toron.QuantCsv.C67_copied_partial",
    "Toron.QuantCsv.C67_unchanged_partial",
    "Toron.QuantCsv.C67_refused_partial",
    "Toron.QuantCsv.C67_violated_lost",
    "Toron.QuantCsv.C67_violated_mixed",
    "Toron.QuantCsv.C67_violated_name"
   ],
   "note": "Proved if no column is named `quantity` and every attribute in use is registered (C67_loaded_partial, C67_copied_partial, C67_unchanged_partial, C67_refused_partial). Without the first, values are read as labels (C67_violated_name); without the second, quantities are skipped silently or merged (C67_violated_lost, C67_violated_mixed)."
  },
  {
   "property": "C68",
   "status": "partial",
   "theorems": [
    "Toron.LoadMapping.C68_accepts",
    "Toron.LoadMapping.C68_rows",
    "Toron.LoadMapping.C68_domain",
    "Toron.LoadMapping.C68_sound",
    "Toron.LoadMapping.C68_shares",
    "Toron.LoadMapping.C68_limit",
    "Toron.LoadMapping.C68_single",
    "Toron.LoadMapping.C68_overlapping",
    "Toron.LoadMapping.C68_exclusive",
    "Toron.LoadMapping.C68_pairs",
    "Toron.LoadMapping.C68_conserves",
    "Toron.LoadMapping.C68_stored",
    "Toron.LoadMapping.C68_failed_partial",
    "Toron.LoadMapping.C68_violated_both",
    "Toron.LoadMapping.C68_violated_negative",
    "Toron.LoadMapping.C68_violated_empty",
    "Toron.LoadMapping.C68_violated_column",
    "Toron.LoadMapping.C68_violated_unnamed"
   ],
   "note": "Failing calls are not atomic: a link added before the failure stays (C68_violated_negative), and with both directions the right dataspace keeps its mappings (C68_violated_both). A dataspace without records makes tables with two levels fail; unknown columns are compared as text; an empty link name may store the mappings in another link."
  },
  {
   "property": "C69",
   "status": "partial",
   "theorems": [
    "Toron.Csv.C69_read",
    "Toron.Csv.C69_roundtrip_partial",
    "Toron.Csv.C69_table_partial",
    "Toron.Csv.C69_injective",
    "Toron.Csv.C69_violated_cr",
    "Toron.Csv.C69_violated_coincide",
    "Toron.Csv.C69_violated_long"
   ],
   "note": "Holds for cells without carriage returns and of at most 131072 characters (C69_roundtrip_partial); C69_read says what is read in every case. A carriage return in a cell is always read as a line feed (C69_violated_cr), so that different tables are read as one (C69_violated_coincide), and longer cells cannot be read at all (C69_violated_long)."
  },
  {
   "property": "C70",
   "status": "partial",
   "theorems": [
    "Toron.Csv.C70_names_partial",
    "Toron.Csv.C70_plain",
    "Toron.Csv.C70_clean",
    "Toron.Csv.C70_accepts",
    "Toron.Csv.C70_lines",
    "Toron.Csv.C70_violated_blank"
   ],
   "note": "Quoted names have to be quoted together with the blanks around them: a blank between comma and quote makes the quote an ordinary character (C70_violated_blank). Which characters are word characters (\\w) is a parameter."
  },
  {
   "property": "C71",
   "status": "partial",
   "theorems": [
    "Toron.CliEdit.C71_add",
    "Toron.CliEdit.C71_add_failed_partial",
    "Toron.CliEdit.C71_violated_half",
    "Toron.CliEdit.C71_remove",
    "Toron.CliEdit.C71_violated_mappings",
    "Toron.CliEdit.C71_violated_revived",
    "Toron.CliEdit.C71_violated_unnamed",
    "Toron.CliEdit.C71_attributes",
    "Toron.CliEdit.C71_selectors",
    "Toron.CliEdit.C71_selectors_partial",
    "Toron.CliEdit.C71_violated_again",
    "Toron.CliEdit.C71_violated_repeated"
   ],
   "note": "Holds for one direction and for well-formed names; adding a link in both directions may be half done, removed links leave their mappings behind for later links, an empty name removes the default link, and a selector added while present survives its removal."
  },
  {
   "property": "C72",
   "status": "partial",
   "theorems": [
    "Toron.Uri.C72_opened_partial",
    "Toron.Uri.C72_collapsed",
    "Toron.Uri.C72_injective",
    "Toron.Uri.C72_violated_null"
   ],
   "note": "Holds for all paths without a null character; such a character cuts the name, and another file is opened. Paths that cannot be encoded in UTF-8 and Windows are not modelled."
  },
  {
   "property": "C73",
   "status": "partial",
   "theorems": [
    "Toron.Edge.C73_read",
    "Toron.Edge.C73_sound",
    "Toron.Edge.C73_none",
    "Toron.Edge.C73_unique",
    "Toron.Edge.C73_column",
    "Toron.Edge.C73_column_missing",
    "Toron.Edge.C73_violated_blank",
    "Toron.Edge.C73_violated_direction"
   ],
   "note": "Texts whose names have no blanks at their ends are read back exactly; a missing name is read as a blank (violated), and the arrow, files and selector of the header are not looked at when mapping data is loaded (violated)."
  },
  {
   "property": "C74",
   "status": "partial",
   "theorems": [
    "Toron.Format.C74_distinct",
    "Toron.Format.C74_value",
    "Toron.Format.C74_ties",
    "Toron.Format.C74_order",
    "Toron.Format.C74_fewest",
    "Toron.Format.C74_succeeds_partial",
    "Toron.Format.C74_violated_close"
   ],
   "note": "Proved for lists whose values, and zero, are more than 10^-17 apart; the function fails for a value that is closer to zero."
  },
  {
   "property": "C75",
   "status": "partial",
   "theorems": [
    "Toron.Format.C75_sorted",
    "Toron.Info.C75_partitions_partial",
    "Toron.Info.C75_weights_partial",
    "Toron.Info.C75_links",
    "Toron.Info.C75_none",
    "Toron.Info.C75_summary_partial",
    "Toron.Info.C75_violated_dropped",
    "Toron.Info.C75_violated_default",
    "Toron.Info.C75_violated_hint"
   ],
   "note": "There is no summary after a column named by a definition is dropped, or after a dropped weight group is made the default; dataspaces recorded with the same file name cannot be told apart."
  },
  {
   "property": "C76",
   "status": "proved",
   "theorems": [
    "Toron.Space.C76_unrelated"
   ],
   "note": "The kinds of data each operation is about are listed in Verif/Spec/Frame.lean."
  },
  {
   "property": "C77",
   "status": "proved",
   "theorems": [
    "Toron.Space.C77_update",
    "Toron.Space.C77_update_unknown",
    "Toron.Space.C77_delete",
    "Toron.Space.C77_delete_unknown"
   ],
   "note": "The specification is Verif/Spec/WeightEdit.lean. Criteria are assumed to name label columns."
  },
  {
   "property": "C78",
   "status": "partial",
   "theorems": [
    "Toron.Space.C78_exact_partial",
    "Toron.Space.C78_succeeds_partial",
    "Toron.Space.C78_refused",
    "Toron.Space.C78_violated_name"
   ],
   "note": "Partial: rows must not repeat the labels a record has already (violated: C25_noop_rejected_violated, C25_noop_merge_violated), each record at most once, and column names must not need quotes (violated: C78_violated_name)."
  },
  {
   "property": "C79",
   "status": "partial",
   "theorems": [
    "Toron.Space.C79_insert",
    "Toron.Space.C79_update_partial",
    "Toron.Space.C79_delete_partial",
    "Toron.Space.C79_refused",
    "Toron.Space.C79_violated_levels",
    "Toron.Space.C79_violated_first",
    "Toron.Space.C79_violated_delete"
   ],
   "note": "Adding is proved in full. Correcting and deleting are proved where the two records of a row have at most one mapping. Otherwise the code changes or inspects whichever mapping comes first: corrections of both are refused, an accepted correction changes a mapping it does not name, and a row that names an exact mapping may not delete it."
  },
  {
   "property": "C80",
   "status": "partial",
   "theorems": [
    "Toron.Legacy.C80_weightings",
    "Toron.Legacy.C80_covers",
    "Toron.Legacy.C80_records",
    "Toron.Legacy.C80_weights",
    "Toron.Legacy.C80_quantities_partial",
    "Toron.Legacy.C80_preserving",
    "Toron.Legacy.C80_violated_duplicates",
    "Toron.Legacy.C80_violated_undefined",
    "Toron.Legacy.C80_violated_locations",
    "Toron.Legacy.C80_violated_names"
   ],
   "note": "Totals of weights and the records kept are proved for all reachable nodes; totals of quantities under the condition in the theorem; the violations have witnesses."
  },
  {
   "property": "C81",
   "status": "partial",
   "theorems": [
    "Toron.Legacy.C81_records",
    "Toron.Legacy.C81_ids",
    "Toron.Legacy.C81_references",
    "Toron.Legacy.C81_derived",
    "Toron.Legacy.C81_structure_partial",
    "Toron.Legacy.C81_violated_rename",
    "Toron.Legacy.C81_violated_early",
    "Toron.Legacy.C81_violated_blanks"
   ],
   "note": "The part about the structure is proved for tidy histories; three violations have witnesses."
  },
  {
   "property": "C82",
   "status": "partial",
   "theorems": [
    "Toron.Legacy.C82_added",
    "Toron.Legacy.C82_violated_stale"
   ],
   "note": "What adding does is proved for all reachable nodes; the mark becomes stale when records are added later (witness)."
  },
  {
   "property": "C83",
   "status": "partial",
   "theorems": [
    "Toron.Space.C83_add_group",
    "Toron.Space.C83_edit_group",
    "Toron.Space.C83_drop_group_partial",
    "Toron.Space.C83_violated_drop",
    "Toron.Space.C83_no_default",
    "Toron.Space.C83_add_link",
    "Toron.Space.C83_edit_link",
    "Toron.Space.C83_drop_link"
   ],
   "note": "Partial: without a recorded default drop_weight_group raises KeyError (C83_violated_drop). Editing a link is proved for changes that keep the other dataspace; C31 has the effect of edits that set the default."
  },
  {
   "property": "C84",
   "status": "partial",
   "theorems": [
    "Toron.Space.C84_rows",
    "Toron.Space.C84_columns",
    "Toron.Space.C84_header",
    "Toron.Space.C84_violated_name"
   ],
   "note": "Partial: without a name of a link the call fails (C84_violated_name); rows are proved for dataspaces without hand-set flags and fingerprints, as C41."
  },
  {
   "property": "C85",
   "status": "partial",
   "theorems": [
    "Toron.Space.C85_success",
    "Toron.Space.C85_effect",
    "Toron.Space.C85_violated_levels",
    "Toron.Space.C85_violated_partition"
   ],
   "note": "The conditions for success and the effect are proved exactly; proved violated: mapping levels are not adjusted (C85_violated_levels) and partitions that differ only in the column block it (C85_violated_partition)."
  },
  {
   "property": "C86",
   "status": "partial",
   "theorems": [
    "Toron.Legacy.C86_static",
    "Toron.Legacy.C86_adaptive",
    "Toron.Legacy.C86_levels",
    "Toron.Legacy.C86_total",
    "Toron.Legacy.C86_where",
    "Toron.Legacy.C86_violated_selectors",
    "Toron.Legacy.C86_violated_lost"
   ],
   "note": "Quantities that cannot be assigned are left out silently, and a complete weighting without selectors makes every call raise (two violations with witnesses); everything else is proved for all reachable nodes."
  },
  {
   "property": "C87",
   "status": "partial",
   "theorems": [
    "Toron.Files.C87_save_succeeds",
    "Toron.Files.C87_saved",
    "Toron.Files.C87_failed",
    "Toron.Files.C87_untouched",
    "Toron.Files.C87_unaffected",
    "Toron.Files.C87_call",
    "Toron.Files.C87_covered",
    "Toron.Files.C87_id_partial",
    "Toron.Files.C87_violated_id",
    "Toron.Files.C87_open",
    "Toron.Files.C87_hint",
    "Toron.Files.C87_violated_bare_name",
    "Toron.Files.C87_backup_beside",
    "Toron.Files.C87_backup_partial",
    "Toron.Files.C87_violated_backup"
   ],
   "note": "Violations: identity of a bound object after its file was replaced, binding a new file under a bare name, a backup over the file of another dataspace. Calls on read-only files are simplified to fail without effect; links, locking and files of older versions are not modelled here."
  },
  {
   "property": "C88",
   "status": "partial",
   "theorems": [
    "Toron.Space.C88_rename",
    "Toron.Space.C88_helper_rename",
    "Toron.Space.C88_same_rename",
    "Toron.Space.C88_same_drop",
    "Toron.Space.C88_referenced",
    "Toron.Space.C88_violated_ids",
    "Toron.Space.C88_violated_unknown",
    "Toron.Space.C88_violated_order",
    "Toron.Space.C88_violated_dangling"
   ],
   "note": "The helpers agree with the methods except for the four kinds of differences given as violations with witnesses."
  },
  {
   "property": "C89",
   "status": "proved",
   "theorems": [
    "Toron.Space.C89_store",
    "Toron.Space.C89_outcomes",
    "Toron.Space.C89_read",
    "Toron.Space.C89_quantized",
    "Toron.Space.C89_translate",
    "Toron.Space.C89_translate_quantized",
    "Toron.Space.C89_output",
    "Toron.Space.C89_quantized_depends_on_amount_unit"
   ],
   "note": "Exact arithmetic: with floats the equalities hold up to rounding. Quantized reading does depend on the unit of amounts (witness)."
  },
  {
   "property": "C90",
   "status": "proved",
   "theorems": [
    "Toron.Space.C90_read",
    "Toron.Space.C90_grouped",
    "Toron.Space.C90_output",
    "Toron.Space.C90_translate",
    "Toron.Space.C90_order",
    "Toron.Space.C90_batches",
    "Toron.Space.C90_weights_order",
    "Toron.Space.C90_replace_order",
    "Toron.Space.C90_unrelated"
   ],
   "note": "The flag of completeness of a weight group after loading weights in another order is not covered by C90_weights_order. C90_replace_order shows that with the replacing policy the order matters, as it should."
  },
  {
   "property": "C91",
   "status": "partial",
   "theorems": [
    "Toron.Space.C91_serializable_partial",
    "Toron.Space.C91_alone",
    "Toron.Space.C91_mutual_wait",
    "Toron.Space.C91_unmatched_violated",
    "Toron.Space.C91_unmatched_undisturbed",
    "Toron.Space.C91_read_violated",
    "Toron.Space.C91_read_undisturbed",
    "Toron.Legacy.C91_legacy_violated"
   ],
   "note": "C91_serializable_partial holds for the calls that are one transaction (all writing methods but delete_unmatched_quantities); violated for delete_unmatched_quantities, reading, and the legacy add_partition_definitions, which use several transactions."
  },
  {
   "property": "C92",
   "status": "partial",
   "theorems": [
    "Toron.Space.C92_old_method",
    "Toron.Space.C92_same_as_newer",
    "Toron.Space.C92_read_violated",
    "Toron.Space.C92_labels_violated"
   ],
   "note": "Violated: quantities with an invalid combination of columns are stored and never read; quantities with unknown labels make reading impossible."
  },
  {
   "property": "C93",
   "status": "proved",
   "theorems": [
    "Toron.Space.C93_same_as_newer",
    "Toron.Space.C93_adds",
    "Toron.Space.C93_no_columns"
   ],
   "note": "For dataspaces that were not reopened (then weights of deleted records cannot exist). Rows shorter than the header are not modelled."
  },
  {
   "property": "C94",
   "status": "partial",
   "theorems": [
    "Toron.Space.C94_index",
    "Toron.Space.C94_rename_partial",
    "Toron.Space.C94_group_partial",
    "Toron.Space.C94_link_partial",
    "Toron.Space.C94_column_violated",
    "Toron.Space.C94_rename_violated",
    "Toron.Space.C94_group_violated",
    "Toron.Space.C94_link_violated"
   ],
   "note": ""
  },
  {
   "property": "C95",
   "status": "partial",
   "theorems": [
    "Toron.Space.C95_index_parts",
    "Toron.Space.C95_index_again_partial",
    "Toron.Space.C95_index_again_violated",
    "Toron.Space.C95_weights_parts",
    "Toron.Space.C95_weights_again",
    "Toron.Space.C95_weights_order",
    "Toron.Space.C95_quantities_parts",
    "Toron.Space.C95_quantities_again",
    "Toron.Space.C95_quantities_order"
   ],
   "note": "index data: equal results whenever the calls succeed; repeating a load that mixes labels and relabelling ids is shown to fail (C95_index_again_violated)"
  },
  {
   "property": "C96",
   "status": "partial",
   "theorems": [
    "Toron.Space.C96_store_partial",
    "Toron.Space.C96_outcomes_partial",
    "Toron.Space.C96_no_criteria",
    "Toron.Space.C96_read",
    "Toron.Space.C96_translate",
    "Toron.Space.C96_output",
    "Toron.Space.C96_pivot",
    "Toron.Space.C96_criteria_violated"
   ],
   "note": "Proved for histories whose criteria name label columns; C96_criteria_violated shows that this is needed."
  },
  {
   "property": "C97",
   "status": "partial",
   "theorems": [
    "Toron.Space.C97_load",
    "Toron.Space.C97_read_partial",
    "Toron.Space.C97_translate_partial",
    "Toron.Space.C97_unite",
    "Toron.Space.C97_translate_together",
    "Toron.Space.C97_select_partial",
    "Toron.Space.C97_translate_select",
    "Toron.Space.C97_select_translate_partial",
    "Toron.Space.C97_quantized_violated",
    "Toron.Space.C97_select_domain_violated"
   ],
   "note": "Partial: sums of rows need plain (not whole) numbers (C97_quantized_violated); selecting while reading needs a dataspace without domain (C97_select_domain_violated). Union of disjoint data, translation of selected or combined results: proved in full."
  },
  {
   "property": "C98",
   "status": "partial",
   "theorems": [
    "Toron.Json.C98_read_back_partial",
    "Toron.Json.C98_different",
    "Toron.Json.C98_text",
    "Toron.Json.C98_sorted",
    "Toron.Json.C98_ascii",
    "Toron.Json.C98_attributes",
    "Toron.Json.C98_attributes_equal",
    "Toron.Json.C98_check",
    "Toron.Json.C98_check_only",
    "Toron.Json.C98_keep",
    "Toron.Json.C98_surrogates_violated",
    "Toron.Json.C98_keys_violated"
   ],
   "note": "Proved for all values without floats and without the two exceptions, which are proved as violations."
  },
  {
   "property": "C99",
   "status": "partial",
   "theorems": [
    "Toron.TableLoad.C99_forms",
    "Toron.TableLoad.C99_insert_index",
    "Toron.TableLoad.C99_insert_index_same_partial",
    "Toron.TableLoad.C99_update_index_partial",
    "Toron.TableLoad.C99_update_index_same_partial",
    "Toron.TableLoad.C99_delete_index",
    "Toron.TableLoad.C99_delete_index_same",
    "Toron.TableLoad.C99_insert_weights",
    "Toron.TableLoad.C99_insert_weights_same",
    "Toron.TableLoad.C99_update_weights",
    "Toron.TableLoad.C99_update_weights_same",
    "Toron.TableLoad.C99_insert_quantities",
    "Toron.TableLoad.C99_insert_quantities_same",
    "Toron.TableLoad.C99_update_empty_violated",
    "Toron.TableLoad.C99_update_text_id_violated",
    "Toron.TableLoad.C99_short_row_violated",
    "Toron.TableLoad.C99_keys_lost",
    "Toron.TableLoad.C99_header_violated"
   ],
   "note": "Partial because of the five proved exceptions; insert_index additionally asks for the same relative order of the weight columns (otherwise weights get other row ids), update_index that no cell but a label is an empty text and, with merge_on_conflict, that ids are numbers."
  },
  {
   "property": "C100",
   "status": "partial",
   "theorems": [
    "Toron.Files.C100_domain",
    "Toron.Files.C100_existing",
    "Toron.Files.C100_created",
    "Toron.Files.C100_failed",
    "Toron.Files.C100_race_violated"
   ],
   "note": "Partial because of the proved race between the check and the saving."
  },
  {
   "property": "C101",
   "status": "proved",
   "theorems": [
    "Toron.Space.C101_read",
    "Toron.Space.C101_bounds",
    "Toron.Space.C101_reader",
    "Toron.Space.C101_translate",
    "Toron.Space.C101_end_to_end"
   ],
   "note": ""
  },
  {
   "property": "C102",
   "status": "proved",
   "theorems": [
    "Toron.Space.C102_read",
    "Toron.Space.C102_nonneg",
    "Toron.Space.C102_translate",
    "Toron.Space.C102_end_to_end"
   ],
   "note": ""
  },
  {
   "property": "C103",
   "status": "partial",
   "theorems": [
    "Toron.Space.C103_silence",
    "Toron.Space.C103_warning",
    "Toron.Space.C103_log",
    "Toron.Space.C103_update_index",
    "Toron.Space.C103_update_index_silent",
    "Toron.Space.C103_delete_index",
    "Toron.Space.C103_delete_index_silent",
    "Toron.Space.C103_insert_weights",
    "Toron.Space.C103_insert_weights_silent",
    "Toron.Space.C103_update_weights",
    "Toron.Space.C103_update_weights_silent",
    "Toron.Space.C103_delete_weights",
    "Toron.Space.C103_delete_weights_silent",
    "Toron.Space.C103_insert_mappings",
    "Toron.Space.C103_insert_mappings_silent",
    "Toron.Space.C103_update_mappings",
    "Toron.Space.C103_update_mappings_silent",
    "Toron.Space.C103_delete_mappings",
    "Toron.Space.C103_delete_mappings_silent",
    "Toron.Space.C103_warning_complete",
    "Toron.Space.C103_violated"
   ],
   "note": "Proved for all tables. Violated in one case: update_index with merge_on_conflict and the labels a record already has reports the row as updated while the record is deleted. Messages of insert_quantities2, insert_mappings2 and insert_index, most of which are only at the level info, are not modelled."
  },
  {
   "property": "C104",
   "status": "proved",
   "theorems": [
    "Toron.Space.C104_aggregate",
    "Toron.Space.C104_detour",
    "Toron.Space.C104_round_trip",
    "Toron.Space.C104_same",
    "Toron.Space.C104_one_to_one"
   ],
   "note": "The dataspace in between is one whose mappings refer to existing records (no reopening with foreign keys off)."
  },
  {
   "property": "C105",
   "status": "partial",
   "theorems": [
    "Toron.Files.C105_refused",
    "Toron.Files.C105_ok",
    "Toron.Files.C105_done",
    "Toron.Files.C105_failed_partial",
    "Toron.Files.C105_leaves",
    "Toron.Files.C105_violated_backup",
    "Toron.Files.C105_violated_crash"
   ],
   "note": "Holds as stated except that a failing command replaces an earlier backup (C105_violated_backup) and that some mistakes end in an uncaught exception (C105_violated_crash)."
  },
  {
   "property": "C106",
   "status": "partial",
   "theorems": [
    "Toron.Binary.C106_split",
    "Toron.Binary.C106_total",
    "Toron.Binary.C106_whole",
    "Toron.Binary.C106_fraction_partial",
    "Toron.Binary.C106_violated_large",
    "Toron.Binary.C106_violated_ties",
    "Toron.Binary.C106_violated_sum",
    "Toron.Binary.C106_violated_fraction"
   ],
   "note": "Proved with the bounds stated; beyond them the claim fails (C106_violated_large, C106_violated_ties, C106_violated_sum, C106_violated_fraction). Exponents are unbounded in the model (no overflow, no subnormal numbers)."
  },
  {
   "property": "C107",
   "status": "partial",
   "theorems": [
    "Toron.Binary.C107_part",
    "Toron.Binary.C107_along",
    "Toron.Binary.C107_whole",
    "Toron.Binary.C107_violated_sum",
    "Toron.Binary.C107_violated_large",
    "Toron.Binary.C107_violated_fraction"
   ],
   "note": "Proved with the bounds stated; beyond them the claim fails (C107_violated_sum, C107_violated_large, C107_violated_fraction). Exponents are unbounded in the model; the sum of mapping values is the plain left-to-right one (Python 3.12 adds a correction term)."
  },
  {
   "property": "C108",
   "status": "partial",
   "theorems": [
    "Toron.C108_round",
    "Toron.C108_split",
    "Toron.C108_more_gives_more",
    "Toron.C108_violated_more_gives_less"
   ],
   "note": "Rounding is fair within one quantity; it is not monotone in the quantity (C108_violated_more_gives_less)."
  },
  {
   "property": "C109",
   "status": "partial",
   "theorems": [
    "Toron.Binary.C109_order",
    "Toron.Binary.C109_more",
    "Toron.Binary.C109_whole",
    "Toron.Binary.C109_violated_close",
    "Toron.Binary.C109_along"
   ],
   "note": "Order is kept by all float operations; after rounding to whole numbers a heavier record can get one less if the unrounded parts coincide (C109_violated_close)."
  },
  {
   "property": "C110",
   "status": "proved",
   "theorems": [
    "Toron.Space.C110_rows",
    "Toron.Space.C110_totals",
    "Toron.Space.C110_whole"
   ],
   "note": ""
  },
  {
   "property": "C111",
   "status": "partial",
   "theorems": [
    "Toron.Legacy.C111_add",
    "Toron.Legacy.C111_values",
    "Toron.Legacy.C111_default",
    "Toron.Legacy.C111_edit_default_partial",
    "Toron.Legacy.C111_edit_selectors",
    "Toron.Legacy.C111_violated_default_again",
    "Toron.Legacy.C111_violated_default_unknown",
    "Toron.Legacy.C111_violated_no_default",
    "Toron.Legacy.C111_violated_stuck",
    "Toron.Legacy.C111_parts",
    "Toron.Legacy.C111_link",
    "Toron.Legacy.C111_translate",
    "Toron.Legacy.C111_total_partial",
    "Toron.Legacy.C111_violated_lost",
    "Toron.Legacy.C111_violated_selectors",
    "Toron.Legacy.C111_violated_no_selectors",
    "Toron.Legacy.C111_violated_twice"
   ],
   "note": "C111_edit_default_partial and C111_total_partial leave out what the code violates: see the C111_violated_ theorems."
  },
  {
   "property": "C112",
   "status": "partial",
   "theorems": [
    "Toron.Space.C112_written",
    "Toron.Space.C112_report",
    "Toron.Space.C112_used_partial",
    "Toron.Space.C112_violated_domain",
    "Toron.Space.C112_violated_nothing_read"
   ],
   "note": "False if a weight group has a selector on the domain, and if the selectors match nothing."
  },
  {
   "property": "C113",
   "status": "partial",
   "theorems": [
    "Toron.Legacy.C113_single",
    "Toron.Legacy.C113_none",
    "Toron.Legacy.C113_ambiguous",
    "Toron.Legacy.C113_whole_partial",
    "Toron.Legacy.C113_parts_partial",
    "Toron.Legacy.C113_pairs",
    "Toron.Legacy.C113_conserves_partial",
    "Toron.Legacy.C113_succeeds",
    "Toron.Legacy.C113_stored_partial",
    "Toron.Legacy.C113_failed",
    "Toron.Legacy.C113_violated_weights",
    "Toron.Legacy.C113_violated_zero",
    "Toron.Legacy.C113_violated_swallowed",
    "Toron.Legacy.C113_violated_levels",
    "Toron.Legacy.C113_violated_half"
   ],
   "note": "Proved: exact, missing and ambiguous rows, parts with one weighting, sums over pairs, success, values stored without overlapping. The code violates the rest: weights of all weightings are used (C113_violated_weights), weights of zero multiply values (C113_violated_zero), rows are lost (C113_violated_swallowed, C113_violated_levels), half of the links may stay (C113_violated_half)."
  },
  {
   "property": "C114",
   "status": "partial",
   "theorems": [
    "Toron.Files.C114_relative",
    "Toron.Files.C114_distinct_partial",
    "Toron.Files.C114_alone",
    "Toron.Files.C114_found",
    "Toron.Files.C114_violated_extension",
    "Toron.Files.C114_violated_same",
    "Toron.Files.C114_violated_backslash",
    "Toron.Files.C114_violated_reference"
   ],
   "note": "Paths made of plain names; Windows is not modelled. Violated for paths that differ only by the extension, for a file linked to itself, for backslashes, and for references by the name of the file with its extension (get_links_by_ref)."
  },
  {
   "property": "C115",
   "status": "proved",
   "theorems": [
    "Toron.Space.C115_rows",
    "Toron.Space.C115_totals",
    "Toron.Space.C115_whole"
   ],
   "note": ""
  },
  {
   "property": "C116",
   "status": "partial",
   "theorems": [
    "Toron.Info.C116_attributes",
    "Toron.Info.C116_fails",
    "Toron.Info.C116_registered_partial",
    "Toron.Info.C116_report_partial",
    "Toron.Info.C116_rule",
    "Toron.Info.C116_violated_replaced",
    "Toron.Info.C116_violated_old"
   ],
   "note": "Violated if registered attributes are replaced after quantities were loaded, or if insert_quantities is used with an attribute that is not registered: info fails with RuntimeError. Proved for the other histories. If the only registered attribute is the empty text, the line of attributes is not specified."
  },
  {
   "property": "C117",
   "status": "partial",
   "theorems": [
    "Toron.TableLoad.C117_loaded",
    "Toron.TableLoad.C117_restored",
    "Toron.TableLoad.C117_made",
    "Toron.TableLoad.C117_violated_name"
   ],
   "note": "Violated if a weight group has the name of a label column: the table has two columns of that name and cannot be loaded (C117_violated_name). Group names index_id and domain and repeated names are left out."
  },
  {
   "property": "C118",
   "status": "partial",
   "theorems": [
    "Toron.CommandLine.C118_words",
    "Toron.CommandLine.C118_info",
    "Toron.CommandLine.C118_help",
    "Toron.CommandLine.C118_program_help",
    "Toron.CommandLine.C118_violated_no_file",
    "Toron.CommandLine.C118_violated_no_command",
    "Toron.CommandLine.C118_empty"
   ],
   "note": ""
  },
  {
   "property": "C119",
   "status": "partial",
   "theorems": [
    "Toron.MappingInfo.C119_exists",
    "Toron.MappingInfo.C119_log_partial",
    "Toron.MappingInfo.C119_log_some",
    "Toron.MappingInfo.C119_called",
    "Toron.MappingInfo.C119_info_partial",
    "Toron.MappingInfo.C119_violated_undefined",
    "Toron.MappingInfo.C119_violated_none",
    "Toron.MappingInfo.C119_violated_verified"
   ],
   "note": ""
  },
  {
   "property": "C120",
   "status": "partial",
   "theorems": [
    "Toron.Header.C120_recognised",
    "Toron.Header.C120_new",
    "Toron.Header.C120_refused",
    "Toron.Header.C120_short",
    "Toron.Header.C120_open_partial",
    "Toron.Header.C120_violated_negative"
   ],
   "note": ""
  },
  {
   "property": "C121",
   "status": "partial",
   "theorems": [
    "Toron.Legacy.C121_once",
    "Toron.Legacy.C121_rows",
    "Toron.Legacy.C121_value",
    "Toron.Legacy.C121_total",
    "Toron.Legacy.C121_exact",
    "Toron.Legacy.C121_unmapped",
    "Toron.Legacy.C121_reified",
    "Toron.Legacy.C121_reified_total",
    "Toron.Legacy.C121_fields_partial",
    "Toron.Legacy.C121_link",
    "Toron.Legacy.C121_violated_ninth"
   ],
   "note": ""
  },
  {
   "property": "C122",
   "status": "partial",
   "theorems": [
    "Toron.Legacy.C122_new_level",
    "Toron.Legacy.C122_refused",
    "Toron.Legacy.C122_exact",
    "Toron.Legacy.C122_levels_partial",
    "Toron.Legacy.C122_merged",
    "Toron.Legacy.C122_merges_partial",
    "Toron.Legacy.C122_violated_chain",
    "Toron.Legacy.C122_violated_mixed"
   ],
   "note": ""
  },
  {
   "property": "C123",
   "status": "partial",
   "theorems": [
    "Toron.Legacy.C123_rows",
    "Toron.Legacy.C123_value_partial",
    "Toron.Legacy.C123_single_partial",
    "Toron.Legacy.C123_labels_partial",
    "Toron.Legacy.C123_violated_filled"
   ],
   "note": ""
  },
  {
   "property": "C124",
   "status": "partial",
   "theorems": [
    "Toron.Legacy.C124_read",
    "Toron.Legacy.C124_missing",
    "Toron.Legacy.C124_refused",
    "Toron.Legacy.C124_roundtrip_partial",
    "Toron.Legacy.C124_violated_text",
    "Toron.Legacy.C124_violated_ragged",
    "Toron.Legacy.C124_violated_name"
   ],
   "note": ""
  },
  {
   "property": "C125",
   "status": "partial",
   "theorems": [
    "Toron.Legacy.C125_delete_partial",
    "Toron.Legacy.C125_delete_none",
    "Toron.Legacy.C125_refused",
    "Toron.Legacy.C125_read_partial",
    "Toron.Legacy.C125_rest",
    "Toron.Legacy.C125_violated_keys",
    "Toron.Legacy.C125_violated_value"
   ],
   "note": ""
  },
  {
   "property": "C126",
   "status": "partial",
   "theorems": [
    "Toron.Legacy.C126_records",
    "Toron.Legacy.C126_group_partial",
    "Toron.Legacy.C126_violated_turns",
    "Toron.Legacy.C126_violated_end"
   ],
   "note": ""
  },
  {
   "property": "C127",
   "status": "partial",
   "theorems": [
    "Toron.Legacy.C127_rows_partial",
    "Toron.Legacy.C127_violated_name",
    "Toron.Legacy.C127_violated_limit"
   ],
   "note": ""
  },
  {
   "property": "C128",
   "status": "partial",
   "theorems": [
    "Toron.Legacy.C128_rows",
    "Toron.Legacy.C128_again",
    "Toron.Legacy.C128_made",
    "Toron.Legacy.C128_reified_partial",
    "Toron.Legacy.C128_text_partial",
    "Toron.Legacy.C128_violated_fields"
   ],
   "note": "Proved: rows, values and labels of every link made from a table, however often columns are added. The text of the columns that were not given is wrong beyond eight columns (violated)."
  },
  {
   "property": "C129",
   "status": "partial",
   "theorems": [
    "Toron.Legacy.C129_renamed_partial",
    "Toron.Legacy.C129_links",
    "Toron.Legacy.C129_rebuilt_partial",
    "Toron.Legacy.C129_versions_partial",
    "Toron.Legacy.C129_violated_swap",
    "Toron.Legacy.C129_violated_empty",
    "Toron.Legacy.C129_violated_names",
    "Toron.Legacy.C129_violated_ids"
   ],
   "note": "Proved for column names in normal form, for both versions of SQLite; four ways in which the versions or names with quotes break the full statement are proved."
  },
  {
   "property": "C130",
   "status": "partial",
   "theorems": [
    "Toron.Legacy.C130_same_partial",
    "Toron.Legacy.C130_violated_names",
    "Toron.Legacy.C130_violated_ids"
   ],
   "note": "Proved for columns whose names need no quotes; both exceptions are proved. Links are not part of this model (see C122, C127)."
  },
  {
   "property": "C131",
   "status": "partial",
   "theorems": [
    "Toron.Legacy.C131_static_partial",
    "Toron.Legacy.C131_adaptive_partial",
    "Toron.Legacy.C131_violated_zero",
    "Toron.Legacy.C131_violated_adaptive"
   ],
   "note": ""
  }
 ]
}