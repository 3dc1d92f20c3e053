{"id": "C01", "title": "Partition structure is exactly the set of unions", "statement": "The structure built from a list of partition definitions contains a label set exactly when that set is the union of some (possibly empty) sub-collection of the definitions; no set is listed twice, the empty set is listed first, and the union of any two listed sets is listed.", "quantifier": "every finite list of label sets, any number of sets and labels, any order, with repetitions", "why_tests_cant": "the number of sub-collections is exponential; tests sample a handful of two- or three-set inputs", "anchors": ["src/toron/partitions.py: make_structure"]}
{"id": "C02", "title": "Minimal generating set generates the same structure and nothing in it is redundant", "statement": "The list returned by the minimal-generating-set search yields the same structure as all the sets it was given, every returned set is one of the given sets, no returned set is a union of other returned sets, and every sub-collection of the inputs that generates the same structure contains all of its non-empty members, so it is the unique smallest one.", "quantifier": "all finite collections of finite label sets, split in any way over any number of arguments", "why_tests_cant": "minimality is a statement about all other generating sets", "anchors": ["src/toron/partitions.py: find_minimal_partition_generating_set"]}
{"id": "C03", "title": "Adding a partition never invalidates a partition that was valid", "statement": "After new partition definitions are added to a dataspace every label combination that was valid before is still valid, each newly added set is valid and the whole space is valid; repeating the call changes nothing.", "quantifier": "every list of existing definitions, label columns and new sets", "why_tests_cant": "depends on the interaction of the minimiser with every earlier history of definitions", "anchors": ["src/toron/data_service.py: add_partition_definitions, add_partition_definition, rebuild_structure_table", "src/toron/space.py: DataSpace.add_partition_definitions"]}
{"id": "C04", "title": "The link or weight chosen is the one with the greatest unique specificity", "statement": "For given attributes the chosen key is the key of highest specificity among those keys whose specificity is shared with no other key; if there is none the default is chosen. The choice does not depend on the order of the keys or of the selectors under a key.", "quantifier": "all attribute rows, all maps from keys to selector lists, all defaults", "why_tests_cant": "ties and orderings combine without bound", "anchors": ["src/toron/selectors.py: get_greatest_unique_specificity, GetMatchingKey"]}
{"id": "C05", "title": "Selector matching and specificity follow the documented CSS-like semantics", "statement": "Each comparison operator matches exactly when its documented string relation holds; a compound matches iff all parts match, :is() iff one matches, :not() iff none does, :where() like :is(); specificity of a compound is the component-wise sum, of :is()/:not() the maximum, and of :where() zero; ill-formed operator/value combinations are rejected and never silently match.", "quantifier": "all rows and all selector trees of any depth and width, all strings", "why_tests_cant": "unbounded trees and strings", "anchors": ["src/toron/selectors.py: SimpleSelector, MatchesAnySelector, NegationSelector, SpecificityAdjustmentSelector, CompoundSelector"]}
{"id": "C06", "title": "Equal selectors behave identically", "statement": "Two selectors that compare equal match the same rows and have the same specificity.", "quantifier": "all pairs of selectors and all rows", "why_tests_cant": "equality is defined by a comparison key built recursively; agreement with matching is a relation over all trees", "anchors": ["src/toron/selectors.py: Selector.__eq__, _get_comparison_key, accumulate_selectors"]}
{"id": "C07", "title": "Bit flags round-trip and compare by the bits they hold", "statement": "Encoding a bit sequence to bytes and decoding gives the same sequence up to trailing zeros; two flag objects are equal iff their sequences agree up to trailing zeros; indexing agrees with the sequence; byte strings and bit sequences denote the same object; no stored form ends in a zero byte.", "quantifier": "all bit sequences of any length and all byte strings", "why_tests_cant": "unbounded length; off-by-one errors at byte boundaries", "anchors": ["src/toron/_utils.py: BitFlags"]}
{"id": "C08", "title": "Combining levels is union, and level tests are subset tests", "statement": "The bitwise-or of two flag objects holds exactly the bits held by either; `a | b == a` holds exactly when every bit of b is a bit of a; or is associative, commutative and idempotent.", "quantifier": "all pairs (triples) of bit sequences of different lengths", "why_tests_cant": "unbounded lengths, different byte counts", "anchors": ["src/toron/_utils.py: BitFlags.__or__, __eq__", "src/toron/mapper.py: Mapper.match_records"]}
{"id": "C09", "title": "The index fingerprint identifies the set of index ids", "statement": "The byte message that is fingerprinted determines the sequence of index ids: two accepted sequences with the same message are the same sequence; sequences that are not strictly increasing, negative or longer than 8 bytes are rejected and never fingerprinted.", "quantifier": "all pairs of integer sequences", "why_tests_cant": "injectivity over all sequences", "anchors": ["src/toron/_utils.py: SequenceHash", "src/toron/data_service.py: refresh_index_hash_property"]}
{"id": "C10", "title": "The tie-break shuffle never produces a tie", "statement": "The 64-bit mixing function used to break rounding ties is a bijection on 64-bit integers, so two different records never tie.", "quantifier": "all pairs of 64-bit integers", "why_tests_cant": "2^64 inputs", "anchors": ["src/toron/_utils.py: splitmix64"]}
{"id": "C11", "title": "Rounding to whole numbers preserves the total", "statement": "When values are rounded to whole numbers with the largest-remainder method the output sum equals the requested total, each record receives exactly one value, which differs from its input by less than one, and all values are whole except at most one that carries the fraction of the total. Claimed for any inputs whose sum is the requested total.", "quantifier": "all finite lists of (id, value) and totals, positive, negative or mixed", "why_tests_cant": "depends on sign mixes and remainder sizes tests do not enumerate", "anchors": ["src/toron/_utils.py: quantize_values"]}
{"id": "C12", "title": "Rounding does not depend on record order", "statement": "Reordering the input records does not change what each record receives.", "quantifier": "all permutations of all lists with distinct 64-bit ids", "why_tests_cant": "n! orders", "anchors": ["src/toron/_utils.py: quantize_values, splitmix64"]}
{"id": "C13", "title": "Splitting a quantity over its records conserves it", "statement": "When a quantity is divided over the index records of its location the parts add up to the quantity, every matched record receives exactly one part, the part is proportional to the record's weight (equal if all weights are zero), and the undefined record receives nothing when any other record matches. A missing weight is an error, not a silent loss.", "quantifier": "all quantities, all non-empty id lists, all non-negative weight tables", "why_tests_cant": "division with zero weights, undefined record and missing weights in any combination", "anchors": ["src/toron/data_service.py: disaggregate_value", "src/toron/space.py: DataSpace._disaggregate"]}
{"id": "C14", "title": "Reading a dataspace returns every stored quantity exactly once in total", "statement": "The per-attribute totals returned by calling a dataspace are the totals stored, for all quantities whose location is a valid partition and matches at least one index record; every row's index record matches the labels of the quantity it came from.", "quantifier": "all reachable dataspaces, all attribute selectors", "why_tests_cant": "end-to-end over arbitrary content", "anchors": ["src/toron/space.py: DataSpace.__call__, _disaggregate", "src/toron/reader.py: NodeReader"]}
{"id": "C15", "title": "Mapping proportions of each source record add up to one", "statement": "After every successful mapping operation, for each link and each source record other than the undefined one that has mappings whose proportions have been refreshed, the proportions are between 0 and 1 and add up to 1; mappings from the undefined source record have proportion 0.", "quantifier": "all histories of insert, update, delete, reify of mappings and of index deletes and merges", "why_tests_cant": "arbitrary operation histories", "anchors": ["src/toron/data_models.py: BaseMappingRepository.refresh_proportions, merge_by_index_id", "src/toron/space.py: insert_mappings, insert_mappings2, update_mappings, delete_mappings, reify_mappings, delete_index, update_index"]}
{"id": "C16", "title": "Merging index records conserves weights and mapping values", "statement": "Merging records into a target leaves the sum of weights in every weight group and the sum of mapping values (and proportions) for every (link, source record, level) unchanged, leaves no data on the merged-away records and leaves other records alone.", "quantifier": "all states and all sets of merged ids, including the target itself among them", "why_tests_cant": "arbitrary contents, overlaps of weights and levels", "anchors": ["src/toron/data_models.py: BaseWeightRepository.merge_by_index_id, BaseMappingRepository.merge_by_index_id"]}
{"id": "C17", "title": "Translation conserves totals", "statement": "Translating a reader's data to another dataspace either fails without changing the reader or yields data whose total for each attribute group is the same as before; the undefined record's quantities stay on the undefined record.", "quantifier": "all reader contents, all link tables in which each link satisfies the proportion invariant and each link selected covers all source records", "why_tests_cant": "depends on all link and selector configurations and histories of two dataspaces", "anchors": ["src/toron/reader.py: NodeReader.translate", "src/toron/data_service.py: make_get_link_id_func"]}
{"id": "C18", "title": "Graph-level translation conserves totals", "statement": "Translating a quantity iterator with the graph function yields the same per-attribute totals.", "quantifier": "all iterators and link tables", "why_tests_cant": "needs all configurations; the non-default link and undefined-record cases are easy to miss", "anchors": ["src/toron/graph.py: translate, _translate"]}
{"id": "C19", "title": "Links made for another version of the source are not used", "statement": "A reader is only translated along links whose recorded source fingerprint equals the current fingerprint of the source index; in particular after any insertion or deletion of a source index record every previously recorded link is refused until its mappings are refreshed to cover the new record set.", "quantifier": "all histories of two dataspaces", "why_tests_cant": "needs histories of both sides", "anchors": ["src/toron/data_service.py: make_get_link_id_func", "src/toron/space.py: insert_index, delete_index, update_index"]}
{"id": "C20", "title": "Looking up a link by reference is unambiguous", "statement": "A returned set of links always refers to a single other dataspace; a lookup by unique id, filename hint or short id prefix returns links only if exactly one dataspace is denoted and otherwise fails or reports none; priority is unique id, then filename hint (with or without its extension), then id prefix.", "quantifier": "all link tables and reference strings", "why_tests_cant": "overlaps of hints and id prefixes", "anchors": ["src/toron/data_service.py: find_links_by_ref, get_links_by_ref, get_link"]}
{"id": "C21", "title": "Index ids are never reused and the undefined record is permanent", "statement": "Over the whole life of a dataspace an id given to a new index record was never used before, ids are distinct, the undefined record (id 0, every label '-') is always present and can be neither changed nor deleted.", "quantifier": "all histories of index operations, including failed ones", "why_tests_cant": "history property", "anchors": ["src/toron/dal1/schema.py: create_schema_tables, create_schema_constraints", "src/toron/space.py: insert_index, update_index, delete_index, add_index_columns"]}
{"id": "C22", "title": "Label combinations identify index records", "statement": "In every reachable state no two index records have the same labels and no label is empty.", "quantifier": "all histories", "why_tests_cant": "history property", "anchors": ["src/toron/dal1/schema.py: create_schema_constraints", "src/toron/space.py: insert_index, update_index"]}
{"id": "C23", "title": "The stored fingerprint always describes the current index", "statement": "After every operation, successful or failed, the stored index fingerprint is the fingerprint of the current sorted index ids.", "quantifier": "all histories", "why_tests_cant": "a missed refresh shows up only after particular sequences", "anchors": ["src/toron/space.py: insert_index, delete_index, update_index", "src/toron/data_service.py: refresh_index_hash_property, delete_index_record"]}
{"id": "C24", "title": "Deleting index records leaves no dangling data", "statement": "After deleting index records no weight and no mapping refers to a deleted record and all other records' weights and other links' data are unchanged; a record with mappings at an ambiguous level that cannot be removed safely makes the whole call fail with no change.", "quantifier": "all states and all criteria", "why_tests_cant": "arbitrary contents", "anchors": ["src/toron/data_service.py: delete_index_record", "src/toron/space.py: delete_index"]}
{"id": "C25", "title": "Updating an index record to labels it already has changes nothing", "statement": "Updating index labels to their current values is accepted and leaves the dataspace unchanged; with merging enabled no record disappears except one that was merged into a different record.", "quantifier": "all states and update rows", "why_tests_cant": "self-conflict is a corner of arbitrary update data", "anchors": ["src/toron/space.py: update_index"]}
{"id": "C26", "title": "Operations are all-or-nothing", "statement": "A public operation that raises leaves the stored data exactly as it was before the call, wherever in its loop it fails.", "quantifier": "all operations, all states, all failure positions", "why_tests_cant": "every failure point", "anchors": ["src/toron/space.py: DataSpace._managed_transaction and all public methods"]}
{"id": "C27", "title": "Dropping a link, weight group or location removes its dependants however the dataspace was opened", "statement": "After a link (weight group, location, attribute group) is removed, none of its mappings (weights, quantities) remain, whether the dataspace was newly created, read from a file or bound to a file; a link created later starts empty.", "quantifier": "all histories and all ways of opening", "why_tests_cant": "the connection mode changes which database checks are on; tests exercise newly created dataspaces", "anchors": ["src/toron/dal1/schema.py: create_schema_tables (PRAGMA foreign_keys)", "src/toron/dal1/data_connector.py: read_from_file, bind_file, acquire_connection", "src/toron/space.py: drop_link, drop_weight_group, delete_quantities_without_index"]}
{"id": "C28", "title": "Weights are well formed in every reachable state", "statement": "Each (weight group, index record) pair has at most one weight, weights are non-negative, none belongs to the undefined record and each refers to an existing record and group.", "quantifier": "all histories", "why_tests_cant": "history property", "anchors": ["src/toron/dal1/repositories.py: WeightRepository", "src/toron/space.py: insert_weights, update_weights, delete_weights, insert_index, delete_index, update_index"]}
{"id": "C29", "title": "A weight group marked complete covers every record", "statement": "If a weight group is marked complete by the library then every index record other than the undefined one has a weight in it.", "quantifier": "all histories without a user explicitly setting the flag", "why_tests_cant": "history property", "anchors": ["src/toron/space.py: insert_weights, delete_weights, insert_index, delete_index, update_index", "src/toron/dal1/repositories.py: WeightRepository.weight_group_is_complete"]}
{"id": "C30", "title": "A link marked locally complete reaches every record", "statement": "If a link is marked locally complete by the library then every local index record other than the undefined one is the target of some mapping of it.", "quantifier": "all histories without a user explicitly setting the flag", "why_tests_cant": "history property", "anchors": ["src/toron/space.py: insert_mappings, delete_mappings, insert_index, delete_index, update_index", "src/toron/dal1/repositories.py: MappingRepository.mapping_is_complete"]}
{"id": "C31", "title": "Link names are unique and at most one link per other dataspace is the default", "statement": "In every reachable state no two links to the same dataspace share a name and at most one of them is the default; setting a new default unsets the old one and changes no other link.", "quantifier": "all histories", "why_tests_cant": "history property", "anchors": ["src/toron/space.py: add_link, edit_link", "src/toron/dal1/schema.py: create_schema_tables"]}
{"id": "C32", "title": "Conflict policies for weights and quantities do what they say", "statement": "On an existing entry: 'abort' changes nothing and fails, 'skip'/'ignore' keeps the old value, 'replace' stores the new value, 'sum' stores the sum; on no existing entry all store the new value; other entries are untouched.", "quantifier": "all stores, entries and policies", "why_tests_cant": "arbitrary sequences of conflicting rows", "anchors": ["src/toron/data_models.py: BaseWeightRepository.add_or_resolve", "src/toron/space.py: insert_quantities2, insert_weights"]}
{"id": "C33", "title": "Quantities are unique per location and attribute set and totals add up", "statement": "In every reachable state there is at most one stored quantity per location and attribute combination; with the summing policy the total stored after an insert is the total before plus the sum of the accepted rows.", "quantifier": "all histories and input tables", "why_tests_cant": "arbitrary repeated rows", "anchors": ["src/toron/space.py: insert_quantities2, insert_quantities", "src/toron/dal1/schema.py: create_schema_tables"]}
{"id": "C34", "title": "Unmatched quantities are those that no index record matches, and deleting removes exactly these", "statement": "The unmatched-quantity listing shows exactly the quantities whose location matches no index record; the delete removes exactly these; afterwards the listing is empty; all others are untouched.", "quantifier": "all states", "why_tests_cant": "arbitrary contents", "anchors": ["src/toron/data_service.py: find_locations_without_index, find_nonmatching_locations", "src/toron/space.py: select_quantities_without_index, delete_quantities_without_index, select_unmatched_quantities, delete_unmatched_quantities"]}
{"id": "C35", "title": "Label columns and attribute names never collide", "statement": "In every reachable state label columns are distinct, none is a reserved word and none is a registered attribute.", "quantifier": "all histories of column and attribute operations", "why_tests_cant": "history property", "anchors": ["src/toron/data_service.py: validate_new_index_columns, set_registered_attributes", "src/toron/space.py: add_index_columns, rename_label_column, set_registered_attributes"]}
{"id": "C36", "title": "Reordering keeps the elements", "statement": "Moving an element in an ordered list gives a permutation with the element at the requested (clamped) place and the others in their old relative order; unknown elements are rejected.", "quantifier": "all lists, elements and positions", "why_tests_cant": "all positions and lists", "anchors": ["src/toron/data_service.py: change_element_order", "src/toron/space.py: change_attribute_order, change_label_order"]}
{"id": "C37", "title": "The display order lists exactly the label columns", "statement": "In every reachable state the labels shown in display order are a permutation of the label columns.", "quantifier": "all histories of reorder, add, rename and drop", "why_tests_cant": "history property", "anchors": ["src/toron/data_service.py: set_labels_in_display_order, get_labels_in_display_order", "src/toron/space.py: rename_label_column, drop_index_columns, change_label_order"]}
{"id": "C38", "title": "Renaming or dropping columns keeps partition definitions consistent", "statement": "In every reachable state the partition definitions use only existing label columns and include a way to generate the whole space; renaming maps each definition through the renaming.", "quantifier": "all histories of column operations", "why_tests_cant": "history property", "anchors": ["src/toron/data_service.py: rename_partition_definitions", "src/toron/space.py: rename_index_columns, drop_index_columns, add_index_columns"]}
{"id": "C39", "title": "Mapper proportions add up to one for each run of matches", "statement": "For every input row the proportions of its matched records add up to one, are proportional to weights, and equal if the weights are all zero or missing.", "quantifier": "all match tables", "why_tests_cant": "arbitrary weights including zeros and NULLs", "anchors": ["src/toron/mapper.py: Mapper._refresh_proportions"]}
{"id": "C40", "title": "Mapper output conserves mapping values", "statement": "The mapping values emitted add up to the values of the rows matched on both sides (minus undefined-to-undefined). Each pair of records appears at most once for each mapping level, exactly if some row is matched with both, with the sum of what the rows give it. Both directions have the same pairs and the same total.", "quantifier": "all match tables", "why_tests_cant": "arbitrary many-to-many matches", "anchors": ["src/toron/mapper.py: Mapper.iter_mappings"]}
{"id": "C41", "title": "Mapping listings cover both sides", "statement": "A mapping listing contains every mapping of the link exactly once, and every source or target record without a mapping appears exactly once with an empty other side.", "quantifier": "all link and index contents", "why_tests_cant": "arbitrary contents", "anchors": ["src/toron/data_service.py: generate_mapping_elements"]}
{"id": "C42", "title": "Mapping statistics add up", "statement": "matched + missing = cardinality on both sides and matched + stale = number of distinct source ids in the link.", "quantifier": "all link and index contents", "why_tests_cant": "arbitrary stale links", "anchors": ["src/toron/graph.py: _get_mapping_stats"]}
{"id": "C43", "title": "Reader output and pivots conserve totals", "statement": "The rows a reader yields have one row per (index record, attributes), whose values add up to the stored quantities; in pivoted form the sum of all cells equals the sum of quantities having at least one non-empty pivot attribute.", "quantifier": "all reader contents and pivot columns", "why_tests_cant": "arbitrary contents", "anchors": ["src/toron/reader.py: NodeReader._generate_reader_output, pivot_reader"]}
{"id": "C44", "title": "Saving is atomic with respect to crashes", "statement": "At whatever step a save stops, by an error or a crash, the destination file is either the previous content or the complete new content; a failed save leaves no temporary file behind (crashes excepted).", "quantifier": "all crash points and all error points of the save sequence", "why_tests_cant": "crash points cannot be enumerated by unit tests", "anchors": ["src/toron/dal1/data_connector.py: save_to_file"]}
{"id": "C45", "title": "Migrating an old file keeps totals", "statement": "Migration of an older file keeps per (location, attribute group) totals, all links, all mappings except undefined-to-undefined ones, and all index records; if it fails nothing changes; migrating twice is the same as once.", "quantifier": "all old-version databases", "why_tests_cant": "arbitrary contents incl. duplicates", "anchors": ["src/toron/dal1/migrations.py: apply_migrations and steps"]}
{"id": "C46", "title": "Index codes round-trip and foreign codes are detected", "statement": "The index code of an id decodes to that id under the same checksum domain; a code made for a different id is never accepted for this id, and codes whose checksum does not match are rejected.", "quantifier": "all ids and all code strings", "why_tests_cant": "unbounded strings", "anchors": ["src/toron/cli/common.py: index_id_to_code, index_code_to_id, is_index_code"]}
{"id": "C47", "title": "Reshaping wide data loses nothing", "statement": "Converting wide to narrow/long form yields one row per (row, value column) with a present value and the value sums are preserved; label and variable parts are recoverable.", "quantifier": "all tables and column selections", "why_tests_cant": "arbitrary tables", "anchors": ["src/toron/_utils.py: wide_to_narrow, wide_to_long"]}
{"id": "C48", "title": "Granularity orders partitions by refinement", "statement": "The granularity of a partition is between 0 and log2 N, is maximal iff its labels identify every record, is 0 iff all records share the labels, and never decreases when a label column is added; both implementations compute the same number.", "quantifier": "all index contents and column lists", "why_tests_cant": "real-valued inequality over all partitions", "anchors": ["src/toron/data_service.py: calculate_granularity", "src/toron/dal1/optimizations.py: calculate_granularity"]}
{"id": "C49", "title": "Stored granularities are current after every operation that reports success", "statement": "The structure table's granularities are those of the current index records after each successful operation.", "quantifier": "all histories", "why_tests_cant": "history property", "anchors": ["src/toron/space.py: insert_index, update_index, delete_index", "src/toron/data_service.py: refresh_structure_granularity, rebuild_structure_table"]}
{"id": "C50", "title": "SQL identifiers are quoted safely", "statement": "Quoting a label column name yields a single quoted identifier that SQLite reads back as exactly the name, whatever SQL text follows it; different names give different identifiers; a comma-separated list of quoted columns is read back as the same list; only names with a NUL character are refused.", "quantifier": "all strings", "why_tests_cant": "all strings (injection)", "anchors": ["src/toron/dal1/schema.py: format_identifier"]}
{"id": "C51", "title": "Ambiguous-field listings name exactly the fields not covered by the level", "statement": "The ambiguous fields reported for a mapping are exactly the label columns not set in the mapping level.", "quantifier": "all levels and column lists", "why_tests_cant": "byte-boundary cases", "anchors": ["src/toron/graph.py: _get_ambiguous_fields", "src/toron/space.py: select_mappings", "src/toron/cli/command_mapping.py: get_ambiguous_field_text"]}
{"id": "C52", "title": "Column checks accept a table iff the required columns are all there", "statement": "A table is accepted iff its column set includes the required ones (and, when extras are not allowed, nothing else).", "quantifier": "all column lists", "why_tests_cant": "set reasoning over all lists", "anchors": ["src/toron/_utils.py: verify_columns_set"]}
{"id": "C53", "title": "The valid label combinations are exactly the unions of the defined partitions", "statement": "In every reachable state a set of label columns is a valid combination exactly if it is a union of stored partition definitions, and no combination is listed twice.", "quantifier": "all histories", "why_tests_cant": "history property over adding, renaming and dropping columns and partitions", "anchors": ["src/toron/data_service.py: rebuild_structure_table, add_partition_definitions, remove_partition_definition", "src/toron/space.py: add_index_columns, rename_index_columns, drop_index_columns"]}
{"id": "C54", "title": "Disaggregation splits a quantity over all its records by the most specific weight group", "statement": "Reading a dataspace splits each stored quantity over exactly the index records whose labels agree with the quantity's labels, in proportion to the weights of the group whose selectors match its attributes most specifically, and equally if these weights are all zero.", "quantifier": "all reachable dataspaces, attribute sets and weight groups", "why_tests_cant": "depends on stored granularities that are kept up to date (or not) by the history", "anchors": ["src/toron/space.py: DataSpace._disaggregate, __call__", "src/toron/data_service.py: find_crosswalks_by_ref"]}
{"id": "C55", "title": "Listings show exactly what is stored", "statement": "Listing the index, a weight group, a link's mappings or the quantities under label criteria returns exactly the stored records that have the wanted labels in the wanted columns, each once, with the stored values.", "quantifier": "all reachable dataspaces and criteria", "why_tests_cant": "arbitrary histories and criteria", "anchors": ["src/toron/space.py: select_index, select_weights, select_mappings, select_quantities2, select_quantities"]}
{"id": "C56", "title": "A link's recorded fingerprint is that of the source records its mappings cover", "statement": "Unless a fingerprint is set by hand, the source fingerprint stored with a link is at any time the fingerprint of the undefined record and the source records that have a mapping in that link, whatever insertions, deletions and merges of records, mappings, links and columns happened since.", "quantifier": "all histories", "why_tests_cant": "history property; a single forgotten refresh after any operation breaks it", "anchors": ["src/toron/space.py: insert_mappings2, insert_mappings, update_mappings, delete_mappings, reify_mappings, update_index, delete_index"]}
{"id": "C57", "title": "The weight listing shows every record with its stored weights", "statement": "Listing the weights of a dataspace gives one row per index record, the undefined record included, with the stored weight of each wanted group; a missing weight is shown as zero for the undefined record and as no value for the others.", "quantifier": "all reachable dataspaces and all selections of weight groups", "why_tests_cant": "arbitrary histories of weights", "anchors": ["src/toron/graph.py: get_weights"]}
{"id": "C58", "title": "Rows of mapping data are matched with exactly the records they mean", "statement": "A row is matched only with records it names by code or whose labels agree with its labels. A single such record is always matched. Several are matched, if they are no more than the limit, all if overlaps are allowed and otherwise those not matched at a finer level, unless more than one would be matched and one of them has no weight. More than the limit are never matched.", "quantifier": "all reachable dataspaces, rows, limits and the overlap option", "why_tests_cant": "depends on the order in which levels are processed and on matches made before", "anchors": ["src/toron/mapper.py: Mapper.match_records"]}
{"id": "C59", "title": "Loading matched mapping data stores all of it", "statement": "After a successful load of matched mapping data into a dataspace, the mappings of the link are those before and every emitted row with its value; no other link's mappings change. Data counts as fully matched exactly if every record other than the undefined one is matched on both sides.", "quantifier": "all reachable dataspaces and mapping data", "why_tests_cant": "row filters of the writer must agree with what the mapper emits for every structure", "anchors": ["src/toron/cli/command_mapping.py: read_from_stdin", "src/toron/mapper.py: Mapper.is_fully_matched, Mapper.iter_mappings", "src/toron/space.py: insert_mappings2"]}
{"id": "C60", "title": "Deleting or reclassifying mappings by criteria touches exactly the mappings meant", "statement": "Deleting mappings of a link by label criteria removes exactly those whose record has the wanted labels and whose level uses no other columns than those of the criteria; reclassifying makes exactly these exact (all of the link without criteria). All other mappings keep their records, values and levels.", "quantifier": "all reachable dataspaces, links and criteria", "why_tests_cant": "the level test is a comparison of bit strings that has to be right for every number of columns", "anchors": ["src/toron/space.py: delete_mappings, reify_mappings"]}
{"id": "C61", "title": "Adding label columns works and invalidates nothing", "statement": "Columns with new, allowed names can always be added. Records get an undefined label and locations an empty one in the new columns; everything else stays. Every label combination that was valid stays valid, except that the combination of all old columns is dropped if nothing uses it; quantities that were counted are still counted, and mappings with a valid level still have one.", "quantifier": "all reachable dataspaces and column names", "why_tests_cant": "depends on the history of columns, partitions, quantities and mappings", "anchors": ["src/toron/space.py: add_index_columns, drop_index_columns", "src/toron/data_service.py: rebuild_structure_table, add_partition_definition, remove_partition_definition"]}
{"id": "C62", "title": "Selector texts are read as documented and written back faithfully", "statement": "A selector text is accepted exactly if it is a sequence of selectors of the documented grammar, with blanks allowed between tokens, and it has a single reading. The text of a selector is read back as the same selector, so different selectors have different texts.", "quantifier": "all texts and all selectors", "why_tests_cant": "the languages of texts and selectors are infinite and nested; quoting errors show only for particular values", "anchors": ["src/toron/selectors.py: parse_selector, selector_grammar, SelectorTransformer, SimpleSelector.__str__, MatchesAnySelector.__str__, CompoundSelector.__str__"]}
{"id": "C63", "title": "Tables with mapping data are read as laid out", "statement": "Reading a table with mapping data takes as the value column the first one that names the link, as index codes of each dataset a column that has such codes, and the labels by column name on that dataset's side. Each row gives one line with the record its code stands for, its labels and its value; rows without a code give their labels only, if the table has exactly the label columns.", "quantifier": "all tables, headers, unique ids and label columns", "why_tests_cant": "the search for columns goes through the table in chunks and depends on the values of all cells", "anchors": ["src/toron/cli/command_mapping.py: read_from_stdin, get_column_positions", "src/toron/cli/common.py: get_index_code_position", "src/toron/mapper.py: get_mapping_value_position"]}
{"id": "C64", "title": "A mapping written as a table can be read again", "statement": "Writing a mapping as a table and reading the table maps exactly the pairs of records that were mapped and still exist, each with the total value of the pair, even if labels or columns were changed in between. If all levels are whole the result is the same mapping, and loading it into an empty link restores it.", "quantifier": "all reachable pairs of dataspaces, mappings, later states of both and limits for matches", "why_tests_cant": "depends on every label, code and level in the two dataspaces, on unmatched records and on the order of columns", "anchors": ["src/toron/cli/command_mapping.py: write_to_stdout, read_from_stdin", "src/toron/data_service.py: generate_mapping_elements", "src/toron/mapper.py: Mapper"]}
{"id": "C65", "title": "Loading an index does what its rows say", "statement": "After insert_index succeeds, every earlier record is still there under its id. It has its old labels, or, when labels are to be replaced, the last labels that a row with its id gives. The other records are new: their labels are label combinations of rows without an id that no record had, each once. In every weight group the numbers of the rows about a record (by id, or by labels when the row has no id) are loaded one after the other under the chosen policy, and nothing else changes. Rows with an empty label count for nothing. The undefined record never gets a weight. Data that fits is accepted.", "quantifier": "all reachable dataspaces, all rows, all column selections and all policies for labels and weights", "why_tests_cant": "the outcome depends on the order of rows, on repeated and conflicting rows and on what was stored before", "anchors": ["src/toron/space.py: DataSpace.insert_index", "src/toron/dal1/repositories.py: IndexRepository, WeightRepository"]}
{"id": "C66", "title": "A written index can be loaded again", "statement": "The table that `toron index` prints can be loaded again. Into the same dataspace it is accepted and changes nothing (weights kept or replaced). Into a later state of the dataspace, with conflicts replaced, it gives the records in it their labels and weights back and touches nothing else. Into another dataspace with the same columns and weight groups it adds the records that are missing there, with their weights.", "quantifier": "all reachable dataspaces, unique ids, records written, later states and policies", "why_tests_cant": "depends on every label, id and weight, on the order of weight groups, on which cells look like index codes, and on what has happened to the dataspace since", "anchors": ["src/toron/cli/command_index.py: write_to_stdout, read_from_stdin", "src/toron/cli/common.py: get_index_code_position, remap_index_codes_to_index_ids", "src/toron/space.py: DataSpace.insert_index"]}
{"id": "C67", "title": "Written quantities can be loaded again", "statement": "The table that `toron quantity` prints can be loaded again. Into a dataspace with the same columns, attributes and domain it is accepted exactly if the labels are acceptable there and the policy for existing values allows it, and then every cell (labels and attribute set) holds what the policy says; otherwise nothing changes. Into a dataspace without quantities this makes an exact copy; into the same dataspace, with values kept or replaced, nothing changes.", "quantifier": "all reachable pairs of dataspaces of the same layout, quantities and policies", "why_tests_cant": "depends on every label, attribute set and column name, on which attributes are registered and on the order of rows", "anchors": ["src/toron/cli/command_quantity.py: write_to_stdout, read_from_stdin", "src/toron/space.py: DataSpace.select_quantities2, DataSpace.insert_quantities2"]}
{"id": "C68", "title": "Loading a mapping file between two dataspaces", "statement": "Loading a table of mapping data (`load_mapping`) refuses a table whose rows name another domain, and then changes nothing. A row is only matched with records that have its labels, at a combination of label columns the dataspace has; with none if there are more than the limit; with the only one if there is one; with all of them if overlaps are allowed, and otherwise with those not matched at a finer level. Its value is divided among its matches in proportion to the default weights, so that the mappings add up to the values of the rows matched on both sides. Each dataspace an arrow points to gets one new link with exactly these mappings, and nothing else is changed.", "quantifier": "all reachable pairs of dataspaces, tables, limits, directions and link options", "why_tests_cant": "depends on every label in both dataspaces, on weights, granularities, and on which combinations of columns exist on either side", "anchors": ["src/toron/graph.py: normalize_mapping_data, load_mapping", "src/toron/mapper.py: Mapper_OLD", "src/toron/space.py: DataSpace.add_link, DataSpace.insert_mappings2"]}
{"id": "C69", "title": "Printed tables are read as the same tables", "statement": "What the command line prints as CSV and then reads from standard input is the same table, with the same cells, whatever commas, quotes, line ends, blanks and empty cells the names and labels contain; different tables are printed as different texts.", "quantifier": "all tables: any number of rows, cells and characters", "why_tests_cant": "depends on every character of every cell and on its neighbours: quoting, doubled quotes, line ends within cells, empty rows and cells", "anchors": ["src/toron/cli/common.py: csv_stdout_writer", "src/toron/cli/command_index.py: write_to_stdout, read_from_stdin", "src/toron/cli/command_quantity.py: write_to_stdout, read_from_stdin", "src/toron/cli/command_mapping.py: read_from_stdin, write_to_stdout", "src/toron/cli/main.py: main"]}
{"id": "C70", "title": "Names given on the command line", "statement": "Where a command takes a list of names, they can be given as separate arguments or with commas in between, in any grouping, with blanks around them, on several lines, and quoted as in CSV when they contain commas or quotes: the command gets the same names in the same order. What it gets is never empty, never contains a line end and never has blanks at its ends.", "quantifier": "all lists of names, groupings, blanks and line breaks; all arguments", "why_tests_cant": "depends on every character and its neighbours", "anchors": ["src/toron/cli/common.py: normalize_arg_list", "src/toron/cli/command_add.py: add_label, add_partition, add_attribute"]}
{"id": "C71", "title": "Editing links, attributes and selectors on the command line", "statement": "`toron add link` adds the link to each file an arrow points to, or fails and changes nothing; it fails exactly if such a file has a link of that name. `toron remove link` removes just the named link, with its mappings, and fails exactly if there is none. `toron add attribute` registers the names that are new after the old ones. `toron update weight` leaves the old and the added selectors without those to be removed.", "quantifier": "all pairs of reachable dataspaces, names, directions and options; all lists of names and selectors", "why_tests_cant": "two files and two transactions; depends on everything stored before", "anchors": ["src/toron/cli/command_add.py: add_link, add_attribute", "src/toron/cli/command_remove.py: remove_link", "src/toron/cli/command_update.py: update_weight", "src/toron/space.py: DataSpace.add_link, DataSpace.drop_link"]}
{"id": "C72", "title": "The file that is opened", "statement": "When a dataspace is bound to a path, saved to it or read from it, exactly the file with that name is opened, in the mode that was asked for, whatever characters the name contains: question marks, percent and number signs, blanks and letters outside ASCII have no special meaning. Different names open different files.", "quantifier": "all paths (texts that can be encoded) and all modes", "why_tests_cant": "depends on every character of the path and on how SQLite reads names of files", "anchors": ["src/toron/dal1/data_connector.py: make_sqlite_uri_filepath, get_sqlite_connection, DataConnector.bind_file"]}
{"id": "C73", "title": "The shorthand for links in a header", "statement": "A header of the form \"name: file1 --> file2 : [selector]\" is read as exactly the parts that were written, whatever blanks are put between them and whichever of the six arrows is used; every text that has this form is recognised, a text that does not have it is not, and two different links never share a text. When mapping data is loaded, the column of the values is the first one whose header is the name of the link or a shorthand with this name.", "quantifier": "every name, file name, arrow and selector, every choice of blanks, every text and every header", "why_tests_cant": "A backtracking pattern with reluctant names and optional parts can split a text in many ways; tests try a few dozen texts, not all of them.", "anchors": ["src/toron/_utils.py: parse_edge_shorthand", "src/toron/mapper.py: get_mapping_value_position"]}
{"id": "C74", "title": "How granularities are shown", "statement": "In a list of granularities equal ones are shown by equal texts and different ones by different texts, and no granularity but zero is shown as zero. Each text is the number rounded to nearest at a number of decimal places that is the same for all of them, at least three and no larger than needed; the texts are as wide as each other and ordered like the numbers, and a missing granularity is shown as None. This works for every list of granularities.", "quantifier": "every list of granularities, with any of them missing", "why_tests_cant": "The number of decimal places depends on all values together; rounding, padding and ties would have to be tried for all lists of numbers.", "anchors": ["src/toron/formatters.py: format_granularity"]}
{"id": "C75", "title": "The summary of a dataspace", "statement": "For every dataspace there is a summary. It lists every partition definition once, and the whole space, with its labels in display order and its granularity; every weight group once by name, saying which is the default and which are incomplete; and one line for each dataspace that links come from, which names each of its links once, saying which is the default and which are incomplete.", "quantifier": "every history of operations and every resulting dataspace", "why_tests_cant": "Whether a summary can be made depends on the whole history: on columns dropped, groups dropped and defaults set at any time before.", "anchors": ["src/toron/data_service.py: get_dataspace_info_text", "src/toron/formatters.py: sort_partition_definitions", "src/toron/space.py: DataSpace.__repr__", "src/toron/cli/command_info.py: write_to_stdout"]}
{"id": "C76", "title": "Operations leave unrelated data alone", "statement": "Whatever call is made on a dataspace, successful or not, everything the call is not about is the same afterwards. Loading, correcting or deleting index records does not change the names and selectors of weight groups or the description of links. Editing weights does not change labels, links, mappings or quantities. Loading mappings does not change weights, labels or quantities. Loading quantities changes nothing else. Changing label columns does not change weights, mappings or quantity values. No call changes the identity of the dataspace.", "quantifier": "every history of operations, every further call with every input, and every part of the dataspace the call is not about", "why_tests_cant": "A test compares the few tables it looks at after a few calls. That the other tables are untouched must hold for every call in every state.", "anchors": ["src/toron/space.py: DataSpace", "src/toron/data_service.py", "src/toron/dal1/repositories.py"]}
{"id": "C77", "title": "Correcting and deleting weights", "statement": "Correcting weights by a table with ids, labels and values succeeds exactly if the group exists, every value that counts is at least zero and none is for the undefined record. A row counts if its id and its labels are those of one record. Afterwards every record has the last value given for it or its previous weight, other groups are unchanged, and the group is marked complete when it got a missing weight and now covers every record. Deleting weights by rows or by criteria removes exactly the weights of the records meant from that group, and takes the mark of completeness away exactly if something was deleted. A call that fails changes nothing.", "quantifier": "every history of operations, every group, every table of corrections, every choice of records", "why_tests_cant": "Tables with repeated ids, wrong labels and missing weights combine without limit; a test covers a few rows.", "anchors": ["src/toron/space.py: DataSpace.update_weights", "src/toron/space.py: DataSpace.delete_weights", "src/toron/dal1/repositories.py: WeightRepository"]}
{"id": "C78", "title": "Correcting labels", "statement": "Correcting the labels of index records by a table of ids and new labels works row by row: a row with an empty label or an unknown id is passed over, the undefined record cannot be changed, and if another record has the new labels the two are merged, or the call is refused if merging was not asked for. When the call succeeds every record has the labels these rules give it, and the weights and mappings of merged records are with the record that is left: one weight per group with the sum, one mapping per source record and level with the sums of values and proportions. A correction that the rules allow is accepted, one they do not allow is refused without changing anything. A row that repeats the labels a record has changes nothing.", "quantifier": "every history of operations, every table of corrections, with and without merging", "why_tests_cant": "Rows act on the result of earlier rows, and merges can be chained; a test fixes one table.", "anchors": ["src/toron/space.py: DataSpace.update_index", "src/toron/dal1/repositories.py: IndexRepository.update", "src/toron/data_models.py: BaseWeightRepository.merge_by_index_id", "src/toron/data_models.py: BaseMappingRepository.merge_by_index_id"]}
{"id": "C79", "title": "Editing mappings row by row", "statement": "Adding, correcting and deleting mappings of a link by tables works row by row. A row counts if it has the id and the labels of an index record and a level that is a valid combination of label columns; other rows are passed over. Adding succeeds exactly if the rows that count can be stored and are new, and then the link has its old mappings followed by these rows. Correcting makes the mapping between two records what the last row for them says, and adds it if there is none. Deleting removes exactly the exact mappings a row names with their value. Mappings of other links stay as they are, the fingerprint and the mark of completeness of the link are brought up to date, and a call that is refused changes nothing.", "quantifier": "every history of operations, every link and every table of rows", "why_tests_cant": "Which rows count depends on the labels, ids and levels stored by earlier operations, and rows can concern the same mapping; a test fixes one table.", "anchors": ["src/toron/space.py: DataSpace.insert_mappings", "src/toron/space.py: DataSpace.update_mappings", "src/toron/space.py: DataSpace.delete_mappings", "src/toron/dal1/repositories.py: MappingRepository"]}
{"id": "C80", "title": "Removing columns from a legacy node keeps totals", "statement": "Removing index columns from a legacy node keeps, of the records that can no longer be told apart, the one with the smallest id, with its remaining labels. For every weighting and every combination of remaining labels the total weight is the same as before, and for every set of attributes the total of the quantities is the same as before. If granularity has to be preserved, the removal succeeds only if no records become equal, and then only labels change. Weightings keep their names and selectors; one in which every record had a weight still has one for every record, and one that was not flagged complete becomes so exactly if records are merged and then all of them have a weight in it. (The code keeps this except that quantities which were given in several parts are multiplied, a record whose remaining labels are all dashes disappears in the undefined record or makes the removal fail, and removals fail when only locations become equal or when a name needs quotes.)", "quantifier": "every history of calls, every set of columns and both options", "why_tests_cant": "Which records and locations merge, and which have amounts already, depends on the whole history; the totals must be kept for all of them.", "anchors": ["src/toron/xnode.py: xNode.remove_index_columns", "src/toron/_dal.py: DataAccessLayer.remove_index_columns", "src/toron/_dal.py: DataAccessLayer._coarsen_records_make_sql"]}
{"id": "C81", "title": "A legacy node stays consistent", "statement": "After every sequence of calls on a legacy node, failed ones included, the undefined record is the first record and all dashes, every record has one non-empty label per column, ids and combinations of labels are different, an id that has disappeared is never used again, every weight and quantity belongs to existing rows, no record has two weights in one weighting, the stored hash and granularities are those of the current records, and the levels of the structure are the unions of the partition definitions, among them all columns together. (The code keeps the part about the structure only if column names are given in normal form, are never changed, and definitions are made of existing columns.)", "quantifier": "every sequence of calls with all arguments", "why_tests_cant": "The tables are changed by eight methods in any order; a test runs a few orders.", "anchors": ["src/toron/xnode.py: xNode", "src/toron/_dal.py: DataAccessLayer", "src/toron/_schema.py"]}
{"id": "C82", "title": "Adding weights to a legacy node", "statement": "Adding weights to a legacy node adds one weighting, with a weight for exactly those rows that match exactly one record other than the undefined one, on that record; other weights stay; the weighting is marked complete if and only if every record has a weight in it; the first weighting becomes the default. The mark stays right when the node changes. (The last sentence is violated: adding records does not change the mark.)", "quantifier": "every history of calls, every table of weights", "why_tests_cant": "Matching depends on the columns present and on all records; the mark must agree with the tables after any history.", "anchors": ["src/toron/xnode.py: xNode.add_weights", "src/toron/_dal.py: DataAccessLayer.add_weights", "src/toron/_dal.py: DataAccessLayer._add_weights_set_is_complete"]}
{"id": "C83", "title": "Managing weight groups and links", "statement": "Adding a weight group or link succeeds if and only if its name is not in use (for links: between the two dataspaces); a weight group becomes the default if that is asked for, or if it is left open and it is the first. Editing changes exactly the group or link that is meant and only what is given, and fails, changing nothing, if the new name is in use; making a link the default takes the mark from the others between the two dataspaces. Dropping removes exactly the group or link that is meant; dropping the default weight group leaves no default. Calls for a weight group that does not exist change nothing. (Violated: without a default weight group no group can be dropped.)", "quantifier": "every reachable dataspace, all arguments of the calls", "why_tests_cant": "Whether a name or a default mark is free depends on the groups and links made, renamed and dropped before.", "anchors": ["src/toron/space.py: add_weight_group, edit_weight_group, drop_weight_group, add_link, edit_link, drop_link", "src/toron/data_service.py: set_default_weight_group"]}
{"id": "C84", "title": "The listing of a mapping with labels", "statement": "The listing of the mapping between two dataspaces has, below a header, a row for the undefined records, a row for each mapping of the link with both records, the value and the ambiguous fields, a row for each record of the target without a mapping and a row for each record of the source without a mapping, every record with its id, domain and labels; ids that are no longer records are shown without labels. Every row has a field for every name in the header. Leaving out the header leaves out nothing else. The name of the link can be left out. (The last sentence is violated: without a name the call always fails. Links marked complete by hand see C41.)", "quantifier": "all reachable pairs of dataspaces, every link", "why_tests_cant": "Which rows there are depends on all records and mappings of both dataspaces and on the recorded fingerprint and flag of the link.", "anchors": ["src/toron/graph.py: get_mapping", "src/toron/data_service.py: generate_mapping_elements"]}
{"id": "C85", "title": "Dropping label columns", "statement": "Dropping label columns succeeds exactly if no reserved name is given, a column remains, and all records, all locations with quantities and all valid combinations of columns can be told apart by the remaining columns; a failed call changes nothing. Afterwards every record and location keeps its id and its label in each remaining column, the valid combinations are what remains of the earlier ones, and quantities, weights and mappings are unchanged and mean the same. (The last is violated for mapping levels, which are not adjusted: a level for one column turns into one for another, and exact mappings are no longer exact. A column cannot be dropped at all if two valid combinations differ only in it, even without data.)", "quantifier": "all reachable dataspaces, every list of names", "why_tests_cant": "Whether columns can be dropped depends on all records, locations and combinations; how levels are misread depends on the position of the column.", "anchors": ["src/toron/space.py: drop_index_columns", "src/toron/dal1/label_manager.py: drop_columns"]}
{"id": "C86", "title": "Legacy disaggregation divides quantities completely", "statement": "On a legacy node, each quantity whose labels form a level and in whose place there are records with a weight is divided completely among these records. With the static method each gets a part in proportion to its weight in the weighting chosen by the selectors (equal parts if the weights add up to zero). With the adaptive method each gets a part in proportion to what it gets of quantities for finer levels whose attributes agree, if there is any, else in proportion to its weight. Each record and set of attributes is listed at most once with the sum of these parts, so that totals by attributes are those of the quantities that can be assigned, and conditions on labels only select rows of the result. (Violated: a complete weighting that was added without selectors makes every call raise, and a quantity whose place has no weight is left out silently, although its place is a record and the weighting is flagged complete.)", "quantifier": "all nodes reachable by any sequence of calls, every choice of attributes to match and of conditions", "why_tests_cant": "Conservation depends on all levels, weights and quantities at once; the adaptive method makes each level depend on the finer ones.", "anchors": ["src/toron/_dal.py: static_disaggregate, adaptive_disaggregate", "src/toron/selectors.py: GetMatchingKey"]}
{"id": "C87", "title": "Dataspaces and files do not disturb each other", "statement": "With several dataspaces open at once, in memory and bound to files: saving writes exactly the named file with the data, which reading or binding gives back with the same identity; a failed save, read or bind changes nothing; a file changes only by saving to it, by a call on an object bound to it that is not read-only, or by creating it; the data of an object changes only by its own calls or by writing its file, and all objects bound to the same file see the same data; all data that can arise this way comes from calls on a new dataspace, so all other properties hold of it; an object reports the identity of its data; the backup of a file is written next to it, and after backups each backup holds the data of its dataspace and the dataspaces are unchanged. (Violated: an object bound to a file keeps reporting the old identity when another dataspace was saved to the file; a new file in the working directory cannot be bound under its bare name; a backup destroys a dataspace whose file is named like the backup.)", "quantifier": "all sequences of creating, reading, binding, calling, saving, making backups and changing directory, any number of dataspaces, all paths", "why_tests_cant": "Depends on the interleaving of calls on several objects that share files under different spellings of paths.", "anchors": ["src/toron/space.py: DataSpace.__init__, to_file, path_hint, read_file, bind_file", "src/toron/dal1/data_connector.py: DataConnector", "src/toron/cli/common.py: process_backup_option"]}
{"id": "C88", "title": "Renaming label columns, and the helpers for old SQLite versions", "statement": "Renaming label columns succeeds exactly if the columns exist and the new names are not reserved, not taken (ignoring case, when their turn comes) and not attributes; the columns then have the new names in the same order, in the valid combinations as well, all data stays as it is, and a refused call changes nothing. The helpers that rename or drop columns with old SQLite versions do the same as the methods while references are intact, and change nothing when they refuse. (Violated: after a helper the ids of deleted records are given out again; the renaming helper ignores names that are no columns, the method raises; the method depends on the order of the pairs, the helper does not; after dropping a link of a dataspace opened from a file the helpers refuse what the methods do.)", "quantifier": "all histories of a dataspace, all mappings of names, all lists of columns", "why_tests_cant": "Depends on the order of renamings, on case, and on rows left over by the history.", "anchors": ["src/toron/space.py: DataSpace.rename_index_columns, drop_index_columns", "src/toron/dal1/label_manager.py: rename_columns, legacy_rename_labels, legacy_drop_labels"]}
{"id": "C89", "title": "Units of measure do not matter", "statement": "Take any history of calls that make and change a dataspace, and give all weights (as well as all mapping values and all amounts) in other units, that is, multiplied by a fixed factor that is positive for weights and for mapping values. Then every call has the same outcome, the dataspace is the same up to the units (same ids, labels, proportions, completeness), and reading or translating without quantizing gives the same rows with the amounts in the new unit. The units of weights and of mapping values have no influence on any result, quantized or not.", "quantifier": "All histories of calls, all positive factors for weights and mapping values, all factors for amounts, all selectors, attributes to sum by, and pairs of dataspaces to translate between.", "why_tests_cant": "Tests fix one set of numbers; a hidden absolute threshold, a rounding step or a constant mixed into a sum would show only for some scales and some histories.", "anchors": ["src/toron/space.py: DataSpace (all public methods that change or read it)", "src/toron/data_service.py: disaggregate_value", "src/toron/data_models.py: refresh_proportions", "src/toron/reader.py: NodeReader.translate", "src/toron/_utils.py: quantize_values"]}
{"id": "C90", "title": "Reading depends only on what is stored, not on how it was loaded", "statement": "Two dataspaces that hold the same columns, records, valid combinations, weight groups, weights, domain and quantities give the same rows for every call, output and translation, whatever ids and whatever order the tables have. When a second value is refused or added, quantities and weights can be loaded in any order with the same outcome and the same resulting data; with every policy, loading in one call is the same as loading in several. Links, mappings, registered attributes, display order and reopening have no influence on what is read.", "quantifier": "All pairs of reachable dataspaces with the same data, all selectors and attributes to sum by, all lists of rows and their permutations and partitions into batches, all operations.", "why_tests_cant": "Tests load data in one order; a dependence on insertion order, on row ids or on leftover rows shows only for particular permutations and histories.", "anchors": ["src/toron/space.py: DataSpace.__call__, DataSpace.insert_quantities2, DataSpace.insert_weights", "src/toron/data_service.py: disaggregate_value", "src/toron/reader.py: NodeReader, NodeReader.translate"]}
{"id": "C91", "title": "Several processes on the same file", "statement": "When several processes call methods on dataspaces bound to the same file, then whatever the order in which their statements are executed, and wherever a call fails, times out or its process is killed, the file holds what the successful calls make of it one after the other, each as a whole, and no call is lost or made twice. A method that looks at the file more than once (removing unmatched quantities, reading, adding partition definitions) sees the file of one moment.", "quantifier": "All numbers of processes, all lists of calls of each, all interleavings of their statements and all points of failure, all reachable files.", "why_tests_cant": "Tests run one process; an interleaving that loses a row or shows a state that never was needs a particular schedule.", "anchors": ["src/toron/space.py: DataSpace._managed_transaction, DataSpace.delete_unmatched_quantities, DataSpace._disaggregate", "src/toron/dal1/data_connector.py: DataConnector.transaction_begin, transaction_commit, transaction_rollback", "src/toron/_dal.py: DataAccessLayer.add_partition_definitions"]}
{"id": "C92", "title": "The older method for loading quantities", "statement": "insert_quantities stores, for every row of the dataspace's domain that has a non-empty named attribute, its value under its labels and attributes, and nothing else; it fails, without any effect, exactly if such a row lacks a label column or a value would be stored twice; rows of other domains are skipped. With the registered attributes its effect is that of insert_quantities2 with both checks switched off. What it stores can be read.", "quantifier": "All reachable dataspaces, all lists of attribute names and all lists of rows.", "why_tests_cant": "The outcome depends on what is stored already and on combinations of rows, empty cells and domains.", "anchors": ["src/toron/space.py: DataSpace.insert_quantities, DataSpace.insert_quantities2", "src/toron/data_models.py: BaseLocationRepository.get_by_labels_add_if_missing, BaseAttributeGroupRepository.get_by_value_add_if_missing"]}
{"id": "C93", "title": "The older method for loading index records", "statement": "insert_index_OLD adds the label combinations that have no empty label and that no record has, each once and in the order of the rows, and changes no other record and no weight. It leaves the same dataspace behind as insert_index with the same labels and no weights. Without label columns it fails without any effect unless there is nothing to load.", "quantifier": "All dataspaces reachable without reopening the file, and all lists of rows that have a label for each column.", "why_tests_cant": "What a row does depends on all records stored before and on the rows before it, and the two methods update the completeness of groups and links in different ways.", "anchors": ["src/toron/space.py: DataSpace.insert_index_OLD, DataSpace.insert_index"]}
{"id": "C94", "title": "Undoing a change", "statement": "Loading rows for new records (with weights) and deleting the new records both succeed and give back the same records, weights, mappings and quantities, and weight groups and links as entered. Renaming a column and renaming it back leaves the dataspace exactly as before. So does adding a weight group or a link and dropping it. [Exceptions, proved: dropping a new column can fail; after a column was dropped, renaming another one to its name and back changes the partition definitions; a new group cannot be dropped if there is no default group; if the new group or link became the default, the old default is lost.]", "quantifier": "All dataspaces reachable without reopening the file, and all arguments with which the first call succeeds.", "why_tests_cant": "The two calls of a pair are implemented independently of each other and touch many tables; whether they cancel depends on the state before.", "anchors": ["src/toron/space.py: DataSpace.insert_index, delete_index, rename_index_columns, add_index_columns, drop_index_columns, add_weight_group, drop_weight_group, add_link, drop_link"]}
{"id": "C95", "title": "Loading in parts, again, and in another order", "statement": "Weights or quantities loaded in two calls are accepted exactly if one call with all the rows is, and the result is the same; for index data the records, ids and weights are the same whenever the calls succeed. The same data loaded again changes nothing with the policies ignore and replace, counts twice with sum, and is rejected without effect with abort if it has a number that was stored. The order of the rows does not matter with sum, nor if every target gets at most one number. [Exception, proved: index data in which a row names a record by labels and another one relabels that record makes a further record when loaded again.]", "quantifier": "All reachable dataspaces, all policies, all lists of rows (quantities: attributes registered, foreign keys enforced).", "why_tests_cant": "A user splits large files, retries after a failure and exports in any order; a test shows this for one file and one split.", "anchors": ["src/toron/space.py: DataSpace.insert_weights, insert_quantities2, insert_index"]}
{"id": "C96", "title": "The spelling of labels does not matter", "statement": "If every label in every call is replaced by another one (different labels by different ones; the empty label and '-' stay), then every call has the same outcome, and the dataspace, its ids, weights, mappings, amounts and granularities are the same with the labels replaced. Reading and translating give the same records and amounts, and tables differ in the spelling of the labels only. [Exception, proved: a criterion that names no label column is compared as text with the label asked for, so that it can match everything in one spelling and nothing in another.]", "quantifier": "All histories of calls, including failing ones, whose criteria name label columns; all injective replacements of labels; all selectors.", "why_tests_cant": "A user recodes or renames areas and expects nothing else to change; a test compares two spellings of one data set.", "anchors": ["src/toron/space.py: DataSpace", "src/toron/dal1/repositories.py: IndexRepository.filter_by_label, find_index_id, StructureRepository", "src/toron/reader.py: NodeReader"]}
{"id": "C97", "title": "Results add up", "statement": "If two tables of amounts are loaded into one dataspace (summing) or each into its own copy, then whatever is read from the first is the sum of what is read from the two copies, for every record, attribute set and selector, and after a translation as well. If the tables have no target in common, the result for both is the two results together, row by row, also with whole numbers, and a call succeeds exactly if it succeeds for both. Selecting by attributes while reading, before translating or in the end gives the same rows. [Exceptions, proved: with whole numbers amounts for the same target do not add up; a selector for the domain matches every row of a full result but selects none when given to the call.]", "quantifier": "All pairs of tables, dataspaces, selectors, links and conditions on rows.", "why_tests_cant": "Users split data into files, load parts and add up results; tests compare one example.", "anchors": ["src/toron/space.py: DataSpace.__call__, insert_quantities2", "src/toron/reader.py: NodeReader.translate", "src/toron/data_service.py: disaggregate_value, get_quantity_value_sum"]}
{"id": "C98", "title": "Stored texts are read back unchanged", "statement": "Attributes, selectors, user properties and settings are kept in the file as JSON. For every value made of texts, integers, booleans, null, lists and dictionaries with text keys: what is written is read back as the same value, whatever quotes, control characters, line ends or characters beyond ASCII its texts contain; different values are written differently; the written text is printable ASCII; two dictionaries of attributes are written alike exactly if they have the same items in some order (so the uniqueness of attribute groups in the file is uniqueness of the dictionaries); what is written passes the database's own checks; keeping some keys keeps exactly the items with those keys. [Exceptions, proved: a text with two lone surrogates that form a pair is read back as another text and is taken for it; dictionary keys that are not texts come back as texts, and items can be lost.]", "quantifier": "All values, of any nesting and size, all texts.", "why_tests_cant": "Escaping is a matter of every character in every position and combination; tests use a few words.", "anchors": ["src/toron/dal1/schema.py: toron_check_selectors, toron_check_attributes, toron_check_user_properties, toron_check_property_value, toron_json_object_keep", "src/toron/dal1/repositories.py: AttributeGroupRepository, CrosswalkRepository, PropertyRepository"]}
{"id": "C99", "title": "The form of a table does not matter", "statement": "Records, weights and quantities may be given as rows with a header, as rows with column names, or as dictionaries, with the columns in any order and with extra columns. Two tables that say the same (the same labels, ids, weights, attributes and values row by row, whether numbers are numbers or texts that are read as these numbers) lead to the same dataspace and the same error, for insert_index, update_index, delete_index, insert_weights, update_weights and insert_quantities2. [Exceptions, proved: update_index passes over a row if any cell, also of an extra column, is an empty text; with merge_on_conflict it reports a row about a merged record only if ids are numbers; insert_weights gives the weight of a row that is too short to the first record with the labels that are left; keys that the first dictionary lacks are dropped; a header is loaded as a record if column names are given too.]", "quantifier": "All tables of any size, all column orders and forms, all dataspaces that can be reached.", "why_tests_cant": "Tests use one form and one order of columns per method.", "anchors": ["src/toron/_utils.py: normalize_tabular", "src/toron/space.py: insert_index, update_index, delete_index, insert_weights, update_weights, insert_quantities2"]}
{"id": "C100", "title": "A new file replaces none", "statement": "The command init makes a file with a new, empty dataset whose domain is the one given or else the name of the file without its extension; all other files stay as they are and the file can be opened. If a file or directory of that name exists, or the name is nothing but white space, or the file cannot be written, the command fails and no file is changed. [Exception, proved: a file that another program makes between the check and the saving is replaced.]", "quantifier": "All paths and domains, all states of the file system, everything other programs do in between.", "why_tests_cant": "A test runs the command alone; the race depends on the schedule.", "anchors": ["src/toron/cli/command_init.py: create_file"]}
{"id": "C101", "title": "Regional totals", "statement": "For a region given by labels (for example state = X), the values that are read for the records of the region add up exactly to the quantities stored for locations inside the region, for any condition on the attributes and whether or not values are rounded to whole numbers, provided that no quantity is stored for a location that is only partly in the region. If quantities are not negative, the sum lies in any case between the quantities stored inside the region and those stored for locations that are not outside. The same holds after a translation if the links lead from the records of the region, and from no others, to the records of a region of the other dataspace.", "quantifier": "All dataspaces that can be reached, all regions, selectors, weights, links and attributes.", "why_tests_cant": "It is a statement about sums over every possible region of every dataspace.", "anchors": ["src/toron/space.py: _disaggregate, __call__", "src/toron/data_service.py: disaggregate_value", "src/toron/_utils.py: quantize_values", "src/toron/reader.py: NodeReader.translate"]}
{"id": "C102", "title": "Parts do not exceed the whole", "statement": "Every value that is read from a dataspace is a part of one stored quantity: it has the same sign (or is zero) and is not larger in size. In particular no negative value appears if no stored quantity is negative. The same holds for every value after a translation with respect to the values before it. Rounding to whole numbers makes no difference.", "quantifier": "All dataspaces that can be reached, all quantities of either sign, selectors, weights, links and attributes.", "why_tests_cant": "Rounding distributes leftovers, so the claim depends on all fractions at once.", "anchors": ["src/toron/space.py: _disaggregate", "src/toron/data_service.py: disaggregate_value", "src/toron/_utils.py: quantize_values", "src/toron/reader.py: NodeReader.translate"]}
{"id": "C103", "title": "Every row of a table is accounted for", "statement": "When a table of corrections, weights or mappings is loaded, changed or deleted, every row either takes effect or is left out, and a row that is left out changes nothing: loading only the other rows has the same result. The warning counts every row under the reason why it was left out (or as merged or newly added where that is not what was asked for), with exact numbers. If there is no warning, every row took effect as asked.", "quantifier": "All dataspaces that can be reached, all tables, for update_index, delete_index, insert_weights, update_weights, delete_weights, insert_mappings, update_mappings and delete_mappings.", "why_tests_cant": "Rows depend on what earlier rows did; a test fixes one table.", "anchors": ["src/toron/space.py: warn_if_issues, update_index, delete_index, insert_weights, update_weights, delete_weights, insert_mappings, update_mappings, delete_mappings"]}
{"id": "C104", "title": "A detour through another dataspace, and the way back", "statement": "Translating a result to a finer dataspace and back returns it: if whatever a record is split into is mapped back to that record alone, every record and attribute set has its old total again, with or without rounding on either leg. More generally, if all ways from a record through a dataspace in between end up in one record of the target, the totals in the target are those of the records that end up there, and they equal those of a direct translation with the same destinations. If each record has one counterpart, the values move unchanged.", "quantifier": "All results, all pairs and triples of dataspaces that can be reached, all links, shares, attribute selectors and rounding choices.", "why_tests_cant": "Tests translate one result over one link; the claim is about every composition of two, with rounding of unequal shares in between.", "anchors": ["src/toron/reader.py: NodeReader.translate", "src/toron/data_service.py: make_get_link_id_func", "src/toron/_utils.py: quantize_values"]}
{"id": "C105", "title": "A command on the command line does its edit or leaves the file alone", "statement": "toron FILE add/rename/update ... and loading records from standard input: if the file is missing, is no Toron file or may not be written, nothing is changed and an error message is given. If the command ends well the file holds the result of the edit it names and, with a backup, the file backup-NAME beside it holds the data from before; no other file has changed. If the edit is possible and the backup can be written, the command ends well. If the command ends in any other way the file is as it was, and so is every other file but the backup.", "quantifier": "All reachable states of a machine with any number of Toron files, all paths that name a file, all commands that edit one file with all arguments, with and without backup.", "why_tests_cant": "Tests run a few commands on one file in an empty folder; the claim is about every file content, every failing argument, and about all other files.", "anchors": ["src/toron/cli/command_add.py", "src/toron/cli/command_rename.py", "src/toron/cli/command_update.py", "src/toron/cli/common.py: cli_bind_file, process_backup_option", "src/toron/cli/main.py: main"]}
{"id": "C106", "title": "Splitting a quantity with floating-point numbers", "statement": "The quantities and weights are floating-point numbers with 53 significant bits, and every operation rounds. A quantity is still split among exactly the records among which exact arithmetic splits it, or fails with the same error; each part differs from the exact part by at most the fraction (n + 2) / 2^52 of it for n records, and so does the sum of the parts from the quantity. A whole number z that is split and rounded to whole numbers (quantize) gives whole numbers that add up to exactly z, each within one of its share but for that rounding error, as long as (n + 2) * |z| < 2^52. [Exceptions, proved: larger whole numbers can lose their total; a number that is not whole can make the rounding fail; records with equal remainders are not always resolved by the hash; unrounded parts need not add up exactly.]", "quantifier": "All values, all lists of records of any length up to 2^52, all non-negative weights.", "why_tests_cant": "Rounding errors depend on every bit of every weight and on the order of additions; tests use small numbers for which the arithmetic happens to be exact.", "anchors": ["src/toron/data_service.py: disaggregate_value", "src/toron/_utils.py: quantize_values", "src/toron/space.py: DataSpace._disaggregate"]}
{"id": "C107", "title": "Translating quantities with floating-point numbers", "statement": "The proportions of mappings and the translated quantities are floating-point numbers, and every operation rounds. Translating a quantity over a link gives each of the mapped records its exact part but for the fraction (n + 2) / 2^52 of it, for n mappings with values that are not negative. Translating from dataspace to dataspace along k links keeps the total but for the fraction k * (n + 2) / 2^52 of the sum of the absolute values. Whole numbers z that are translated with rounding to whole numbers remain whole numbers with exactly the same total, however many links there are, as long as (n + 2) * |z| < 2^52 for each of them. [Exceptions, proved: larger whole numbers can lose their total; numbers that are not whole can make the rounding fail; unrounded parts need not add up exactly.]", "quantifier": "All lists of quantities of both signs, all chains of links of any length, all mappings with values that are not negative.", "why_tests_cant": "Errors accumulate over links and depend on every bit of the mapping values; tests translate once, with small numbers for which the arithmetic happens to be exact.", "anchors": ["src/toron/reader.py: NodeReader.translate", "src/toron/data_models.py: BaseMappingRepository.refresh_proportions", "src/toron/_utils.py: quantize_values"]}
{"id": "C108", "title": "Rounded parts are fair", "statement": "A quantity that is split over records and rounded to whole numbers is divided fairly. A record with the larger weight gets at least as much as a record with the smaller weight. Two records with the same weight differ by one at the most. Every record gets one of the two whole numbers around its exact share, or a number in between; a share that is whole stays as it is if the quantity is whole. No record gets a part of the opposite sign. Without rounding, a larger quantity gives every record at least as much as a smaller one. [Exception, proved: with rounding, a larger quantity can give a record less than a smaller quantity gives it.]", "quantifier": "All quantities of both signs, all lists of records, all weights that are not negative, all lists of parts of one sign.", "why_tests_cant": "A remainder is handed out in an order that depends on all fractions and on a hash of the ids; whether a lighter record can overtake a heavier one depends on every combination of weights.", "anchors": ["src/toron/_utils.py: quantize_values", "src/toron/data_service.py: disaggregate_value"]}
{"id": "C109", "title": "Floating-point numbers keep the order of parts", "statement": "Every operation on floating-point numbers rounds, but none of the rounding errors turns an order around. If a quantity is split by weights that are not negative, a record with the larger weight never gets the smaller part, and records with the same weight get the same part, bit for bit. A larger quantity gives no record less, when it is split and when it is translated along any number of links. Whole numbers within the limit of C106 that are rounded to whole numbers: a larger part before rounding is not the smaller one afterwards, every record gets one of the two whole numbers around its part, and a record never gets less than another of smaller weight by more than one. [Exception, proved: by one it can: weights that differ in the last bits can give equal parts before rounding, and then the ids decide.]", "quantifier": "All quantities of both signs, all lists of records, all weights and mapping values that are not negative, all lists of rows, all chains of links.", "why_tests_cant": "Whether an order survives rounding depends on the bits of every number; tests use weights that are far apart.", "anchors": ["src/toron/data_service.py: disaggregate_value", "src/toron/_utils.py: quantize_values", "src/toron/reader.py: NodeReader.translate"]}
{"id": "C110", "title": "Reading a dataspace with floating-point numbers", "statement": "Reading a dataspace of N records with floating-point numbers gives the same rows as with exact numbers, each value with an error of no more than the fraction (N + 2) / 2^52 of it, or fails with the same error. For every condition on the attributes the values add up to the stored quantities but for that fraction of the sum of their absolute values. If the stored quantities are whole numbers z with (N + 2) * |z| < 2^52, reading with rounding to whole numbers gives whole numbers for the same records that add up to the stored quantities exactly.", "quantifier": "All reachable dataspaces with fewer than 2^52 - 1 records, all selectors, all conditions on the attributes.", "why_tests_cant": "Errors of all quantities, structures and weight groups add up; tests compare a few rounded numbers.", "anchors": ["src/toron/space.py: DataSpace.__call__, DataSpace._disaggregate", "src/toron/data_service.py: disaggregate_value", "src/toron/_utils.py: quantize_values"]}
{"id": "C111", "title": "Links of the legacy class", "statement": "In a node of the legacy class, an incoming link is added exactly if there is no link of its name from the same node, no value is negative and all its records exist; it then has for each pair of records the value given for it, and the other links keep their values. At most one link from a node is the default, and a link can be made the default at any time. A record that does not exist leaves the node as it was. Translating quantities gives each record the part of every quantity that its value has in the link chosen by the selectors, else in the default link, and nothing is lost.", "quantifier": "All sequences of adding and editing links, failed ones included, all relations, all quantities and attributes.", "why_tests_cant": "The default flag depends on the order of rows and of all calls; totals depend on all relations of all links.", "anchors": ["src/toron/graph.py: xadd_edge", "src/toron/_dal.py: DataAccessLayer.add_incoming_edge, edit_incoming_edge, translate", "src/toron/_schema.py: begin"]}
{"id": "C112", "title": "The log says which weights were used", "statement": "Reading a dataspace writes to the log which weight groups are used for which attributes. Whenever the reading succeeds this report is written, names each weight group at most once, and names for each selected set of attributes exactly the weight group that applies to it. Every quantity that is read is split by the weight group the report names for its attributes, and nothing is reported when nothing is read.", "quantifier": "All histories, all selectors of the reading and of the weight groups, all domains.", "why_tests_cant": "The report and the splitting choose weight groups in two different places; that they agree depends on all selectors and attributes.", "anchors": ["src/toron/space.py: DataSpace.__call__, DataSpace._disaggregate", "src/toron/data_service.py: find_matching_weight_groups"]}
{"id": "C113", "title": "Links of the legacy class say what the table says", "statement": "A table with labels of two nodes of the legacy class becomes links between their records. A row whose labels fit one record goes to this record, one that fits none goes nowhere, and one that fits several is divided among them in proportion to the weighting that is used, if its columns are a level of the structure and the records are not more than the limit. The value of a link for a pair of records is the sum over all rows of the value times both parts, so that the values of all matched rows are kept. If the links cannot be made, neither node is changed.", "quantifier": "All histories of the two nodes, all tables, limits, weightings, both settings of overlapping, both directions.", "why_tests_cant": "How a row is divided depends on all records and weights and on all other rows of the table; sums over pairs of records are only checked for single tables.", "anchors": ["src/toron/_xmapper.py: xMapper.find_matches, xMapper.get_relations, _match_exact_or_get_info, _match_ambiguous_or_get_info, _refresh_proportions", "src/toron/graph.py: xadd_edge", "src/toron/_dal.py: DataAccessLayer.weight_records"]}
{"id": "C114", "title": "A mapping records which files it belongs to", "statement": "When a mapping between two files is loaded, each link records the name of the other file: its path from the directory both files have in common, without the extension. Different files get different names, the name does not depend on the current directory, a dataspace that is not from a file gets no name, and a link can be found again by the name of the file, with or without the extension.", "quantifier": "All pairs of paths, absolute or relative, all current directories, all links of a dataspace.", "why_tests_cant": "The space of pairs of paths is unbounded; common directories, dots, extensions and separators interact.", "anchors": ["src/toron/graph.py: normalize_filename_hints, load_mapping", "src/toron/data_service.py: find_links_by_ref, get_links_by_ref"]}
{"id": "C115", "title": "Reading and translating through several dataspaces is accurate", "statement": "Reading a dataspace, summing up by attributes, and translating the result to any number of dataspaces one after the other is computed with floating-point numbers. The result has the same rows in the same order as with exact numbers, with each value off by at most the fraction (N + 2 + k (n + 2)) / 2^52 for N records, k translations and at most n mappings per source record, or fails with the same error. For any condition on the attributes the total differs from the stored quantities by at most this fraction of the sum of their absolute values. With whole numbers and quantize=True the total is exact.", "quantifier": "All histories of the source and target dataspaces, all selectors, attribute lists and conditions, any number of translations, quantities of any sign.", "why_tests_cant": "Rounding errors compound with the number of records, mappings and translations; tests compare a few values with a tolerance.", "anchors": ["src/toron/space.py: DataSpace.__call__", "src/toron/reader.py: NodeReader.translate, __rshift__", "src/toron/data_models.py: refresh_proportions", "src/toron/_utils.py: quantize_values"]}
{"id": "C116", "title": "The info command shows which attributes have data", "statement": "The command info writes a report with the summary of the dataspace, one section below the other, each line indented. All registered attributes are listed in their order, and one is shown in dim style exactly if no stored quantity has it. It never fails because of attributes.", "quantifier": "All histories of a dataspace, all styles, file names and widths of the terminal.", "why_tests_cant": "Whether an attribute is in use depends on the whole history of loads and deletions; tests print a few fixed dataspaces.", "anchors": ["src/toron/cli/command_info.py: write_to_stdout", "src/toron/data_service.py: get_loaded_attributes"]}
{"id": "C117", "title": "A table of weights can be loaded again", "statement": "get_weights gives a table exactly if all the groups that are asked for exist. Loaded with insert_weights into a dataspace with the same label columns and records, it gives every record the weight that was listed, by the policy for conflicts; records without a listed weight, the undefined record and other groups stay as they are. If the group had no weights there, it has exactly the listed weights afterwards.", "quantifier": "All histories of both dataspaces, any choice of groups, all policies.", "why_tests_cant": "Reading and writing back must agree for every dataspace and every choice of groups; tests show fixed tables.", "anchors": ["src/toron/graph.py: get_weights", "src/toron/space.py: DataSpace.insert_weights"]}
{"id": "C118", "title": "Help and the default command work with or without a file name", "statement": "Before the words of a command line are parsed as FILE and COMMAND, no word is lost, changed or moved: a single word gets the command info, and a request for help may get a file name put in front. Whoever asks for help about a command gets help about this command, whether a file is named before it or not. A request for help that names only an existing file, or nothing, is given on as it is. An empty command line is never parsed.", "quantifier": "All command lines, all sets of commands, all sets of existing files.", "why_tests_cant": "Every combination of options, file names and command names must be read the same way; tests try a few command lines.", "anchors": ["src/toron/cli/main.py: ToronArgumentParser._preprocess_args", "src/toron/cli/main.py: ToronArgumentParser.parse_args"]}
{"id": "C119", "title": "What is said about a mapping is true", "statement": "After a mapping is loaded it is called verified exactly if every record of both sides is covered and every mapping comes from a record that exists; otherwise the messages tell how many records of the source and of the target are not covered and how many mappings come from records that do not exist any more. The description of a mapping tells the same numbers, for the link from this source with this name. There is a description exactly if there is such a link.", "quantifier": "All histories of both dataspaces, all links and names, all file names.", "why_tests_cant": "The numbers are put together from fingerprints, counts and lookups that must agree for every history of both dataspaces; tests compare fixed texts.", "anchors": ["src/toron/graph.py: _log_load_mapping_stats", "src/toron/graph.py: get_mapping_info_str", "src/toron/graph.py: _get_mapping_stats"]}
{"id": "C120", "title": "Which files are taken for Toron files", "statement": "A file can be opened only if it begins like an SQLite database and has both marks of a Toron file at their places in the header; nothing else in the file matters. The file of every dataspace that was made by this program has them. A database with another application id or version number, and a file that is too short, are refused. The check of a database that is already open gives the same answer.", "quantifier": "All files (byte sequences of any length), all databases.", "why_tests_cant": "It ranges over every byte sequence; tests try one text file and one saved dataspace.", "anchors": ["src/toron/data_access.py: get_backend_from_path", "src/toron/dal1/schema.py: create_node_schema", "src/toron/dal1/schema.py: is_supported_schema"]}
{"id": "C121", "title": "What is read of a link is what was given", "statement": "The rows that are read of a link of a legacy node are the rows that its relations were made from: a relation that was given with all labels appears with these labels and its own value; relations that were made from a row that left labels out appear together, with these labels left out and with the sum of their values. There is one row for each record of the other node and labels. For every record of the other node the values have the same total as its relations. Records that nothing is mapped to appear without a value. With reified=True there is a row for every relation, which names the labels that had been left out. A link that does not exist is an error.", "quantifier": "All nodes with any number of columns and records, all links with any relations and mapping levels.", "why_tests_cant": "It ranges over all sets of relations and levels; tests read two small links of one node.", "anchors": ["src/toron/_dal.py: get_incoming_edge", "src/toron/_schema.py: _user_apply_bit_flag"]}
{"id": "C122", "title": "Removing columns keeps what links say", "statement": "When index columns of a legacy node are removed, relations that were given with all labels keep their record and value; a relation that was made from a row that left labels out afterwards says that it was given with exactly those of its columns that remain. If a level cannot be kept by the new structure, the removal is refused, or with preserve_edges=False exactly these relations are deleted. If records are merged, then a relation to a merged record has the sum of the values of the relations to the records it was made from, separately for each link, record of the other node and level, and no relation is lost or added.", "quantifier": "All nodes with any columns, records, links, relations and levels; all sets of removed columns; all orders in which the database lists the levels.", "why_tests_cant": "Whether a level is changed twice depends on which levels occur together and in which order they are listed; tests have one level at a time.", "anchors": ["src/toron/_dal.py: _coarsen_records_make_sql", "src/toron/_dal.py: _remove_index_columns_execute_sql", "src/toron/xnode.py: remove_index_columns"]}
{"id": "C123", "title": "A link made from a table is read as the table", "statement": "If a link of a legacy node is made from a table and then read, each row of the table that belongs to one record of the other node and fits a record of the node comes back with its labels and its value. Rows with the same labels that belong to the same record come back as one row with the sum of the values; a row that belongs to several records of the other node comes back as one row for each of them with its part of the value. Columns that were left empty come back empty. Nothing else is read for a record of the other node.", "quantifier": "All reachable legacy nodes; all tables with any rows, labels and values; all matches on the side of the other node; all match limits and weightings.", "why_tests_cant": "What comes back depends on how many records each row fits, which records other rows have taken, how the value was divided and how the level was packed into bytes; tests read links whose relations were written by hand.", "anchors": ["src/toron/_xmapper.py: xMapper.find_matches", "src/toron/_xmapper.py: xMapper.get_relations", "src/toron/_dal.py: _add_edge_relations", "src/toron/_dal.py: get_incoming_edge", "src/toron/graph.py: xadd_edge"]}
{"id": "C124", "title": "A mapping table of a legacy link is read cell by cell", "statement": "The column of the values in the table for a legacy link is the first one whose header, without blanks at its ends, is the name of the link or the shorthand for a link of this name; if there is none, the call is refused and both nodes stay as they are. The columns before it are those of the left node, the others those of the right node. Every row with cells counts once, in order, with the labels before and after the value; empty rows do not count. The table is refused if a row has no value, and then both nodes stay as they are. From such a table, a row that belongs to one record and is the only one with its labels comes back with its value when the link is read.", "quantifier": "All tables with any headers, rows and cells; all names; all pairs of reachable legacy nodes.", "why_tests_cant": "Headers and rows are free text: which column is found depends on all headers before it, and the row that comes back depends on all other rows; tests use one header and rows of one shape.", "anchors": ["src/toron/_xmapper.py: xMapper.__init__", "src/toron/_utils.py: parse_edge_shorthand", "src/toron/graph.py: xadd_edge"]}
{"id": "C125", "title": "Quantities of a legacy node are read and deleted by conditions", "statement": "Deleting quantities of a legacy node with conditions removes exactly the quantities that meet all of them, and then the locations that no quantity is left for; records, weights, attributes and properties stay as they are. Without a condition the call is refused, and so is a key with a NUL. Reading gives one row for each quantity that meets all conditions, with the labels of its location, its attributes and the quantity. After quantities were deleted, reading with the same conditions gives nothing.", "quantifier": "All reachable legacy nodes, all conditions.", "why_tests_cant": "Which quantities are affected depends on how every key is divided between columns and attributes and on all stored quantities; tests delete from one small table with plain keys.", "anchors": ["src/toron/_dal.py: get_raw_quantities, delete_raw_quantities, _get_raw_quantities_format_args"]}
{"id": "C126", "title": "Index records of a legacy node are read by conditions, in groups", "statement": "Reading index records of a legacy node with conditions gives exactly the records that meet all of them, and is refused if a key is not a column. When records are read in groups, each group with its own conditions, a group gives exactly the records that meet its conditions and then ends, however the groups are asked for and read.", "quantifier": "All reachable legacy nodes, all lists of conditions, all orders in which groups are asked for and records are taken from them.", "why_tests_cant": "The iterators of the groups share state, so the result depends on the order of all calls; tests read each group to its end before the next.", "anchors": ["src/toron/_dal.py: index_records, index_records_grouped, _select_index_records"]}
{"id": "C127", "title": "A link of a legacy node survives the removal of columns", "statement": "When columns are removed from a legacy node, its links with ambiguous relations are made again: afterwards a link shows the same rows as before, with the same values, where rows that now stand for the same records are added up; for each record of the other node the total is the same. No row is lost, and the removal does not fail because of it.", "quantifier": "All reachable legacy nodes whose weights are not zero, all links and relations, all names.", "why_tests_cant": "Reading the link, matching its rows anew and dividing the values by weights are separate steps whose composition depends on all records, categories, weights and rows; tests remove a column from one node with one link.", "anchors": ["src/toron/_dal.py: _remove_index_columns_execute_sql, _get_incoming_edge, _add_edge_relations", "src/toron/_xmapper.py: assign_matches_by_id, find_matches, get_relations"]}
{"id": "C128", "title": "New columns leave the links of a legacy node as they are", "statement": "After columns are added to a legacy node, every link shows the same rows with the same records of the other node and the same values. In a row in which all labels were given the new labels are '-'; in an ambiguous row the new columns are not given either, and the text of the columns that were not given names them too. This holds however often columns are added.", "quantifier": "All reachable legacy nodes, all lists of names, all links made from tables.", "why_tests_cant": "The levels of the relations are stored as bits that nobody rewrites when columns are added, so whether rows merge, split or change depends on every stored level and on the number of columns; tests add a column to one node without links.", "anchors": ["src/toron/xnode.py: xNode.add_index_columns", "src/toron/_dal.py: _add_index_columns_make_sql, get_incoming_edge", "src/toron/_schema.py: _user_apply_bit_flag"]}
{"id": "C129", "title": "Renaming the columns of a legacy node", "statement": "Renaming gives every column of a legacy node its new name at its place and changes nothing else: records, quantities, weights and links stay as they are. Names can be given whenever the new names are allowed and different, and the result does not depend on the version of SQLite.", "quantifier": "All reachable legacy nodes, all functions from names to names, SQLite before and since 3.25.0.", "why_tests_cant": "New versions rename column by column, so success depends on the order in which names become free; old versions copy the tables by name. Tests rename one or two columns of one node with the version that is installed.", "anchors": ["src/toron/_dal.py: DataAccessLayer.rename_index_columns, DataAccessLayerPre25.rename_index_columns, _rename_index_columns_apply_mapper, _rename_index_columns_make_sql", "src/toron/_schema.py: normalize_identifier"]}
{"id": "C130", "title": "Removing columns of a legacy node does not depend on the version of SQLite", "statement": "When columns are removed from a legacy node without links, an old version of SQLite (before 3.35.0, where the tables are built anew) and a new one do the same: the removal fails with the same error, or the node is the same afterwards, records have the same numbers, and the next record gets a number that no record had.", "quantifier": "All reachable legacy nodes without links, all names, all settings of what has to be preserved.", "why_tests_cant": "The two classes run different statements with foreign keys on or off; only one of them runs with the version that is installed, so no test compares them.", "anchors": ["src/toron/_dal.py: DataAccessLayer.remove_index_columns, DataAccessLayerPre35.remove_index_columns, _remove_index_columns_make_sql, _remove_index_columns_execute_sql"]}
{"id": "C131", "title": "Disaggregation on a legacy node does not depend on the version of SQLite", "statement": "With an old version of SQLite (before 3.25.0, which has no window functions) both ways of disaggregating the quantities of a legacy node give the same rows, or fail with the same error, as with a new one; in particular no part of a quantity is lost.", "quantifier": "All reachable legacy nodes, all conditions on labels and attributes, all attributes to match.", "why_tests_cant": "The two classes run different statements and only one of them runs with the version that is installed; the results differ only for particular combinations of weights, levels and earlier pieces.", "anchors": ["src/toron/_dal.py: DataAccessLayer._disaggregate_make_sql, _adaptive_disaggregate_make_sql, DataAccessLayerPre25._disaggregate_make_sql, _adaptive_disaggregate_make_sql, static_disaggregate, adaptive_disaggregate"]}
